import Verif.Model.DiffWrite
import Verif.Spec.StoreIds
/-!
# Specification vocabulary for diffs

When an object fits its definition, when an object may follow another one, and which diffs cannot be read back.
-/
namespace Verif.Diff
open VarInt Codec Compaction LinkedMap

/-- var_type.rs: what a kind of variable may hold. -/
def VType.Allows : VType → QvType → Prop
  | _, .val => True
  | .nullable, .null => True
  | .undefNullable, .null => True
  | .undefiable, .undef => True
  | .undefNullable, .undef => True
  | _, _ => False

/-- The type of a parameter. -/
def Param.ptype : Param → PType
  | .bool _ => .bool
  | .int _ => .int
  | .float _ => .float
  | .string _ => .string
  | .intArray _ => .intArray
  | .floatArray _ => .floatArray
  | .binary _ => .binary

/-- The value is one of its Rust type: `i64`, and lengths below `isize::MAX`. -/
def Param.Fits : Param → Prop
  | .int (.val i) => InI64 i
  | .string (.val s) => (strBytes s).length < 2 ^ 63
  | .intArray (.val v) => v.length < 2 ^ 63
  | .floatArray (.val v) => v.length < 2 ^ 63
  | .binary (.val v) => v.length < 2 ^ 63
  | _ => True

/-- A parameter fits its column. -/
def ParamOk (pt : PType) (vt : VType) (p : Param) : Prop := p.ptype = pt ∧ vt.Allows p.qvType ∧ p.Fits

/-- A reference fits its column. -/
def RefOk (vt : VType) (q : Qv String) : Prop :=
  vt.Allows q.type ∧ match q with
    | .val s => (strBytes s).length < 2 ^ 63
    | _ => True

section
variable {S X D : Type}

/-- A member fits its column: absent, a parameter of the type, a list, or (if allowed) an undefined list. -/
def CellOk (ok : S → X → Prop) : Option (Col S) → Option (Cell X) → Prop
  | _, none => True
  | some (.param pt vt), some (.param p) => ParamOk pt vt p
  | some (.mlist s), some (.mil (some x)) => ok s x
  | some (.optMil _), some (.mil none) => True
  | some (.optMil s), some (.mil (some x)) => ok s x
  | _, _ => False

/-- An item fits its definition. -/
def RowOk (ok : S → X → Prop) (tb : Table S) (r : Row X) : Prop :=
  r.values.length = tb.items.length ∧ (∀ i, CellOk ok (entry tb.items i) (entry r.values i)) ∧
  r.refs.length = tb.refs.length ∧
  ∀ i q, entry r.refs i = some q → ∃ vt, tb.refs[i]? = some vt ∧ RefOk vt q

/-- A list fits its definition: ids are distinct and of type `u64`, sizes are those of things in memory, items fit. -/
def ListOk (ok : S → X → Prop) (tb : Table S) (l : SList (Row X)) : Prop :=
  tb.items.length < 2 ^ 62 ∧ tb.refs.length < 2 ^ 62 ∧
  l.ids.Nodup ∧ (∀ i ∈ l.ids, i < 2 ^ 64) ∧ l.nextId < 2 ^ 64 ∧ l.items.length < 2 ^ 62 ∧
  ∀ x ∈ l.items, RowOk ok tb x.2

/-- Between two values of a parameter, no float changes its bits while staying numerically equal (`0.0` and `-0.0`). -/
def ParamStep : Param → Param → Prop
  | .float (.val a), .float (.val b) => eq64 a b = true → a = b
  | .floatArray (.val a), .floatArray (.val b) => eqFloats a b = true → a = b
  | _, _ => True

/-- How a member may change: nothing that was set becomes absent (`sabun` is never removed). -/
def CellStep (st : X → X → Prop) : Option (Cell X) → Option (Cell X) → Prop
  | f, none => f = none
  | some (.param q), some (.param p) => ParamStep q p
  | some (.mil (some a)), some (.mil (some b)) => st a b
  | _, _ => True

/-- How an item may change. -/
def RowStep (st : X → X → Prop) (f t : Row X) : Prop :=
  (∀ i, CellStep st (entry f.values i) (entry t.values i)) ∧ ∀ i, entry t.refs i = none → entry f.refs i = none

/-- The items that both lists have are in the same order. -/
def SameOrder (a b : SList (Row X)) : Prop :=
  a.ids.filter (· ∈ b.ids) = b.ids.filter (· ∈ a.ids)

/-- Items that both lists have may have changed. -/
def ItemsStep (st : X → X → Prop) (a b : SList (Row X)) : Prop :=
  ∀ x ∈ a.items, ∀ y ∈ b.items, x.1 = y.1 → RowStep st x.2 y.2

/-- How a list may change: any insertions and removals, no moves, and the next id does not change alone. -/
def ListStep (st : X → X → Prop) (a b : SList (Row X)) : Prop :=
  SameOrder a b ∧ (a.items = b.items → a.nextId = b.nextId) ∧ ItemsStep st a b

/-- No float of the parameter is a NaN, the only value that differs from itself. -/
def Param.NoNan : Param → Prop
  | .float (.val a) => f64.isNan a.toNat = false
  | .floatArray (.val v) => ∀ a ∈ v, f64.isNan a.toNat = false
  | _ => True

def CellNoNan (nn : X → Prop) : Option (Cell X) → Prop
  | some (.param p) => p.NoNan
  | some (.mil (some x)) => nn x
  | _ => True

def ListNoNan (nn : X → Prop) (l : SList (Row X)) : Prop := ∀ x ∈ l.items, ∀ i, CellNoNan nn (entry x.2.values i)

/-- The changed members of an item are not stored as a list of numbers that contains a list. -/
def rowReadable (c : D → Bool) (d : RowDiff D) : Bool :=
  (match storeIds (d.params.map (·.1)) (d.lists.map (·.1)) with
   | .numbers _ => d.lists.isEmpty
   | _ => true) && d.lists.all fun x => x.2.all c

/-- No changed item has that problem. -/
def itemReadable (c : D → Bool) : ItemDiff D → Bool
  | .delete => true
  | .create _ d => rowReadable c d
  | .modify d => rowReadable c d

def listReadable (c : D → Bool) (d : ListDiff D) : Bool := d.items.all fun x => itemReadable c x.2

end

/-- A list of level `n` fits its definition. -/
def ObjOk : (n : Nat) → Sch n → Obj n → Prop
  | 0 => fun s _ => nomatch s
  | n + 1 => fun s l => ListOk (ObjOk n) s l

/-- How a list of level `n` may change. -/
def ObjStep : (n : Nat) → Obj n → Obj n → Prop
  | 0 => fun a _ => nomatch a
  | n + 1 => fun a b => ListStep (ObjStep n) a b

/-- There is no NaN in a list of level `n`. -/
def ObjNoNan : (n : Nat) → Obj n → Prop
  | 0 => fun a => nomatch a
  | n + 1 => fun a => ListNoNan (ObjNoNan n) a

/-- The diff of a list of level `n` can be read back. -/
def readable : (n : Nat) → DiffT n → Bool
  | 0 => fun d => nomatch d
  | n + 1 => fun d => listReadable (readable n) d

/-- A root object fits its definition; the entries of its lists are always present (get_root_diff.rs:43). -/
def RootOk (n : Nat) (sch : RootSch n) (r : Root n) : Prop :=
  sch.length < 2 ^ 62 ∧ r.length = sch.length ∧ (∀ i, CellOk (ObjOk n) (entry sch i) (entry r i)) ∧
  ∀ i s, entry sch i = some (.mlist s) ∨ entry sch i = some (.optMil s) → entry r i ≠ none

/-- The lists of the root object that may be undefined are undefined. -/
def OptListsUndefined (n : Nat) (sch : RootSch n) (r : Root n) : Prop :=
  ∀ i s, entry sch i = some (.optMil s) → entry r i = some (.mil none)

/-- How a root object may change. -/
def RootStep (n : Nat) (f t : Root n) : Prop := ∀ i, CellStep (ObjStep n) (entry f i) (entry t i)

/-- The diff of a root object can be read back. -/
def rootReadable (n : Nat) (d : RootDiff (DiffT n)) : Bool := d.lists.all fun x => x.2.all (readable n)

/-- If a definition has lists inside, they have ids below 11, and all members that can change have ids below 22; so for the definitions of
these lists. Every definition with at most 11 members qualifies, and every definition without lists inside, whatever its size. -/
def LegibleTables : (n : Nat) → Sch n → Prop
  | 0 => fun s => nomatch s
  | n + 1 => fun s => ∀ i t, entry s.items i = some (.mlist t) ∨ entry s.items i = some (.optMil t) →
    i < 11 ∧ (∀ j c, entry s.items j = some c → j < 22) ∧ LegibleTables n t

/-- Sizes of definitions are those of things in memory. -/
def TablesFit : (n : Nat) → Sch n → Prop
  | 0 => fun s => nomatch s
  | n + 1 => fun s => s.items.length < 2 ^ 62 ∧ s.refs.length < 2 ^ 62 ∧
    ∀ i t, entry s.items i = some (.mlist t) ∨ entry s.items i = some (.optMil t) → TablesFit n t

end Verif.Diff
