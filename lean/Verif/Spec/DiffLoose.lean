import Verif.Spec.Diff
/-!
# Objects that are the same but for what a diff does not store

A diff does not store where items are moved to, a next id that changes alone, and the sign of a zero. For C79.
-/
namespace Verif.Diff
open VarInt Codec Compaction LinkedMap

/-- Two values of a parameter are equal, or they are floats that are numerically equal (`0.0` and `-0.0`). -/
def ParamLoose : Param → Param → Prop
  | .float (.val a), .float (.val b) => a = b ∨ eq64 a b = true
  | .floatArray (.val a), .floatArray (.val b) => a = b ∨ eqFloats a b = true
  | p, q => p = q

section
variable {X : Type}

def CellLoose (lo : X → X → Prop) : Option (Cell X) → Option (Cell X) → Prop
  | none, none => True
  | some (.param q), some (.param p) => ParamLoose q p
  | some (.mil none), some (.mil none) => True
  | some (.mil (some a)), some (.mil (some b)) => lo a b
  | _, _ => False

def RowLoose (lo : X → X → Prop) (a b : Row X) : Prop :=
  (∀ i, CellLoose lo (entry a.values i) (entry b.values i)) ∧ ∀ i, entry a.refs i = entry b.refs i

/-- The lists have the same items, in any order; the next id of the first is not greater. -/
def ListLoose (lo : X → X → Prop) (a b : SList (Row X)) : Prop :=
  a.ids.Perm b.ids ∧ a.nextId ≤ b.nextId ∧ ∀ x ∈ a.items, ∀ y ∈ b.items, x.1 = y.1 → RowLoose lo x.2 y.2

/-- What was there stays there. -/
def CellStays (st : X → X → Prop) : Option (Cell X) → Option (Cell X) → Prop
  | none, _ => True
  | some (.param _), t => ∃ p, t = some (.param p)
  | some (.mil none), t => ∃ m, t = some (.mil m)
  | some (.mil (some a)), t => ∃ b, t = some (.mil (some b)) ∧ st a b

def RowStays (st : X → X → Prop) (f t : Row X) : Prop :=
  (∀ i, CellStays st (entry f.values i) (entry t.values i)) ∧ ∀ i, entry t.refs i = none → entry f.refs i = none

/-- Items may be inserted, removed and moved; the next id does not get smaller; inserted items have ids that the first list did not use;
what is set in an item stays set. -/
def ListStays (st : X → X → Prop) (a b : SList (Row X)) : Prop :=
  a.nextId ≤ b.nextId ∧ (∀ i ∈ b.ids, i ∈ a.ids ∨ a.nextId ≤ i) ∧ ∀ x ∈ a.items, ∀ y ∈ b.items, x.1 = y.1 → RowStays st x.2 y.2

/-- A list that can be written, whose ids are smaller than its next id. -/
def ListOkF {S : Type} (ok : S → X → Prop) (tb : Table S) (l : SList (Row X)) : Prop := ListOk ok tb l ∧ ∀ i ∈ l.ids, i < l.nextId

end

def ObjOkF : (n : Nat) → Sch n → Obj n → Prop
  | 0 => fun s _ => nomatch s
  | n + 1 => fun s l => ListOkF (ObjOkF n) s l

def RootOkF (n : Nat) (sch : RootSch n) (r : Root n) : Prop := RootOk n sch r ∧ ∀ i, CellOk (ObjOkF n) (entry sch i) (entry r i)

def ObjLoose : (n : Nat) → Obj n → Obj n → Prop
  | 0 => fun a _ => nomatch a
  | n + 1 => fun a b => ListLoose (ObjLoose n) a b

def ObjStays : (n : Nat) → Obj n → Obj n → Prop
  | 0 => fun a _ => nomatch a
  | n + 1 => fun a b => ListStays (ObjStays n) a b

def RootLoose (n : Nat) (a b : Root n) : Prop := ∀ i, CellLoose (ObjLoose n) (entry a i) (entry b i)

def RootStays (n : Nat) (a b : Root n) : Prop := ∀ i, CellStays (ObjStays n) (entry a i) (entry b i)

end Verif.Diff
