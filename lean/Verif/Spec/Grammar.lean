import Verif.Spec.Source
/-! # The language of sources

What the value of a member may be, and what it is then. Nothing here depends on the order in which hash maps are iterated: the maps of the
result are described by what they have under each name, and the ids of list members only by being 0 to n - 1. -/
namespace Verif.Source
open Diff Core

/-- the last declaration of its name -/
def Last (l : List Decl) (d : Decl) : Prop := ∃ p s, l = p ++ d :: s ∧ d.name ∉ names s

/-- what an object has under a key -/
def under (k : String) (m : List (String × JVal)) : List JVal := (m.filter fun e => e.1 = k).map (·.2)

/-- the values are legal member names; `old` has them, without repetition -/
def NamesAre (a : List JVal) (old : List String) : Prop :=
  ∃ l : List String, a = l.map .string ∧ (∀ s ∈ l, Names.Ident s.toList) ∧ old.Nodup ∧ ∀ s, s ∈ old ↔ s ∈ l

/-- what is under `Old` is a list of names; the last one counts -/
def OldIs (m : List (String × JVal)) (old : List String) : Prop :=
  (∀ v ∈ under "Old" m, ∃ a o, v = .array a ∧ NamesAre a o) ∧
  ((under "Old" m = [] ∧ old = []) ∨ ∃ p a, under "Old" m = p ++ [.array a] ∧ NamesAre a old)

/-- the object has no `ID` -/
def NoId (m : List (String × JVal)) : Prop := under "ID" m = []
/-- the object has this string as its `ID` -/
def StrId (m : List (String × JVal)) (s : String) : Prop := under "ID" m = [.string s]
/-- the object is the `i`-th of a mutable list and has this id -/
def NumId (m : List (String × JVal)) (i id : Nat) : Prop :=
  (∃ f, under "ID" m = [.double f] ∧ id = f64ToU64 f) ∨ (under "ID" m = [] ∧ id = i)

/-- what an object has under `Ref` and `Enum`, in order -/
def refEntries (m : List (String × JVal)) : List (Bool × JVal) :=
  (m.filter fun e => e.1 = "Ref" ∨ e.1 = "Enum").map fun e => (decide (e.1 = "Enum"), e.2)

/-- the value of a reference: nothing, or a name, or the empty string -/
inductive RefValue : JVal → Qv String → Prop
  | string {s : String} : s = "" ∨ Names.Ident s.toList → RefValue (.string s) (.val s)
  | null : RefValue .null .null
  | undef : RefValue .undef .undef

mutual
/-- The references of an object are those of the last `Ref` or `Enum`; the others are empty. -/
inductive RefsAre : List (Bool × JVal) → RefDefI → Prop
  | none : RefsAre [] ⟨[], false, []⟩
  | some {p : List (Bool × JVal)} {b : Bool} {m : List (String × JVal)} {refs : AMap (Nat × Qv String × VType)} {old : List String}
      (f : Bool × JVal → List (String × JVal)) (o : Bool × JVal → List String) :
      (∀ e ∈ p, e.2 = .map (f e)) → (∀ e ∈ p, RefObj (f e) [] (o e)) → RefObj m refs old → RefsAre (p ++ [(b, .map m)]) ⟨refs, b, old⟩
/-- an object with references -/
inductive RefObj : List (String × JVal) → AMap (Nat × Qv String × VType) → List String → Prop
  | mk {m : List (String × JVal)} {l : List Decl} {r : RefDefI} {refs : AMap (Nat × Qv String × VType)} {old : List String} :
      MapDecls m l → NoId m → OldIs m old → RefsAre (refEntries m) r → r.refs = [] →
      (∀ d ∈ l, d.val = .null ∨ d.val = .undef ∨ ∃ s, d.val = .string s) →
      (refs.map (·.1)).Nodup → IdsFill (refs.map (·.2.1)) → (∀ n, n ∈ refs.map (·.1) ↔ n ∈ names l) →
      (∀ d, Last l d → ∃ id q, (d.name, id, q, d.vt) ∈ refs ∧ RefValue d.val q) → RefObj m refs old
end

/-- values that an item may have -/
inductive SabOf : RustVal → SabVal → Prop
  | param (p vt) : SabOf (.param p vt) (.param p)
  | cil (l) : SabOf (.cil l) (.cil l)
  | milNone : SabOf (.mil none) .milNone
  | mil (l : MutList) : SabOf (.mil (some l)) (.mil l.1 l.2)

/-- values that the definition of a list may have -/
inductive DefOf : RustVal → LDefVal → Prop
  | param (p vt) : DefOf (.param p vt) (.param p vt)
  | cilDef (d) : DefOf (.cilDef d) (.cilDef d)
  | milDef (d u) : DefOf (.milDef d u) (.milDef d u)

/-- the way to write the definition of a list -/
def IsDefault (a : List JVal) (m : List (String × JVal)) : Prop := a = [.map m] ∨ a = [.string "Default", .map m]

/-- the attribute for the next id, if there is one -/
def nextAttr : Option Int → List (List JVal)
  | none => []
  | some n => [[.string "NextID", .int n]]

/-- the next id of a list of `len` items -/
def nextOf (n : Option Int) (len : Nat) : Nat :=
  if len = 0 then 0 else match n with | none => len | some n => i64ToU64 n

/-- the attribute for old names, if there is one -/
inductive OldAttr : List (List JVal) → List String → Prop
  | none : OldAttr [] []
  | some {a : List JVal} {old : List String} : NamesAre a old → OldAttr [.string "Old" :: a] old

/-- what is written after the kind of a list: attributes, then items -/
def written (kind : String) (attrs : List (List JVal)) (items : List (List (String × JVal))) : JVal :=
  .array (.string kind :: (attrs.map .array ++ items.map .map))

/-- only mutable lists may be undefiable -/
def Undefiable : VType → Bool → Prop
  | .normal, u => u = false
  | .undefiable, u => u = true
  | _, _ => False

mutual
/-- a value with the suffix of its name, and what it is -/
inductive Reads : VType → JVal → RustVal → Prop
  | value {vt : VType} {v : JVal} {p : Param} : Means v p → Reads vt v (.param p vt)
  | milUndef (vt : VType) (r : List JVal) : Reads vt (.array (.string "__InnerMutUndefined" :: r)) (.mil none)
  | clist {a : List JVal} {m : List (String × JVal)} {d : LDef} {ms : List (List (String × JVal))} {items : List Item} :
      IsDefault a m → ReadsDef m d → items.length = ms.length → (∀ m ∈ ms, NoId m) → (∀ e ∈ ms.zip items, ReadsItem e.1 e.2) →
      Reads .normal (written "CList" [a] ms) (.clist d items)
  | table {a : List JVal} {m : List (String × JVal)} {d : LDef} {as os : List (List JVal)} {old : List String}
      {ms : List (List (String × JVal))} {rows : List (String × Item)} {t : AMap Item} :
      IsDefault a m → ReadsDef m d → as.Perm (a :: os) → OldAttr os old → rows.length = ms.length →
      (∀ e ∈ ms.zip rows, StrId e.1 e.2.1) → (∀ e ∈ ms.zip rows, ReadsItem e.1 e.2.2) →
      t.Wf → (∀ n, n ∈ t.map (·.1) ↔ n ∈ rows.map (·.1)) → (∀ p n it s, rows = p ++ (n, it) :: s → n ∉ s.map (·.1) → t.get n = some it) →
      Reads .normal (written "Table" as ms) (.table d t old)
  | mlist {vt : VType} {u : Bool} {a : List JVal} {m : List (String × JVal)} {d : LDef} {as : List (List JVal)} {n : Option Int}
      {ms : List (List (String × JVal))} {items : List (Nat × Item)} :
      Undefiable vt u → IsDefault a m → ReadsDef m d → as.Perm (a :: nextAttr n) → items.length = ms.length →
      (∀ i m e, ms[i]? = some m → items[i]? = some e → NumId m i e.1) → (∀ e ∈ ms.zip items, ReadsItem e.1 e.2.2) →
      Reads vt (written "MList" as ms) (.mlist d u (some (items, nextOf n ms.length)))
  | cil {ms : List (List (String × JVal))} {items : List Item} :
      items.length = ms.length → (∀ m ∈ ms, NoId m) → (∀ e ∈ ms.zip items, ReadsItem e.1 e.2) → Reads .normal (written "Cil" [] ms) (.cil items)
  | mil {n : Option Int} {ms : List (List (String × JVal))} {items : List (Nat × Item)} : items.length = ms.length →
      (∀ i m e, ms[i]? = some m → items[i]? = some e → NumId m i e.1) → (∀ e ∈ ms.zip items, ReadsItem e.1 e.2.2) →
      Reads .normal (written "Mil" (nextAttr n) ms) (.mil (some (items, nextOf n ms.length)))
  | cilDef {a : List JVal} {m : List (String × JVal)} {d : LDef} :
      IsDefault a m → ReadsDef m d → Reads .normal (written "CilDef" [a] []) (.cilDef d)
  | milDef {vt : VType} {u : Bool} {a : List JVal} {m : List (String × JVal)} {d : LDef} :
      Undefiable vt u → IsDefault a m → ReadsDef m d → Reads vt (written "MilDef" [a] []) (.milDef d u)
/-- the object that defines a list -/
inductive ReadsDef : List (String × JVal) → LDef → Prop
  | mk {m : List (String × JVal)} {l : List Decl} {r : RefDefI} {old : List String} {members : List (String × Nat × LDefVal)} (f : Decl → RustVal) :
      MapDecls m l → NoId m → OldIs m old → RefsAre (refEntries m) r → (∀ d ∈ l, Reads d.vt d.val (f d)) →
      (members.map (·.1)).Nodup → IdsFill (members.map (·.2.1)) → (∀ n, n ∈ members.map (·.1) ↔ n ∈ names l) →
      (∀ d, Last l d → ∃ id y, (d.name, id, y) ∈ members ∧ DefOf (f d) y) → ReadsDef m (.mk members r old)
/-- an item of a list, without its id -/
inductive ReadsItem : List (String × JVal) → Item → Prop
  | mk {m : List (String × JVal)} {l : List Decl} {r : RefDefI} {values : List (String × SabVal)} {refs : List (String × Qv String)} (f : Decl → RustVal) :
      MapDecls m l → OldIs m [] → RefsAre (refEntries m) r → r.old = [] → (∀ d ∈ l, Reads d.vt d.val (f d)) →
      (values.map (·.1)).Nodup → (∀ n, n ∈ values.map (·.1) ↔ n ∈ names l) → (∀ d, Last l d → ∃ y, (d.name, y) ∈ values ∧ SabOf (f d) y) →
      (refs.map (·.1)).Nodup → (∀ n q, (n, q) ∈ refs ↔ ∃ id vt, (n, id, q, vt) ∈ r.refs) → ReadsItem m (.mk values refs)
end

/-- values that a member of the root may have, and the items of a list that can change -/
inductive RootValOf : RustVal → RootValI → Option RootSab → Prop
  | param (p vt) : RootValOf (.param p vt) (.param p vt) none
  | table (d l o) : RootValOf (.table d l o) (.table d l o) none
  | clist (d l) : RootValOf (.clist d l) (.clist d l) none
  | mlist (d u l) : RootValOf (.mlist d u l) (.mlist d u) (some (.list l))

/-- a declaration of a member of the root -/
def ReadsRoot (d : Decl) (y : RootValI) (s : Option RootSab) : Prop := ∃ x, Reads d.vt d.val x ∧ RootValOf x y s

/-- the root object: no `ID`, no references, and every member that counts may be a member of the root -/
def RootMap (m : List (String × JVal)) (l : List Decl) (old : List String) : Prop :=
  MapDecls m l ∧ NoId m ∧ OldIs m old ∧ (∃ r, RefsAre (refEntries m) r ∧ r.refs = []) ∧ (∀ d ∈ l, ∃ x, Reads d.vt d.val x) ∧
  ∀ d, Last l d → ∃ y s, ReadsRoot d y s

/-- A source has one root object; the other files are members. -/
def Readable (files : List (String × JVal)) : Prop :=
  ∃ p m s l old, files = p ++ ("root", .map m) :: s ∧ RootMap m l old ∧
    ∀ e ∈ p ++ s, e.1 ≠ "root" ∧ ∃ n vt y sab, Written e.1 n vt ∧ ReadsRoot ⟨n, vt, e.2⟩ y sab

/-! ## Without ids -/

/-- the same references, without ids -/
def SameRefs (r : RefDefI) (r' : RefDef) : Prop :=
  List.Forall₂ (fun (e : String × Nat × Qv String × VType) (e' : String × Qv String × VType) => e'.1 = e.1 ∧ e'.2.1 = e.2.2.1 ∧ e'.2.2 = e.2.2.2) r.refs r'.refs ∧
  (r'.isEnum = true ↔ r.isEnum = true) ∧ r'.old = r.old

mutual
/-- the same definition of a list, without ids -/
inductive SameDef : LDef → ListDef → Prop
  | mk {ms : List (String × Nat × LDefVal)} {ms' : List (String × DefVal)} {r : RefDefI} {r' : RefDef} {old : List String} :
      SameMembers ms ms' → SameRefs r r' → SameDef (.mk ms r old) (.mk ms' r' old)
inductive SameMembers : List (String × Nat × LDefVal) → List (String × DefVal) → Prop
  | nil : SameMembers [] []
  | param {n id p vt l l'} : SameMembers l l' → SameMembers ((n, id, .param p vt) :: l) ((n, .param p vt) :: l')
  | cilDef {n id d d' l l'} : SameDef d d' → SameMembers l l' → SameMembers ((n, id, .cilDef d) :: l) ((n, .cilDef d') :: l')
  | milDef {n id d d' u l l'} : SameDef d d' → SameMembers l l' → SameMembers ((n, id, .milDef d u) :: l) ((n, .milDef d' u) :: l')
end

/-- the same member of the root, without ids -/
inductive SameRootVal : RootValI → RootVal → Prop
  | param (p vt) : SameRootVal (.param p vt) (.param p vt)
  | table {d d'} (l o) : SameDef d d' → SameRootVal (.table d l o) (.table d' l o)
  | clist {d d'} (l) : SameDef d d' → SameRootVal (.clist d l) (.clist d' l)
  | mlist {d d'} (u) : SameDef d d' → SameRootVal (.mlist d u) (.mlist d' u)

end Verif.Source
