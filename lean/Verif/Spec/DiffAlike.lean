import Verif.Spec.DiffLoose
/-!
# Versions of an object

What a file gives depends on what it is applied to: an object that was saved, or one that was composed of files. Such objects are alike:
they have the same items, in any order and with any next ids, and floats that are numerically equal. For C81.
-/
namespace Verif.Diff
open VarInt Codec Compaction LinkedMap

section
variable {X : Type}

/-- The lists have the same items, in any order. -/
def ListAlike (lo : X → X → Prop) (a b : SList (Row X)) : Prop :=
  a.ids.Perm b.ids ∧ ∀ x ∈ a.items, ∀ y ∈ b.items, x.1 = y.1 → RowLoose lo x.2 y.2

/-- In items with the same id, what was set stays set. With `q`: ids of the first list will not be used again for new items. -/
def ListHolds (q : Prop) (st : X → X → Prop) (a b : SList (Row X)) : Prop :=
  (q → ∀ i ∈ a.ids, i < b.nextId) ∧ ∀ x ∈ a.items, ∀ y ∈ b.items, x.1 = y.1 → RowStays st x.2 y.2

end

def ObjAlike : (n : Nat) → Obj n → Obj n → Prop
  | 0 => fun a _ => nomatch a
  | n + 1 => fun a b => ListAlike (ObjAlike n) a b

def ObjHolds (q : Prop) : (n : Nat) → Obj n → Obj n → Prop
  | 0 => fun a _ => nomatch a
  | n + 1 => fun a b => ListHolds q (ObjHolds q n) a b

def RootAlike (n : Nat) (a b : Root n) : Prop := ∀ i, CellLoose (ObjAlike n) (entry a i) (entry b i)

def RootHolds (q : Prop) (n : Nat) (a b : Root n) : Prop := ∀ i, CellStays (ObjHolds q n) (entry a i) (entry b i)

end Verif.Diff
