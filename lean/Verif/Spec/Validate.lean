import Verif.Model.Validate
/-!
# The references in an object
-/
namespace Verif.Core
open Diff

/-- `it` has, at some depth, a reference to the entry `id` of the table `t`. -/
inductive StoredRef : Item → String → String → Prop
  | here {it t id} : (t, Qv.val id) ∈ it.refs → StoredRef it t id
  | cil {it t id k items j} : (k, SabVal.cil items) ∈ it.values → j ∈ items → StoredRef j t id → StoredRef it t id
  | mil {it t id k items next i j} : (k, SabVal.mil items next) ∈ it.values → (i, j) ∈ items → StoredRef j t id → StoredRef it t id

/-- the items of the lists of an object -/
inductive RootItem (r : RootObj) : Item → Prop
  | table {k d list old id it} : (k, RootVal.table d list old) ∈ r.defs → (id, it) ∈ list → RootItem r it
  | clist {k d list it} : (k, RootVal.clist d list) ∈ r.defs → it ∈ list → RootItem r it
  | mlist {k d u items next i it} : (k, RootVal.mlist d u) ∈ r.defs → r.sabun.get k = some (.list (some (items, next))) →
      (i, it) ∈ items → RootItem r it

/-- The table `t` exists and has the entry `id`. -/
def Resolves (r : RootObj) (t id : String) : Prop :=
  ∃ d list old it, (t, RootVal.table d list old) ∈ r.defs ∧ (id, it) ∈ list

/-- … and the entry is not declared as old. -/
def ResolvesNew (r : RootObj) (t id : String) : Prop :=
  ∃ d list old it, (t, RootVal.table d list old) ∈ r.defs ∧ (id, it) ∈ list ∧ id ∉ old

/-- the items of an object at every depth, with their definitions -/
inductive Holds (r : RootObj) : ListDef → Item → Prop
  | table {k d list old id it} : (k, RootVal.table d list old) ∈ r.defs → (id, it) ∈ list → Holds r d it
  | clist {k d list it} : (k, RootVal.clist d list) ∈ r.defs → it ∈ list → Holds r d it
  | mlist {k d u items next i it} : (k, RootVal.mlist d u) ∈ r.defs → r.sabun.get k = some (.list (some (items, next))) →
      (i, it) ∈ items → Holds r d it
  | cil {d it k d' items j} : Holds r d it → d.members.get k = some (.cilDef d') → (k, SabVal.cil items) ∈ it.values → j ∈ items →
      Holds r d' j
  | mil {d it k d' u items next i j} : Holds r d it → d.members.get k = some (.milDef d' u) → (k, SabVal.mil items next) ∈ it.values →
      (i, j) ∈ items → Holds r d' j

end Verif.Core
