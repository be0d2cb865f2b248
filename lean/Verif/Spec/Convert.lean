import Verif.Spec.SetGet
import Verif.Model.Adjust
/-!
# The conversion of old data (manual, chapter 9)
-/
namespace Verif.Core
open Diff

/-- The member may be undefined. -/
def Undefiable (vt : VType) : Prop := vt = .undefiable ∨ vt = .undefNullable

/-- What has to be read from the parameter `k` of the new version when old data is converted. -/
inductive Converted (new old : RootObj) (k : String) : Param → Prop
  /-- the value that was set in the old version -/
  | kept {p vt q} : new.defs.get k = some (.param p vt) → old.sabun.get k = some (.param q) → Converted new old k q
  /-- undefined, if the old version did not have the member -/
  | undef {p vt q} : new.defs.get k = some (.param p vt) → old.defs.get k = none → Undefiable vt → SameKind p q → IsUndef q →
      Converted new old k q
  /-- the default of the new version otherwise -/
  | default {p vt} : new.defs.get k = some (.param p vt) → (∀ q, old.sabun.get k ≠ some (.param q)) → (old.defs.get k = none → ¬ Undefiable vt) →
      Converted new old k p

/-- Nothing is stored for parameters, as in an object that comes from source files. -/
def RootObj.Fresh (r : RootObj) : Prop := ∀ k p vt, r.defs.get k = some (.param p vt) → r.sabun.get k = none

/-- What is stored is declared. -/
def RootObj.Stores (r : RootObj) : Prop := ∀ k x, r.sabun.get k = some x → ∃ v, r.defs.get k = some v

/-- the number the wrapper of the manual returns: `NewWrapper::new_value` in conversion.md, with `f` for the multiplication by ten; `none` if it
panics -/
def wrapper (f : Int → Int) (o n : String) (r : RootObj) : Option Int :=
  match getRootParam r n with
  | some (.int .undef) =>
    match getRootParam r o with
    | some (.int .null) => match getRootParamDef r n with
      | some (.int (.val d)) => some d
      | _ => none
    | some (.int (.val v)) => some (f v)
    | _ => none
  | some (.int (.val v)) => some v
  | _ => none

/-- `VeraAccessorWrapper2::new_value_impl` in conversion.md; the inner `none` is null -/
def middle (f : Int → Int) (o n : String) (r : RootObj) : Option (Option Int) :=
  match getRootParam r n with
  | some (.int .undef) =>
    match getRootParam r o with
    | some (.int .null) => some none
    | some (.int (.val v)) => some (some (f v))
    | _ => none
  | some (.int .null) => some none
  | some (.int (.val v)) => some (some v)
  | _ => none

/-- `VeraAccessorWrapper2::new_value2` in conversion.md, with `g` for the multiplication by three -/
def wrapper2 (f g : Int → Int) (o n n2 : String) (r : RootObj) : Option Int :=
  match getRootParam r n2 with
  | some (.int .undef) =>
    match middle f o n r with
    | some none => match getRootParamDef r n2 with
      | some (.int (.val d)) => some d
      | _ => none
    | some (some v) => some (g v)
    | none => none
  | some (.int (.val v)) => some v
  | _ => none

/-- the first version of the manual: `oldValue : 10` -/
def Version1 (o n n2 : String) (r : RootObj) : Prop :=
  (∃ d, r.defs.get o = some (.param (.int (.val d)) .normal)) ∧ r.defs.get n = none ∧ r.defs.get n2 = none

/-- the second version of the manual: `oldValue? : null`, `newValue! : 100` -/
def Version2 (o n n2 : String) (d : Int) (r : RootObj) : Prop :=
  r.defs.get o = some (.param (.int .null) .nullable) ∧ r.defs.get n = some (.param (.int (.val d)) .undefiable) ∧ r.defs.get n2 = none

/-- the third version of the manual: `oldValue? : null`, `newValue!? : null`, `newValue2! : 280` -/
def Version3 (o n n2 : String) (d : Int) (r : RootObj) : Prop :=
  r.defs.get o = some (.param (.int .null) .nullable) ∧ r.defs.get n = some (.param (.int .null) .undefNullable) ∧
  r.defs.get n2 = some (.param (.int (.val d)) .undefiable)

/-- what was set for a number, if something was set -/
def Set (r : RootObj) (k : String) (v : Option Int) : Prop := r.sabun.get k = v.map fun i => .param (.int (.val i))

/-! ## Lists -/

/-- What has to be read from the parameter `k` of an item when it is converted to the definition `d`. -/
inductive ItemConverted (d : ListDef) (it : Item) (k : String) : Param → Prop
  /-- the value that was set -/
  | kept {q} : it.values.get k = some (.param q) → ItemConverted d it k q
  /-- undefined, if nothing was set and the new definition allows it -/
  | undef {p vt q} : d.members.get k = some (.param p vt) → it.values.get k = none → Undefiable vt → SameKind p q → IsUndef q → ItemConverted d it k q
  /-- the default of the new definition otherwise -/
  | default {p vt} : d.members.get k = some (.param p vt) → (∀ q, it.values.get k ≠ some (.param q)) → (it.values.get k = none → ¬ Undefiable vt) →
      ItemConverted d it k p

/-- Every mutable list is stored, as in objects that come from source files. -/
def RootObj.ListsStored (r : RootObj) : Prop := ∀ k d u, r.defs.get k = some (.mlist d u) → ∃ l, r.sabun.get k = some (.list l)

/-- the wrapper of the manual for an item -/
def itemWrapper (f : Int → Int) (o n : String) (d : ListDef) (it : Item) : Option Int :=
  match getItemParam d it n with
  | some (.int .undef) =>
    match getItemParam d it o with
    | some (.int .null) => match d.members.get n with
      | some (.param (.int (.val i)) _) => some i
      | _ => none
    | some (.int (.val v)) => some (f v)
    | _ => none
  | some (.int (.val v)) => some v
  | _ => none

end Verif.Core
