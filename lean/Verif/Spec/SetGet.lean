import Verif.Model.SetGet
/-!
# What assigning and reading have to do

Stated without the functions of the model that check types.
-/
namespace Verif.Core
open Diff

/-- The two values have the same type. -/
inductive SameKind : Param → Param → Prop
  | bool (a b) : SameKind (.bool a) (.bool b)
  | int (a b) : SameKind (.int a) (.int b)
  | float (a b) : SameKind (.float a) (.float b)
  | string (a b) : SameKind (.string a) (.string b)
  | intArray (a b) : SameKind (.intArray a) (.intArray b)
  | floatArray (a b) : SameKind (.floatArray a) (.floatArray b)
  | binary (a b) : SameKind (.binary a) (.binary b)

/-- the value is null -/
def IsNull (p : Param) : Prop :=
  p = .bool .null ∨ p = .int .null ∨ p = .float .null ∨ p = .string .null ∨ p = .intArray .null ∨ p = .floatArray .null ∨ p = .binary .null

/-- the value is undefined -/
def IsUndef (p : Param) : Prop :=
  p = .bool .undef ∨ p = .int .undef ∨ p = .float .undef ∨ p = .string .undef ∨ p = .intArray .undef ∨ p = .floatArray .undef ∨
    p = .binary .undef

/-- The member with the default `p` and the nullability `vt` may hold `q`. -/
def Fits (p : Param) (vt : VType) (q : Param) : Prop :=
  SameKind p q ∧ (IsNull q → vt = .nullable ∨ vt = .undefNullable) ∧ (IsUndef q → vt = .undefiable ∨ vt = .undefNullable)

/-- No list is stored where a parameter is declared. -/
def RootObj.ParamsOk (r : RootObj) : Prop :=
  ∀ k p vt, r.defs.get k = some (.param p vt) → ∀ l, r.sabun.get k ≠ some (.list l)

/-- No list is stored where a parameter is declared. -/
def Item.ParamsOk (d : ListDef) (it : Item) : Prop :=
  ∀ k p vt, d.members.get k = some (.param p vt) → ∀ v, it.values.get k = some v → ∃ q, v = .param q

/-! ## Histories of changes -/

/-- a change to the parameters of an object -/
inductive Op where
  /-- `set_*` -/
  | set (name : String) (q : Param)
  /-- `set_initial_value` -/
  | initial (name : String) (len : Nat)
  /-- `get_mutable_*` and a change through the reference -/
  | edit (name : String) (f : Param → Param)
  /-- asking for a mutable list -/
  | touch (name : String)

/-- the member that is changed -/
def Op.name : Op → String
  | .set n _ => n
  | .initial n _ => n
  | .edit n _ => n
  | .touch n => n

def runRoot (r : RootObj) : List Op → RootObj
  | [] => r
  | .set n q :: ops => runRoot (setRoot r n q).1 ops
  | .initial n len :: ops => runRoot (setInitialRoot r n len).1 ops
  | .edit n f :: ops => runRoot ((modifyRoot r n f).getD r) ops
  | .touch n :: ops => runRoot ((touchRoot r n).getD r) ops

def runItem (d : ListDef) (it : Item) : List Op → Item
  | [] => it
  | .set n q :: ops => runItem d (setItem d it n q).1 ops
  | .initial n len :: ops => runItem d (setInitialItem d it n len).1 ops
  | .edit n f :: ops => runItem d ((modifyItem d it n f).getD it) ops
  | .touch n :: ops => runItem d ((touchMil d it n).getD it) ops

/-- `z` is the zero of the type of `p`; arrays have `len` zeros -/
inductive IsZero (len : Nat) : Param → Param → Prop
  | bool (a) : IsZero len (.bool a) (.bool (.val false))
  | int (a) : IsZero len (.int a) (.int (.val 0))
  | float (a) : IsZero len (.float a) (.float (.val 0))
  | string (a) : IsZero len (.string a) (.string (.val ""))
  | intArray (a) : IsZero len (.intArray a) (.intArray (.val (List.replicate len 0)))
  | floatArray (a) : IsZero len (.floatArray a) (.floatArray (.val (List.replicate len 0)))
  | binary (a) : IsZero len (.binary a) (.binary (.val (List.replicate len 0)))

/-- `Last n p vt ops v`: after the changes `ops` (the last one at the end), the value last assigned to the member `n`, whose default
is `p` and whose nullability is `vt`, is `v`, or nothing was assigned to it and `v = none`. -/
inductive Last (n : String) (p : Param) (vt : VType) : List Op → Option Param → Prop
  | start : Last n p vt [] none
  | other {ops v op} : Last n p vt ops v → op.name ≠ n → Last n p vt (ops ++ [op]) v
  | set {ops v q} : Last n p vt ops v → Fits p vt q → Last n p vt (ops ++ [.set n q]) (some q)
  | refused {ops v q} : Last n p vt ops v → ¬ Fits p vt q → Last n p vt (ops ++ [.set n q]) v
  | initial {ops v len z} : Last n p vt ops v → IsZero len p z → Last n p vt (ops ++ [.initial n len]) (some z)
  | edit {ops v f} : Last n p vt ops v → Last n p vt (ops ++ [.edit n f]) (some (f (v.getD p)))
  | touch {ops v} : Last n p vt ops v → Last n p vt (ops ++ [.touch n]) v

end Verif.Core
