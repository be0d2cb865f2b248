import Verif.Spec.Validate
import Verif.Spec.SetGet
/-!
# What a valid object is

The conditions are local: one for the object, one for each definition of a list, one for each item, wherever it is.
-/
namespace Verif.Core
open Diff

/-- A reference to the table `t` may be stored in an item of a list with these references. -/
def RefOk (defs : AMap RootVal) (d : RefDef) (canUseOld : Bool) (t : String) (q : Qv String) : Prop :=
  (canUseOld = false → t ∉ d.old) ∧
  ∃ dq vt, d.refs.get t = some (dq, vt) ∧
    (q = .null → vt = .nullable ∨ vt = .undefNullable) ∧
    (q = .undef → vt = .undefiable ∨ vt = .undefNullable) ∧
    ∀ id, q = .val id → id ≠ "" ∧ ∃ td list old it, defs.get t = some (.table td list old) ∧ list.get id = some it ∧
      (canUseOld = false → id ∉ old)

/-- The value may be stored in a member that is declared so. -/
inductive ValueFits : DefVal → SabVal → Prop
  | param {p vt q} : Fits p vt q → ValueFits (.param p vt) (.param q)
  | cil {d l} : ValueFits (.cilDef d) (.cil l)
  | mil {d u l n} : ValueFits (.milDef d u) (.mil l n)
  | undef {d} : ValueFits (.milDef d true) .milNone

/-- The item is as its definition says (the items inside it are not looked at). -/
structure ItemOk (defs : AMap RootVal) (canUseOld : Bool) (d : ListDef) (it : Item) : Prop where
  /-- an item of an enum has one reference -/
  one : d.refs.isEnum = true → it.refs.length = 1
  /-- a reference without a default is there -/
  required : d.refs.isEnum = false → ∀ t vt, (t, Qv.val "", vt) ∈ d.refs.refs → ∃ q, it.refs.get t = some q
  refs : ∀ t q, (t, q) ∈ it.refs → RefOk defs d.refs canUseOld t q
  old : canUseOld = false → ∀ k v, (k, v) ∈ it.values → k ∉ d.old
  values : ∀ k v, (k, v) ∈ it.values → ∃ dv, d.members.get k = some dv ∧ ValueFits dv v

/-- the definitions of the lists of an object at every depth; the flag tells those inside of mutable lists -/
inductive Lists (r : RootObj) : Bool → ListDef → Prop
  | table {k d list old} : (k, RootVal.table d list old) ∈ r.defs → Lists r false d
  | clist {k d list} : (k, RootVal.clist d list) ∈ r.defs → Lists r false d
  | mlist {k d u} : (k, RootVal.mlist d u) ∈ r.defs → Lists r true d
  | cil {m d k d'} : Lists r m d → (k, DefVal.cilDef d') ∈ d.members → Lists r m d'
  | mil {m d k d' u} : Lists r m d → (k, DefVal.milDef d' u) ∈ d.members → Lists r m d'

/-- The definition of a list is sound (the lists inside it are not looked at). -/
structure DefOk (isMut : Bool) (d : ListDef) : Prop where
  /-- the references of an enum have no default -/
  enum : d.refs.isEnum = true → ∀ t q vt, (t, q, vt) ∈ d.refs.refs → q = .null
  oldRefs : ∀ n ∈ d.refs.old, ∃ x, d.refs.refs.get n = some x
  old : ∀ n ∈ d.old, ∃ x, d.members.get n = some x
  /-- lists inside of mutable lists are mutable, others are not -/
  cil : ∀ k d', (k, DefVal.cilDef d') ∈ d.members → isMut = false
  mil : ∀ k d' u, (k, DefVal.milDef d' u) ∈ d.members → isMut = true

/-- the object is valid -/
structure Valid (r : RootObj) (canUseOld : Bool) : Prop where
  old : ∀ n ∈ r.old, ∃ x, r.defs.get n = some x
  params : ∀ k p vt, (k, RootVal.param p vt) ∈ r.defs → ∀ x, r.sabun.get k = some x → ∃ q, x = .param q ∧ SameKind p q
  tables : ∀ k d list old, (k, RootVal.table d list old) ∈ r.defs → ∀ n ∈ old, ∃ x, list.get n = some x
  lists : ∀ k d u, (k, RootVal.mlist d u) ∈ r.defs → ∀ x, r.sabun.get k = some x → ∃ l, x = .list l ∧ (l = none → u = true)
  defs : ∀ m d, Lists r m d → DefOk m d
  items : ∀ d it, Holds r d it → ItemOk r.defs canUseOld d it

end Verif.Core
