import Verif.Spec.Adjust
/-!
# What adjusting does, exactly

As `Spec/Adjust.lean`, but what becomes of an item follows from the new definition and from the item alone: a member that is not stored becomes
undefined if it may be undefined, whether the old definition had it or not. The next id of an empty list becomes 0.
-/
namespace Verif.Core
open Diff

/-- a reference of an item before and after -/
inductive OutRef (d : RefDef) (k : String) : Option (Qv String) → Option (Qv String) → Prop
  | kept {q x} : d.refs.get k = some x → OutRef d k (some q) (some q)
  | dropped {q} : d.refs.get k = none → OutRef d k q none
  | undef {q} : d.refs.get k = some (q, .undefiable) ∨ d.refs.get k = some (q, .undefNullable) → OutRef d k none (some .undef)
  | unset {q} : d.refs.get k = some (q, .normal) ∨ d.refs.get k = some (q, .nullable) → OutRef d k none none

mutual
/-- the item `it` becomes `it'` -/
inductive OutItem (inner : ListDef → String → ListDef) : ListDef → Item → Item → Prop
  | mk {d it it'} : (∀ k, OutSlot inner d k (it.values.get k) (it'.values.get k)) →
      (∀ k, OutRef d.refs k (it.refs.get k) (it'.refs.get k)) → OutItem inner d it it'
/-- a member of an item before and after -/
inductive OutSlot (inner : ListDef → String → ListDef) : ListDef → String → Option SabVal → Option SabVal → Prop
  | param {d k dv p} : d.members.get k = some dv → OutSlot inner d k (some (.param p)) (some (.param p))
  | milNone {d k dv} : d.members.get k = some dv → OutSlot inner d k (some .milNone) (some .milNone)
  | mil {d k dv l l' next next'} : d.members.get k = some dv → OutItems inner (inner d k) l l' →
      (l ≠ [] → next' = next) → (l = [] → next' = 0) → OutSlot inner d k (some (.mil l next)) (some (.mil l' next'))
  | dropped {d k v} : d.members.get k = none → OutSlot inner d k v none
  | undef {d k dv v} : d.members.get k = some dv → Undefined dv v → OutSlot inner d k none (some v)
  | unset {d k dv} : d.members.get k = some dv → (∀ v, ¬ Undefined dv v) → OutSlot inner d k none none
/-- the items of a list, with their ids and in their order -/
inductive OutItems (inner : ListDef → String → ListDef) : ListDef → List (Nat × Item) → List (Nat × Item) → Prop
  | nil {d} : OutItems inner d [] []
  | cons {d id it it' r r'} : OutItem inner d it it' → OutItems inner d r r' → OutItems inner d ((id, it) :: r) ((id, it') :: r')
end

end Verif.Core
