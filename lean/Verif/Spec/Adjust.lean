import Verif.Model.Core
/-!
# What adjusting to a new source version has to do

Stated without the functions of the model. All relations go to every depth. A nested list is compared under the definition that `inner`
gives for it; the one that is declared is `declared`.
-/
namespace Verif.Core
open Diff

/-- the definition of the list that is declared as the member `k` -/
def declared (d : ListDef) (k : String) : ListDef :=
  match d.members.get k with
  | some (.milDef d' _) => d'
  | some (.cilDef d') => d'
  | _ => d

/-- the undefined value of a member, if it may be undefined -/
inductive Undefined : DefVal → SabVal → Prop
  | param {p q} : Undefined (.param p .undefiable) q → Undefined (.param p .undefNullable) q
  | bool {a} : Undefined (.param (.bool a) .undefiable) (.param (.bool .undef))
  | int {a} : Undefined (.param (.int a) .undefiable) (.param (.int .undef))
  | float {a} : Undefined (.param (.float a) .undefiable) (.param (.float .undef))
  | string {a} : Undefined (.param (.string a) .undefiable) (.param (.string .undef))
  | intArray {a} : Undefined (.param (.intArray a) .undefiable) (.param (.intArray .undef))
  | floatArray {a} : Undefined (.param (.floatArray a) .undefiable) (.param (.floatArray .undef))
  | binary {a} : Undefined (.param (.binary a) .undefiable) (.param (.binary .undef))
  | mil {d} : Undefined (.milDef d true) .milNone

/-- a reference of an item before and after: `o` and `d` are the old and the new definition -/
inductive AdjRef (o d : RefDef) (k : String) : Option (Qv String) → Option (Qv String) → Prop
  | kept {q x} : d.refs.get k = some x → AdjRef o d k (some q) (some q)
  | dropped {q} : d.refs.get k = none → AdjRef o d k q none
  | unset {x} : d.refs.get k = some x → AdjRef o d k none none
  | new {q} : d.refs.get k = some (q, .undefiable) ∨ d.refs.get k = some (q, .undefNullable) → o.refs.get k = none →
      AdjRef o d k none (some .undef)

mutual
/-- An item `it` of a list with the definition `o` became `it'`, for the definition `d`: everything that still has a place is kept. -/
inductive AdjItem (inner : ListDef → String → ListDef) : ListDef → ListDef → Item → Item → Prop
  | mk {o d it it'} : (∀ k, AdjSlot inner o d k (it.values.get k) (it'.values.get k)) →
      (∀ k, AdjRef o.refs d.refs k (it.refs.get k) (it'.refs.get k)) → AdjItem inner o d it it'
/-- a member of an item before and after -/
inductive AdjSlot (inner : ListDef → String → ListDef) : ListDef → ListDef → String → Option SabVal → Option SabVal → Prop
  | param {o d k dv p} : d.members.get k = some dv → AdjSlot inner o d k (some (.param p)) (some (.param p))
  | milNone {o d k dv} : d.members.get k = some dv → AdjSlot inner o d k (some .milNone) (some .milNone)
  | mil {o d k dv l l' next next'} : d.members.get k = some dv → AdjItems inner (inner o k) (inner d k) l l' →
      (next' = next ∨ l = []) → AdjSlot inner o d k (some (.mil l next)) (some (.mil l' next'))
  | dropped {o d k v} : d.members.get k = none → AdjSlot inner o d k v none
  | unset {o d k dv} : d.members.get k = some dv → AdjSlot inner o d k none none
  | new {o d k dv v} : d.members.get k = some dv → Undefined dv v → o.members.get k = none → AdjSlot inner o d k none (some v)
/-- the items of a list, with their ids and in their order -/
inductive AdjItems (inner : ListDef → String → ListDef) : ListDef → ListDef → List (Nat × Item) → List (Nat × Item) → Prop
  | nil {o d} : AdjItems inner o d [] []
  | cons {o d id it it' r r'} : AdjItem inner o d it it' → AdjItems inner o d r r' →
      AdjItems inner o d ((id, it) :: r) ((id, it') :: r')
end

mutual
/-- Every member that may be undefined and that the old definition has too is stored in the item, at every depth. -/
inductive FullItem (inner : ListDef → String → ListDef) : ListDef → ListDef → Item → Prop
  | mk {o d it} : (∀ k dv v, d.members.get k = some dv → Undefined dv v → it.values.get k = none → o.members.get k = none) →
      (∀ k q vt, d.refs.refs.get k = some (q, vt) → vt = .undefiable ∨ vt = .undefNullable → it.refs.get k = none →
        o.refs.refs.get k = none) →
      (∀ k l next, it.values.get k = some (.mil l next) → FullItems inner (inner o k) (inner d k) l) → FullItem inner o d it
inductive FullItems (inner : ListDef → String → ListDef) : ListDef → ListDef → List (Nat × Item) → Prop
  | nil {o d} : FullItems inner o d []
  | cons {o d id it r} : FullItem inner o d it → FullItems inner o d r → FullItems inner o d ((id, it) :: r)
end

/-- No item has an item in a list of its own. -/
def FlatItems (l : List (Nat × Item)) : Prop :=
  ∀ id it, (id, it) ∈ l → ∀ k l' next, it.values.get k = some (.mil l' next) → l' = []

mutual
/-- Two items have the same contents. (The next id of an empty list does not count.) -/
inductive SameItem : Item → Item → Prop
  | mk {it it'} : (∀ k, SameSlot (it.values.get k) (it'.values.get k)) → (∀ k, it.refs.get k = it'.refs.get k) → SameItem it it'
inductive SameSlot : Option SabVal → Option SabVal → Prop
  | none : SameSlot none none
  | param {p} : SameSlot (some (.param p)) (some (.param p))
  | milNone : SameSlot (some .milNone) (some .milNone)
  | mil {l l' next next'} : SameItems l l' → (next' = next ∨ l = []) → SameSlot (some (.mil l next)) (some (.mil l' next'))
inductive SameItems : List (Nat × Item) → List (Nat × Item) → Prop
  | nil : SameItems [] []
  | cons {id it it' r r'} : SameItem it it' → SameItems r r' → SameItems ((id, it) :: r) ((id, it') :: r')
end

mutual
/-- All that is stored in an item is declared, at every depth, and no constant list is stored. -/
inductive DeclItem (inner : ListDef → String → ListDef) : ListDef → Item → Prop
  | mk {d it} : (∀ k v, it.values.get k = some v → ∃ dv, d.members.get k = some dv) →
      (∀ k q, it.refs.get k = some q → ∃ x, d.refs.refs.get k = some x) →
      (∀ k l next, it.values.get k = some (.mil l next) → DeclItems inner (inner d k) l) → DeclItem inner d it
inductive DeclItems (inner : ListDef → String → ListDef) : ListDef → List (Nat × Item) → Prop
  | nil {d} : DeclItems inner d []
  | cons {d id it r} : DeclItem inner d it → DeclItems inner d r → DeclItems inner d ((id, it) :: r)
end

end Verif.Core
