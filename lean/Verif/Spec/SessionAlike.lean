import Verif.Spec.SessionAny
/-!
# Objects that are the same but for the order of items, next ids and signs of zeros

For C81: as in C79, but next ids may be greater, too.
-/
namespace Verif.Named
open Diff Core Source

/-- Two items are the same but for the order of items, next ids and signs of zeros: the same members are there, the lists have items with
the same ids, and items with the same id are the same in this sense. -/
inductive AlikeItem : LDef → Item → Item → Prop
  | mk {d : LDef} {a b : Item} :
      (∀ k id p vt, d.members.get k = some (id, .param p vt) → LooseVal .param (a.values.get k) (b.values.get k)) →
      (∀ k id d' u, d.members.get k = some (id, .milDef d' u) → SamePresence (a.values.get k) (b.values.get k)) →
      (∀ k id d' u l ln m mn, d.members.get k = some (id, .milDef d' u) → a.values.get k = some (.mil l ln) →
        b.values.get k = some (.mil m mn) → (l.map (·.1)).Perm (m.map (·.1))) →
      (∀ k id d' u l ln m mn, d.members.get k = some (id, .milDef d' u) → a.values.get k = some (.mil l ln) →
        b.values.get k = some (.mil m mn) → ∀ x ∈ l, ∀ y ∈ m, x.1 = y.1 → AlikeItem d' x.2 y.2) →
      (∀ k x, d.refs.refs.get k = some x → a.refs.get k = b.refs.get k) →
      AlikeItem d a b

/-- The same for root objects. -/
structure AlikeRoot (defs : AMap (Nat × RootValI)) (a b : AMap RootSab) : Prop where
  params : ∀ k id p vt, defs.get k = some (id, .param p vt) → LooseVal .param (a.get k) (b.get k)
  undef : ∀ k id d u, defs.get k = some (id, .mlist d u) → (a.get k = some (.list none) ↔ b.get k = some (.list none))
  lists : ∀ k id d u l, defs.get k = some (id, .mlist d u) → a.get k = some (.list (some l)) →
    ∃ m, b.get k = some (.list (some m)) ∧ (l.1.map (·.1)).Perm (m.1.map (·.1)) ∧
      ∀ x ∈ l.1, ∀ y ∈ m.1, x.1 = y.1 → AlikeItem d x.2 y.2
  back : ∀ k id d u m, defs.get k = some (id, .mlist d u) → b.get k = some (.list (some m)) → ∃ l, a.get k = some (.list (some l))

/-- What is set in the first item is set in the second, and the same holds of items with the same id of their lists. -/
inductive ItemStays : LDef → Item → Item → Prop
  | mk {d : LDef} {a b : Item} :
      (∀ k, (∀ id d', d.members.get k ≠ some (id, .cilDef d')) → b.values.get k = none → a.values.get k = none) →
      (∀ k id d' u l ln, d.members.get k = some (id, .milDef d' u) → a.values.get k = some (.mil l ln) →
        ∃ m mn, b.values.get k = some (.mil m mn)) →
      (∀ k id d' u l ln m mn, d.members.get k = some (id, .milDef d' u) → a.values.get k = some (.mil l ln) →
        b.values.get k = some (.mil m mn) → ∀ x ∈ l, ∀ y ∈ m, x.1 = y.1 → ItemStays d' x.2 y.2) →
      (∀ k, b.refs.get k = none → a.refs.get k = none) →
      ItemStays d a b

/-- The same for root objects. -/
structure RootStaysN (defs : AMap (Nat × RootValI)) (a b : AMap RootSab) : Prop where
  stays : ∀ k, b.get k = none → a.get k = none
  lists : ∀ k id d u l, defs.get k = some (id, .mlist d u) → a.get k = some (.list (some l)) →
    ∃ m, b.get k = some (.list (some m)) ∧ ∀ x ∈ l.1, ∀ y ∈ m.1, x.1 = y.1 → ItemStays d x.2 y.2

end Verif.Named
