import Verif.Spec.Session
import Verif.Spec.DiffLoose
/-!
# Sessions in which items are moved, too, and what a diff restores of them

For C79.
-/
namespace Verif.Named
open Diff Core Source

/-- A change of an item: one of those of C73, or the items of an inner list are put into another order and its next id is raised. -/
inductive ItemChange : LDef → Item → Item → Prop
  | op {d : LDef} {x y : Item} : ItemOp d x y → ItemChange d x y
  | arrange {d d' : LDef} {values : AMap SabVal} {refs : AMap (Qv String)} {k : String} {id : Nat} {u : Bool} {l m : List (Nat × Item)}
      {ln mn : Nat} : d.members.get k = some (id, .milDef d' u) → values.get k = some (.mil l ln) → m.Perm l → ln ≤ mn → mn < 2 ^ 64 →
      ItemChange d (.mk values refs) (.mk (values.insert k (.mil m mn)) refs)
  | inner {d d' : LDef} {values : AMap SabVal} {refs : AMap (Qv String)} {k : String} {id : Nat} {u : Bool} {a b : List (Nat × Item)}
      {i : Nat} {x y : Item} {next : Nat} : d.members.get k = some (id, .milDef d' u) → values.get k = some (.mil (a ++ (i, x) :: b) next) →
      ItemChange d' x y → ItemChange d (.mk values refs) (.mk (values.insert k (.mil (a ++ (i, y) :: b) next)) refs)

/-- A change of a root object. -/
inductive RootChange (defs : AMap (Nat × RootValI)) : AMap RootSab → AMap RootSab → Prop
  | op {s t : AMap RootSab} : RootOp defs s t → RootChange defs s t
  | arrange {s : AMap RootSab} {k : String} {id : Nat} {d : LDef} {u : Bool} {l m : List (Nat × Item)} {ln mn : Nat} :
      defs.get k = some (id, .mlist d u) → s.get k = some (.list (some (l, ln))) → m.Perm l → ln ≤ mn → mn < 2 ^ 64 →
      RootChange defs s (s.insert k (.list (some (m, mn))))
  | inner {s : AMap RootSab} {k : String} {id : Nat} {d : LDef} {u : Bool} {a b : List (Nat × Item)} {i : Nat} {x y : Item} {next : Nat} :
      defs.get k = some (id, .mlist d u) → s.get k = some (.list (some (a ++ (i, x) :: b, next))) → ItemChange d x y →
      RootChange defs s (s.insert k (.list (some (a ++ (i, y) :: b, next))))

/-- Any number of changes. -/
inductive SessionAny (defs : AMap (Nat × RootValI)) : AMap RootSab → AMap RootSab → Prop
  | start (s) : SessionAny defs s s
  | change {s t u} : SessionAny defs s t → RootChange defs t u → SessionAny defs s u

/-- The parameter `a` was restored as: both are absent, or they differ at most in the sign of a zero. -/
inductive LooseVal {α : Type} (param : Param → α) : Option α → Option α → Prop
  | none : LooseVal param none none
  | both {p q : Param} : ParamLoose p q → LooseVal param (some (param p)) (some (param q))

/-- Two items are the same but for the order of items, next ids (those of the first are not greater) and signs of zeros: the same
members are there, the lists have items with the same ids, and items with the same id are the same in this sense. -/
inductive LooseItem : LDef → Item → Item → Prop
  | mk {d : LDef} {a b : Item} :
      (∀ k id p vt, d.members.get k = some (id, .param p vt) → LooseVal .param (a.values.get k) (b.values.get k)) →
      (∀ k id d' u, d.members.get k = some (id, .milDef d' u) → SamePresence (a.values.get k) (b.values.get k)) →
      (∀ k id d' u l ln m mn, d.members.get k = some (id, .milDef d' u) → a.values.get k = some (.mil l ln) →
        b.values.get k = some (.mil m mn) → ln ≤ mn ∧ (l.map (·.1)).Perm (m.map (·.1))) →
      (∀ k id d' u l ln m mn, d.members.get k = some (id, .milDef d' u) → a.values.get k = some (.mil l ln) →
        b.values.get k = some (.mil m mn) → ∀ x ∈ l, ∀ y ∈ m, x.1 = y.1 → LooseItem d' x.2 y.2) →
      (∀ k x, d.refs.refs.get k = some x → a.refs.get k = b.refs.get k) →
      LooseItem d a b

/-- The same for root objects. -/
structure LooseRoot (defs : AMap (Nat × RootValI)) (a b : AMap RootSab) : Prop where
  params : ∀ k id p vt, defs.get k = some (id, .param p vt) → LooseVal .param (a.get k) (b.get k)
  undef : ∀ k id d u, defs.get k = some (id, .mlist d u) → (a.get k = some (.list none) ↔ b.get k = some (.list none))
  lists : ∀ k id d u l, defs.get k = some (id, .mlist d u) → a.get k = some (.list (some l)) →
    ∃ m, b.get k = some (.list (some m)) ∧ l.2 ≤ m.2 ∧ (l.1.map (·.1)).Perm (m.1.map (·.1)) ∧
      ∀ x ∈ l.1, ∀ y ∈ m.1, x.1 = y.1 → LooseItem d x.2 y.2
  back : ∀ k id d u m, defs.get k = some (id, .mlist d u) → b.get k = some (.list (some m)) → ∃ l, a.get k = some (.list (some l))

end Verif.Named
