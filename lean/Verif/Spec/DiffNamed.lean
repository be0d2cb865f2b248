import Verif.Model.DiffNamed
import Verif.Spec.Diff
import Verif.Spec.Source
/-!
# Objects by member name: when they fit their definition, how they may change, when they are the same

Said with the names of the members, without ids and tables.
-/
namespace Verif.Named
open Diff Core Source LinkedMap

/-- The ids of a list are distinct and of type `u64`, and it has the size of something in memory. -/
def IdsOk (items : List (Nat × Item)) (next : Nat) : Prop :=
  (items.map (·.1)).Nodup ∧ (∀ e ∈ items, e.1 < 2 ^ 64) ∧ next < 2 ^ 64 ∧ items.length < 2 ^ 62

/-- An item stores values of the declared types under declared names, at every depth. Constant lists may be anything. -/
inductive ItemFits : LDef → Item → Prop
  | mk {d : LDef} {values : AMap SabVal} {refs : AMap (Qv String)} :
      values.Wf → refs.Wf →
      (∀ k p, (k, SabVal.param p) ∈ values → ∃ id q vt, d.members.get k = some (id, .param q vt) ∧ ParamOk q.ptype vt p) →
      (∀ k, (k, SabVal.milNone) ∈ values → ∃ id d', d.members.get k = some (id, .milDef d' true)) →
      (∀ k items, (k, SabVal.cil items) ∈ values → ∃ id d', d.members.get k = some (id, .cilDef d')) →
      (∀ k items next, (k, SabVal.mil items next) ∈ values → IdsOk items next ∧ ∃ id d' u, d.members.get k = some (id, .milDef d' u)) →
      (∀ k items next id d' u, (k, SabVal.mil items next) ∈ values → d.members.get k = some (id, .milDef d' u) →
        ∀ e ∈ items, ItemFits d' e.2) →
      (∀ k q, (k, q) ∈ refs → ∃ id x vt, d.refs.refs.get k = some (id, x, vt) ∧ RefOk vt q) →
      ItemFits d (.mk values refs)

/-- A list fits the definition of its items. -/
def ListFits (d : LDef) (l : NList) : Prop := IdsOk l.items l.nextId ∧ ∀ e ∈ l.items, ItemFits d e.2

/-- A root object fits its definition: the lists are there, defined unless they may be undefined, and nothing else than parameters and
lists is stored. -/
structure RootFits (defs : AMap (Nat × RootValI)) (s : AMap RootSab) : Prop where
  wf : s.Wf
  params : ∀ k p, (k, RootSab.param p) ∈ s → ∃ id q vt, defs.get k = some (id, .param q vt) ∧ ParamOk q.ptype vt p
  lists : ∀ k l, (k, RootSab.list l) ∈ s → ∃ id d u, defs.get k = some (id, .mlist d u)
  items : ∀ k l id d u, (k, RootSab.list (some l)) ∈ s → defs.get k = some (id, .mlist d u) → ListFits d ⟨l.1, l.2⟩
  there : ∀ k id d u, defs.get k = some (id, .mlist d u) → ∃ l, s.get k = some (.list l) ∧ (u = false → l ≠ none)

/-- The undefiable lists of the root are undefined. -/
def OptUndefined (defs : AMap (Nat × RootValI)) (s : AMap RootSab) : Prop :=
  ∀ k id d, defs.get k = some (id, .mlist d true) → s.get k = some (.list none)

/-- Two stored lists are both absent, both undefined, or both there. -/
inductive SamePresence : Option SabVal → Option SabVal → Prop
  | none : SamePresence none none
  | undef : SamePresence (some .milNone) (some .milNone)
  | list (a an b bn) : SamePresence (some (.mil a an)) (some (.mil b bn))

/-- Two items have the same parameters, references and mutable lists, at every depth. -/
inductive SameItem : LDef → Item → Item → Prop
  | mk {d : LDef} {a b : Item} :
      (∀ k id p vt, d.members.get k = some (id, .param p vt) → a.values.get k = b.values.get k) →
      (∀ k id d' u, d.members.get k = some (id, .milDef d' u) → SamePresence (a.values.get k) (b.values.get k)) →
      (∀ k id d' u l ln m mn, d.members.get k = some (id, .milDef d' u) → a.values.get k = some (.mil l ln) →
        b.values.get k = some (.mil m mn) → ln = mn ∧ l.map (·.1) = m.map (·.1)) →
      (∀ k id d' u l ln m mn, d.members.get k = some (id, .milDef d' u) → a.values.get k = some (.mil l ln) →
        b.values.get k = some (.mil m mn) → ∀ (i : Nat) (x y : Nat × Item), l[i]? = some x → m[i]? = some y → SameItem d' x.2 y.2) →
      (∀ k x, d.refs.refs.get k = some x → a.refs.get k = b.refs.get k) →
      SameItem d a b

/-- Two lists have the same items in the same order. -/
def SameItems (d : LDef) (l m : List (Nat × Item)) : Prop :=
  l.map (·.1) = m.map (·.1) ∧ ∀ (i : Nat) (x y : Nat × Item), l[i]? = some x → m[i]? = some y → SameItem d x.2 y.2

/-- Two root objects have the same parameters and the same lists. -/
structure SameRoot (defs : AMap (Nat × RootValI)) (a b : AMap RootSab) : Prop where
  params : ∀ k id p vt, defs.get k = some (id, .param p vt) → a.get k = b.get k
  undef : ∀ k id d u, defs.get k = some (id, .mlist d u) → (a.get k = some (.list none) ↔ b.get k = some (.list none))
  lists : ∀ k id d u l, defs.get k = some (id, .mlist d u) → a.get k = some (.list (some l)) →
    ∃ m, b.get k = some (.list (some m)) ∧ l.2 = m.2 ∧ SameItems d l.1 m.1
  back : ∀ k id d u m, defs.get k = some (id, .mlist d u) → b.get k = some (.list (some m)) → ∃ l, a.get k = some (.list (some l))

/-- The items that both lists have are in the same order. -/
def SameOrderN (a b : List (Nat × Item)) : Prop :=
  (a.map (·.1)).filter (· ∈ b.map (·.1)) = (b.map (·.1)).filter (· ∈ a.map (·.1))

/-- How an item may change: what was set stays set, floats do not change between `0.0` and `-0.0`, items of inner lists are not moved, and
the next id of an inner list does not change alone. -/
inductive ItemStep : LDef → Item → Item → Prop
  | mk {d : LDef} {f t : Item} :
      (∀ k id p vt, d.members.get k = some (id, .param p vt) → t.values.get k = none → f.values.get k = none) →
      (∀ k id p vt q q', d.members.get k = some (id, .param p vt) → f.values.get k = some (.param q) → t.values.get k = some (.param q') →
        ParamStep q q') →
      (∀ k id d' u, d.members.get k = some (id, .milDef d' u) → t.values.get k = none → f.values.get k = none) →
      (∀ k id d' u l ln m mn, d.members.get k = some (id, .milDef d' u) → f.values.get k = some (.mil l ln) →
        t.values.get k = some (.mil m mn) → SameOrderN l m ∧ (SameItems d' l m → ln = mn)) →
      (∀ k id d' u l ln m mn, d.members.get k = some (id, .milDef d' u) → f.values.get k = some (.mil l ln) →
        t.values.get k = some (.mil m mn) → ∀ x ∈ l, ∀ y ∈ m, x.1 = y.1 → ItemStep d' x.2 y.2) →
      (∀ k x, d.refs.refs.get k = some x → t.refs.get k = none → f.refs.get k = none) →
      ItemStep d f t

/-- How a root object may change. -/
structure RootStepN (defs : AMap (Nat × RootValI)) (f t : AMap RootSab) : Prop where
  stays : ∀ k id p vt, defs.get k = some (id, .param p vt) → t.get k = none → f.get k = none
  zeros : ∀ k id p vt q q', defs.get k = some (id, .param p vt) → f.get k = some (.param q) → t.get k = some (.param q') → ParamStep q q'
  lists : ∀ k id d u l m, defs.get k = some (id, .mlist d u) → f.get k = some (.list (some l)) → t.get k = some (.list (some m)) →
    SameOrderN l.1 m.1 ∧ (SameItems d l.1 m.1 → l.2 = m.2) ∧ ∀ x ∈ l.1, ∀ y ∈ m.1, x.1 = y.1 → ItemStep d x.2 y.2

/-- The members of the root have distinct names and the ids 0, 1, 2, …; its list definitions are numbered, and the table has every member
that can change at its id. -/
structure RootTable (defs : AMap (Nat × RootValI)) (table : MetaTable) : Prop where
  names : defs.Wf
  ids : IdsFill (defs.map (·.2.1))
  numbered : ∀ k id y d, (k, id, y) ∈ defs → y.ldef = some d → Numbered d
  length : table.length = defs.length
  places : ∀ k id y, (k, id, y) ∈ defs → RootPlace k y (table[id]?)

/-- Lists are nested at most `n` deep in the table. -/
def LevelOk : Nat → MetaTable → Prop
  | 0, t => ∀ k m, some (k, m) ∈ t → metaTables m = none
  | n + 1, t => ∀ k m, some (k, m) ∈ t → ∀ tb, metaTables m = some tb → LevelOk n tb.1

/-- A definition and all definitions of mutable lists inside have at most `c` members and `r` references. -/
inductive Sized (c r : Nat) : LDef → Prop
  | mk {d : LDef} : d.members.length ≤ c → d.refs.refs.length ≤ r →
      (∀ k id d' u, d.members.get k = some (id, .milDef d' u) → Sized c r d') → Sized c r d

/-- A definition and all definitions of mutable lists inside have at most `c` members and `c` references, and if lists are inside, their
ids are below 11 and there are at most 22 members. -/
inductive Legible (c : Nat) : LDef → Prop
  | mk {d : LDef} : d.members.length ≤ c → d.refs.refs.length ≤ c →
      (∀ k id d' u, d.members.get k = some (id, .milDef d' u) → id < 11) →
      (∀ k id d' u, d.members.get k = some (id, .milDef d' u) → d.members.length ≤ 22) →
      (∀ k id d' u, d.members.get k = some (id, .milDef d' u) → Legible c d') → Legible c d

end Verif.Named
