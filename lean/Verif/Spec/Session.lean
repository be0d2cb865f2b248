import Verif.Spec.DiffNamed
/-!
# Sessions: what is changed through the interface

Single changes of an object, at any depth. Not among them: moving items, assigning an enum, changing the next id, and asking for an
undefined list of the root.
-/
namespace Verif.Named
open Diff Core Source

/-- A change of an item. -/
inductive ItemOp : LDef → Item → Item → Prop
  /-- a value of the declared type is assigned -/
  | set {d : LDef} {values : AMap SabVal} {refs : AMap (Qv String)} {k : String} {id : Nat} {p q : Param} {vt : VType} :
      d.members.get k = some (id, .param p vt) → ParamOk p.ptype vt q → ItemOp d (.mk values refs) (.mk (values.insert k (.param q)) refs)
  /-- a reference is assigned -/
  | ref {d : LDef} {values : AMap SabVal} {refs : AMap (Qv String)} {k : String} {id : Nat} {x q : Qv String} {vt : VType} :
      d.refs.refs.get k = some (id, x, vt) → RefOk vt q → ItemOp d (.mk values refs) (.mk values (refs.insert k q))
  /-- a list that is absent or undefined is made -/
  | make {d d' : LDef} {values : AMap SabVal} {refs : AMap (Qv String)} {k : String} {id : Nat} {u : Bool} :
      d.members.get k = some (id, .milDef d' u) → (values.get k = none ∨ values.get k = some .milNone) →
      ItemOp d (.mk values refs) (.mk (values.insert k (.mil [] 0)) refs)
  /-- an item is inserted into an inner list -/
  | first {d d' : LDef} {values : AMap SabVal} {refs : AMap (Qv String)} {k : String} {id : Nat} {u : Bool} {items : List (Nat × Item)} {next : Nat} :
      d.members.get k = some (id, .milDef d' u) → values.get k = some (.mil items next) → next + 1 < 2 ^ 64 → items.length + 1 < 2 ^ 62 →
      ItemOp d (.mk values refs) (.mk (values.insert k (.mil ((next, .mk [] []) :: items) (next + 1))) refs)
  | last {d d' : LDef} {values : AMap SabVal} {refs : AMap (Qv String)} {k : String} {id : Nat} {u : Bool} {items : List (Nat × Item)} {next : Nat} :
      d.members.get k = some (id, .milDef d' u) → values.get k = some (.mil items next) → next + 1 < 2 ^ 64 → items.length + 1 < 2 ^ 62 →
      ItemOp d (.mk values refs) (.mk (values.insert k (.mil (items ++ [(next, .mk [] [])]) (next + 1))) refs)
  /-- an item is removed from an inner list -/
  | remove {d d' : LDef} {values : AMap SabVal} {refs : AMap (Qv String)} {k : String} {id : Nat} {u : Bool} {a b : List (Nat × Item)}
      {x : Nat × Item} {next : Nat} : d.members.get k = some (id, .milDef d' u) → values.get k = some (.mil (a ++ x :: b) next) →
      ItemOp d (.mk values refs) (.mk (values.insert k (.mil (a ++ b) next)) refs)
  /-- an item of an inner list is changed -/
  | inner {d d' : LDef} {values : AMap SabVal} {refs : AMap (Qv String)} {k : String} {id : Nat} {u : Bool} {a b : List (Nat × Item)}
      {i : Nat} {x y : Item} {next : Nat} : d.members.get k = some (id, .milDef d' u) → values.get k = some (.mil (a ++ (i, x) :: b) next) →
      ItemOp d' x y → ItemOp d (.mk values refs) (.mk (values.insert k (.mil (a ++ (i, y) :: b) next)) refs)

/-- A change of a root object. -/
inductive RootOp (defs : AMap (Nat × RootValI)) : AMap RootSab → AMap RootSab → Prop
  | set {s : AMap RootSab} {k : String} {id : Nat} {p q : Param} {vt : VType} :
      defs.get k = some (id, .param p vt) → ParamOk p.ptype vt q → RootOp defs s (s.insert k (.param q))
  | first {s : AMap RootSab} {k : String} {id : Nat} {d : LDef} {u : Bool} {items : List (Nat × Item)} {next : Nat} :
      defs.get k = some (id, .mlist d u) → s.get k = some (.list (some (items, next))) → next + 1 < 2 ^ 64 → items.length + 1 < 2 ^ 62 →
      RootOp defs s (s.insert k (.list (some ((next, .mk [] []) :: items, next + 1))))
  | last {s : AMap RootSab} {k : String} {id : Nat} {d : LDef} {u : Bool} {items : List (Nat × Item)} {next : Nat} :
      defs.get k = some (id, .mlist d u) → s.get k = some (.list (some (items, next))) → next + 1 < 2 ^ 64 → items.length + 1 < 2 ^ 62 →
      RootOp defs s (s.insert k (.list (some (items ++ [(next, .mk [] [])], next + 1))))
  | remove {s : AMap RootSab} {k : String} {id : Nat} {d : LDef} {u : Bool} {a b : List (Nat × Item)} {x : Nat × Item} {next : Nat} :
      defs.get k = some (id, .mlist d u) → s.get k = some (.list (some (a ++ x :: b, next))) →
      RootOp defs s (s.insert k (.list (some (a ++ b, next))))
  | inner {s : AMap RootSab} {k : String} {id : Nat} {d : LDef} {u : Bool} {a b : List (Nat × Item)} {i : Nat} {x y : Item} {next : Nat} :
      defs.get k = some (id, .mlist d u) → s.get k = some (.list (some (a ++ (i, x) :: b, next))) → ItemOp d x y →
      RootOp defs s (s.insert k (.list (some (a ++ (i, y) :: b, next))))

/-- A session: any number of changes. -/
inductive Session (defs : AMap (Nat × RootValI)) : AMap RootSab → AMap RootSab → Prop
  | start (s) : Session defs s s
  | change {s t u} : Session defs s t → RootOp defs t u → Session defs s u

/-- Comparing an item after a session with the item before: no float went from `0.0` to `-0.0` or back, and no next id changed while the
items did not. -/
inductive Settled : LDef → Item → Item → Prop
  | mk {d : LDef} {f t : Item} :
      (∀ k id p vt q q', d.members.get k = some (id, .param p vt) → f.values.get k = some (.param q) → t.values.get k = some (.param q') →
        ParamStep q q') →
      (∀ k id d' u l ln m mn, d.members.get k = some (id, .milDef d' u) → f.values.get k = some (.mil l ln) →
        t.values.get k = some (.mil m mn) → SameItems d' l m → ln = mn) →
      (∀ k id d' u l ln m mn, d.members.get k = some (id, .milDef d' u) → f.values.get k = some (.mil l ln) →
        t.values.get k = some (.mil m mn) → ∀ x ∈ l, ∀ y ∈ m, x.1 = y.1 → Settled d' x.2 y.2) →
      Settled d f t

/-- The same for root objects. -/
structure RootSettled (defs : AMap (Nat × RootValI)) (f t : AMap RootSab) : Prop where
  zeros : ∀ k id p vt q q', defs.get k = some (id, .param p vt) → f.get k = some (.param q) → t.get k = some (.param q') → ParamStep q q'
  nexts : ∀ k id d u l m, defs.get k = some (id, .mlist d u) → f.get k = some (.list (some l)) → t.get k = some (.list (some m)) →
    SameItems d l.1 m.1 → l.2 = m.2
  items : ∀ k id d u l m, defs.get k = some (id, .mlist d u) → f.get k = some (.list (some l)) → t.get k = some (.list (some m)) →
    ∀ x ∈ l.1, ∀ y ∈ m.1, x.1 = y.1 → Settled d x.2 y.2

end Verif.Named
