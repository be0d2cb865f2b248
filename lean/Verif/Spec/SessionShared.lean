import Verif.Spec.SessionAny
/-!
# Sessions in which lists are copied on write

For C80. A list that is shared with another object, such as one in the cache of a history, is copied when it is first changed; the copy of
an empty list has the next id 0.
-/
namespace Verif.Named
open Diff Core Source

/-- An empty list of an item is copied. -/
inductive ItemUnshare : LDef → Item → Item → Prop
  | list {d d' : LDef} {values : AMap SabVal} {refs : AMap (Qv String)} {k : String} {id : Nat} {u : Bool} {n : Nat} :
      d.members.get k = some (id, .milDef d' u) → values.get k = some (.mil [] n) →
      ItemUnshare d (.mk values refs) (.mk (values.insert k (.mil [] 0)) refs)
  | inner {d d' : LDef} {values : AMap SabVal} {refs : AMap (Qv String)} {k : String} {id : Nat} {u : Bool} {a b : List (Nat × Item)}
      {i : Nat} {x y : Item} {next : Nat} : d.members.get k = some (id, .milDef d' u) → values.get k = some (.mil (a ++ (i, x) :: b) next) →
      ItemUnshare d' x y → ItemUnshare d (.mk values refs) (.mk (values.insert k (.mil (a ++ (i, y) :: b) next)) refs)

/-- An empty list of a root object is copied. -/
inductive RootUnshare (defs : AMap (Nat × RootValI)) : AMap RootSab → AMap RootSab → Prop
  | list {s : AMap RootSab} {k : String} {id : Nat} {d : LDef} {u : Bool} {n : Nat} :
      defs.get k = some (id, .mlist d u) → s.get k = some (.list (some ([], n))) → RootUnshare defs s (s.insert k (.list (some ([], 0))))
  | inner {s : AMap RootSab} {k : String} {id : Nat} {d : LDef} {u : Bool} {a b : List (Nat × Item)} {i : Nat} {x y : Item} {next : Nat} :
      defs.get k = some (id, .mlist d u) → s.get k = some (.list (some (a ++ (i, x) :: b, next))) → ItemUnshare d x y →
      RootUnshare defs s (s.insert k (.list (some (a ++ (i, y) :: b, next))))

/-- Any number of changes and copies. -/
inductive SessionShared (defs : AMap (Nat × RootValI)) : AMap RootSab → AMap RootSab → Prop
  | start (s) : SessionShared defs s s
  | change {s t u} : SessionShared defs s t → RootChange defs t u → SessionShared defs s u
  | unshare {s t u} : SessionShared defs s t → RootUnshare defs t u → SessionShared defs s u

end Verif.Named
