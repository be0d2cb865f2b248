import Verif.Spec.Grammar
/-! # Sources that are split into several files -/
namespace Verif.Source
open Diff Core

/-- Some members of the object `m` are moved to files with their names, and `m'` is what remains. A member whose name is `root` cannot be
moved, nor can the entries with a special meaning. -/
inductive Split : List (String × JVal) → List (String × JVal) → List (String × JVal) → Prop
  | nil : Split [] [] []
  | keep {m m' fs} (k : String) (v : JVal) : Split m m' fs → Split ((k, v) :: m) ((k, v) :: m') fs
  | move {m m' fs k} (v : JVal) : k ≠ "root" → ¬ Names.Special k.toList → Split m m' fs → Split ((k, v) :: m) m' ((k, v) :: fs)

/-- the same object but for ids and the order of its members -/
structure SameRoot (r r' : Root) : Prop where
  defs : ∀ n, (r'.defs.get n).map (·.2) = (r.defs.get n).map (·.2)
  sabun : ∀ n, r'.sabun.get n = r.sabun.get n
  old : ∀ n, n ∈ r'.old ↔ n ∈ r.old

end Verif.Source
