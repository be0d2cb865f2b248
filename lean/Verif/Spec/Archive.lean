import Verif.Model.Archive
/-! # What an archive should hold -/
namespace Verif.Archive

/-- The entries of a map: every key once, in the order of the bytes of the keys. -/
def Sorted {V : Type} (m : List (String × V)) : Prop := m.Pairwise fun a b => Codec.strBytes a.1 < Codec.strBytes b.1

/-- `name` has the extension `e`: `e` comes after the last dot, and something comes before it -/
def HasExt (name e : String) : Prop := ∃ stem : String, stem ≠ "" ∧ name = stem ++ "." ++ e ∧ '.' ∉ e.toList

/-- The options select a file of this name: there is no choice of extensions, or its extension (nothing, if it has none) is chosen. -/
def Selected (opt : Opts) (name : String) : Prop :=
  opt.extensions = [] ∨ (∃ e ∈ opt.extensions, HasExt name e) ∨ ("" ∈ opt.extensions ∧ ¬ ∃ e, HasExt name e)

/-- The directory `cur` with these entries holds, directly or in a subfolder that is to be searched, a selected file with this path
and these contents. -/
inductive Holds (opt : Opts) : String → List Node → String → List UInt8 → Prop
  | file {cur : String} {es : List Node} {name : String} {data : List UInt8} (h : .file name data ∈ es) (hs : Selected opt name) :
      Holds opt cur es (join cur name) data
  | sub {cur : String} {es es' : List Node} {name p : String} {data : List UInt8} (h : .dir name es' ∈ es)
      (ho : opt.subfolders = true) (hi : Holds opt (join cur name) es' p data) : Holds opt cur es p data

/-- The same directory, listed in another order, and so its subfolders. -/
inductive Reordered : List Node → List Node → Prop
  | nil : Reordered [] []
  | cons (e : Node) {r r' : List Node} : Reordered r r' → Reordered (e :: r) (e :: r')
  | inner (name : String) {es es' : List Node} (r : List Node) : Reordered es es' → Reordered (.dir name es :: r) (.dir name es' :: r)
  | swap (a b : Node) (r : List Node) : Reordered (a :: b :: r) (b :: a :: r)
  | trans {a b c : List Node} : Reordered a b → Reordered b c → Reordered a c

/-- Compression that can be undone, for one piece of data. -/
def Undoes {T H : Type} (F : Fns T H) (d : List UInt8) : Prop :=
  ∃ c, F.compress d = some c ∧ F.decompress c = some d ∧ c.length < 2 ^ 63

end Verif.Archive
