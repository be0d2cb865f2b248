import Verif.Model.Versions
/-! # Specification of loading a listed file -/
namespace Verif.History
open VarInt FileName FileHistory Phase

section
variable {S : Type}

/-- What a file of the folder of `hash` holds: the object its chain of diffs makes from the source of that version. -/
def Holds (o : Opts) (P : Project S) (d : FileData) (s : S) : Prop :=
  ∃ root, (d.hash = P.cur ∧ root = P.ops.src ∨ d.hash ≠ P.cur ∧ P.archived d.hash = .ok root) ∧
    load o { P.ops with src := root } (dirOf P.dirs d.hash) d.history d.props = .ok s

/-- What loading it should give: the object itself if it is of the current version, otherwise adjusted to the current version. -/
def ShouldLoad (o : Opts) (P : Project S) (d : FileData) (validation : Bool) (r : S) : Prop :=
  ∃ s, Holds o P d s ∧ (d.hash = P.cur ∧ r = s ∨ d.hash ≠ P.cur ∧ P.adjust P.ops.src s validation = .ok r)

end
end Verif.History
