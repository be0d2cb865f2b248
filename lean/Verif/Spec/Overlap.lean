import Verif.Spec.History
/-! # Specification of saves that overlap -/
namespace Verif.Overlap
open VarInt FileName FileHistory Phase History

section
variable {S : Type}

/-- What a save is going to write: the name, the contents, and the object that is saved. -/
structure Plan (S : Type) where
  props : Props
  file : File
  obj : S

/-- Several processes save into one directory, and what one does between listing the directory and creating its file is not protected from the
others (there is a mutex for each process, but none for the directory). A save is planned from the directory as it is (`plan`), and written
at any later time (`write`) or never, as far as `ok` allows it: `ok` is told the files that are there by then and the new one. A process continues a
file that is there (it saved or loaded it) or none. All plans that were ever made are kept. Simplified: a file is written at once, and what a
process reads while it plans is read at once; files that are there never change unless they are overwritten. -/
inductive OReach (ok : List (Props × S) → Props → Prop) (o : Opts) (ops : Ops S) : Dir → List (Plan S) → List (Props × S) → Prop
  | start (dir : Dir) (hn : (dir.map (·.1)).Nodup) (hf : ∀ e ∈ dir, analyze e.1 = .ok none) : OReach ok o ops dir [] []
  | plan (shift : Shift) (dir : Dir) (plans : List (Plan S)) (log : List (Props × S)) (base : Option (Nat × Props)) (rid : Nat) (s : S)
      (st' : St) (p : Props) (f : File) (hr : OReach ok o ops dir plans log) (hl : log.length < 10 ^ 8 - 1)
      (hb : ∀ r q, base = some (r, q) → ∃ e ∈ log, e.1 = q)
      (hs : save o shift ops ⟨dir, base⟩ rid none s = (st', .ok p)) (hf : st'.dir.read p.filename = some f) :
      OReach ok o ops dir (⟨p, f, s⟩ :: plans) log
  | write (dir : Dir) (plans : List (Plan S)) (log : List (Props × S)) (x : Plan S) (hr : OReach ok o ops dir plans log)
      (hl : log.length < 10 ^ 8 - 1) (hx : x ∈ plans) (hk : ok log x.props) :
      OReach ok o ops (dir.write x.props.filename x.file) plans ((x.props, x.obj) :: log)
  | list (dir dir' : Dir) (plans : List (Plan S)) (log : List (Props × S)) (hr : OReach ok o ops dir plans log) (hp : dir'.Perm dir) :
      OReach ok o ops dir' plans log

/-- There is no file with the control number and the order of the new one. -/
def Fresh (log : List (Props × S)) (p : Props) : Prop := ∀ e ∈ log, ¬ (e.1.control = p.control ∧ e.1.order = p.order)

/-- There is no file with the name of the new one. -/
def NewName (log : List (Props × S)) (p : Props) : Prop := ∀ e ∈ log, e.1.filename ≠ p.filename

/-- Anything goes. -/
def Anyway (_ : List (Props × S)) (_ : Props) : Prop := True

end
end Verif.Overlap
