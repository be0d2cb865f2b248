import Verif.Model.History
import Verif.Spec.FileHistory
/-! # Specification of sequences of history operations -/
namespace Verif.History
open VarInt FileName FileHistory Phase

section
variable {S : Type}

/-- Reading and applying a diff that was made and written gives the object back. -/
def Ops.Lawful (ops : Ops S) : Prop := ∀ a b d, ops.diff a b = .ok d → ops.app a d = .ok b

/-- Making a diff never fails. -/
def Ops.Total (ops : Ops S) : Prop := ∀ a b, ∃ d, ops.diff a b = .ok d

/-- States reachable by untagged saves and loads from a directory without history files. The log records the files
written, newest first. A save may fail or die after its file was written (`unfinished`: the current object is not updated). `read_dir` may list the files in a different order each time, and
a new process (which knows no current object) may take over. Other processes may use the directory, too (`other`: one that has
loaded or saved a file before takes its turn). Fewer than 10^8 files are saved (longer
numbers are not recognised by the file name parser). -/
inductive Reach (o : Opts) (ops : Ops S) : St → List (Props × S) → Prop
  | start (dir : Dir) (hn : (dir.map (·.1)).Nodup) (hf : ∀ e ∈ dir, analyze e.1 = .ok none) : Reach o ops ⟨dir, none⟩ []
  | save (shift : Shift) (st st' : St) (log : List (Props × S)) (rid : Nat) (s : S) (p : Props)
      (hr : Reach o ops st log) (hl : log.length < 10 ^ 8 - 1)
      (hs : save o shift ops st rid none s = (st', .ok p)) : Reach o ops st' ((p, s) :: log)
  | unfinished (shift : Shift) (st st' : St) (log : List (Props × S)) (rid : Nat) (s : S) (p : Props)
      (hr : Reach o ops st log) (hl : log.length < 10 ^ 8 - 1)
      (hs : History.save o shift ops st rid none s = (st', .ok p)) : Reach o ops ⟨st'.dir, st.base⟩ ((p, s) :: log)
  | fail (shift : Shift) (st st' : St) (log : List (Props × S)) (rid : Nat) (s : S) (r : Res Props)
      (hr : Reach o ops st log) (hl : log.length < 10 ^ 8 - 1)
      (hs : History.save o shift ops st rid none s = (st', r)) (hf : ∀ p, r ≠ .ok p) : Reach o ops st' log
  | load (st : St) (log : List (Props × S)) (h : FileHistory.History) (p : Props) (rid : Nat)
      (hr : Reach o ops st log) (hh : st.history = .ok h) (hp : p ∈ h.listFiles) :
      Reach o ops (loadFile o ops st h p rid).1 log
  | list (st : St) (dir : Dir) (log : List (Props × S)) (hr : Reach o ops st log) (hp : dir.Perm st.dir) :
      Reach o ops ⟨dir, st.base⟩ log
  | restart (st : St) (log : List (Props × S)) (hr : Reach o ops st log) : Reach o ops ⟨st.dir, none⟩ log
  | other (st : St) (log : List (Props × S)) (r : Nat) (e : Props × S) (hr : Reach o ops st log) (he : e ∈ log) :
      Reach o ops ⟨st.dir, some (r, e.1)⟩ log

/-- The files of which the code loses the parent: without the cumulative option, a file `base ++ [k + 1]` of the last phase
that continues a file `base ++ [k]` of the same control number, which was itself derived from a file of another control
number. -/
def Lost (o : Opts) (log : List (Props × S)) (p : Props) : Prop :=
  o.cumulative = none ∧ o.maxPhase ≠ 0 ∧ p.prevCtl = p.control ∧
    ∃ q ∈ log, q.1.control = p.control ∧ q.1.prevCtl ≠ q.1.control ∧ q.1.order.length = o.maxPhase + 1 ∧
      p.order = q.1.order.dropLast ++ [q.1.order.getLastD 0 + 1]

/-- The files to which the code finds no place to continue: files of the last phase that are not the newest file, and whose parent, which
would be the file of the control number written after `from`, is not there. -/
def Orphan (o : Opts) (log : List (Props × S)) (p : Props) : Prop :=
  p.order.length = o.maxPhase + 1 ∧ log.head?.map (·.1) ≠ some p ∧
    ∀ e ∈ log, ¬(e.1.control = p.prevCtl ∧ e.1.order = p.order.dropLast)

/-- The files after which nothing can be saved. -/
def Stuck (o : Opts) (log : List (Props × S)) (p : Props) : Prop := Orphan o log p ∨ Lost o log p

end
end Verif.History
