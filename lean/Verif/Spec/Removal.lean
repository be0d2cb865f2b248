import Verif.Spec.History
import Verif.Model.Remover
/-! # Specification of sequences of history operations in which files are removed -/
namespace Verif.Removal
open VarInt FileName FileHistory Phase History Remover

section
variable {S : Type}

/-- States reachable like those of `Reach`, where files may also be removed at any time, as far as `may` allows it. The log
still records all files that were ever written. -/
inductive ReachR (may : FileHistory.History → List Props → Prop) (o : Opts) (ops : Ops S) : St → List (Props × S) → Prop
  | start (dir : Dir) (hn : (dir.map (·.1)).Nodup) (hf : ∀ e ∈ dir, analyze e.1 = .ok none) : ReachR may o ops ⟨dir, none⟩ []
  | save (shift : Shift) (st st' : St) (log : List (Props × S)) (rid : Nat) (s : S) (p : Props)
      (hr : ReachR may o ops st log) (hl : log.length < 10 ^ 8 - 1)
      (hs : History.save o shift ops st rid none s = (st', .ok p)) : ReachR may o ops st' ((p, s) :: log)
  | unfinished (shift : Shift) (st st' : St) (log : List (Props × S)) (rid : Nat) (s : S) (p : Props)
      (hr : ReachR may o ops st log) (hl : log.length < 10 ^ 8 - 1)
      (hs : History.save o shift ops st rid none s = (st', .ok p)) : ReachR may o ops ⟨st'.dir, st.base⟩ ((p, s) :: log)
  | fail (shift : Shift) (st st' : St) (log : List (Props × S)) (rid : Nat) (s : S) (r : Res Props)
      (hr : ReachR may o ops st log) (hl : log.length < 10 ^ 8 - 1)
      (hs : History.save o shift ops st rid none s = (st', r)) (hf : ∀ p, r ≠ .ok p) : ReachR may o ops st' log
  | load (st : St) (log : List (Props × S)) (h : FileHistory.History) (p : Props) (rid : Nat)
      (hr : ReachR may o ops st log) (hh : st.history = .ok h) (hp : p ∈ h.listFiles) :
      ReachR may o ops (loadFile o ops st h p rid).1 log
  | list (st : St) (dir : Dir) (log : List (Props × S)) (hr : ReachR may o ops st log) (hp : dir.Perm st.dir) :
      ReachR may o ops ⟨dir, st.base⟩ log
  | restart (st : St) (log : List (Props × S)) (hr : ReachR may o ops st log) : ReachR may o ops ⟨st.dir, none⟩ log
  | other (st : St) (log : List (Props × S)) (r : Nat) (e : Props × S) (hr : ReachR may o ops st log) (he : e ∈ log) :
      ReachR may o ops ⟨st.dir, some (r, e.1)⟩ log
  | remove (st : St) (log : List (Props × S)) (h : FileHistory.History) (gone : List Props) (hr : ReachR may o ops st log)
      (hh : st.history = .ok h) (hm : may h gone) : ReachR may o ops ⟨removeFiles gone st.dir, st.base⟩ log

/-- Anything but the newest file may be removed. -/
def Others (h : FileHistory.History) (gone : List Props) : Prop := ∀ n, h.newest = some n → n ∉ gone

/-- `remove_old_files`, keeping at least one file. -/
def Old (o : Opts) (h : FileHistory.History) (gone : List Props) : Prop :=
  ∃ n, 1 ≤ n ∧ gone = removableOldItems o.maxPhase o.cumulative.isSome h n

/-- The file is in the directory. -/
def There (st : St) (p : Props) : Prop := ∃ f, st.dir.read p.filename = some f

/-- The file against which the diff of a file was made: in a cumulative last phase the file before it, if there is one, and otherwise the
file one phase above. It is found by its control number and order. -/
def Dep (o : Opts) (log : List (Props × S)) (p q : Props) : Prop :=
  (∃ e ∈ log, e.1 = q) ∧ q.control = p.prevCtl ∧
    ((o.cumulative.isSome = true ∧ p.order.length = o.maxPhase + 1 ∧ ∃ base k, p.order = base ++ [k + 1] ∧ q.order = base ++ [k]) ∨
     (¬ (o.cumulative.isSome = true ∧ p.order.length = o.maxPhase + 1 ∧ ∃ base k, p.order = base ++ [k + 1]) ∧
        q.order ≠ [] ∧ ∃ k, p.order = q.order ++ [k]))

/-- The files needed to load a file. -/
inductive Needs (o : Opts) (log : List (Props × S)) : Props → Props → Prop
  | self (p : Props) : Needs o log p p
  | next (p q r : Props) (hd : Dep o log p q) (hn : Needs o log q r) : Needs o log p r

end
end Verif.Removal
