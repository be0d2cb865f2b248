import Verif.Spec.Removal
import Verif.Spec.HistoryReal
/-! # Specification of histories of byte strings from which files are removed -/
namespace Verif.Removal
open VarInt FileName FileHistory Phase History Remover

section
variable {S : Type}

/-- file_hist/file_history.rs:68-79 `remove_files`, on byte strings -/
def bremoveFiles (ps : List Props) (dir : BDir) : BDir := dir.filter fun e => !decide (e.1 ∈ ps.map (·.filename))

/-- The file is in the directory, complete or not. -/
def BThere (st : BSt) (p : Props) : Prop := ∃ c, st.dir.read p.filename = some c

/-- States reachable like those of `BReach`, where files may also be removed at any time, as far as `may` allows it. The log still
records all files that were ever created. -/
inductive BReachR (may : FileHistory.History → List Props → Prop) (o : Opts) (ops : Ops S) :
    BSt → List (Props × S) → List Props → Prop
  | start (dir : BDir) (hn : (dir.map (·.1)).Nodup) (hf : ∀ e ∈ dir, analyze e.1 = .ok none) : BReachR may o ops ⟨dir, none⟩ [] []
  | save (shift : Shift) (st st' : BSt) (log : List (Props × S)) (torn : List Props) (rid : Nat) (s : S) (p : Props)
      (hr : BReachR may o ops st log torn) (hl : log.length < 10 ^ 8 - 1)
      (hf : ∀ x, bplan o shift ops st rid none s = .ok x → FileOk x.2.1)
      (hs : bsave o shift ops st rid none s = (st', .ok p)) : BReachR may o ops st' ((p, s) :: log) torn
  | fail (shift : Shift) (st st' : BSt) (log : List (Props × S)) (torn : List Props) (rid : Nat) (s : S) (r : Res Props)
      (hr : BReachR may o ops st log torn) (hl : log.length < 10 ^ 8 - 1)
      (hs : bsave o shift ops st rid none s = (st', r)) (hf : ∀ p, r ≠ .ok p) : BReachR may o ops st' log torn
  | interrupt (shift : Shift) (st : BSt) (log : List (Props × S)) (torn : List Props) (rid : Nat) (s : S) (name c : Bytes)
      (f : File) (p : Props) (n : Nat) (hr : BReachR may o ops st log torn) (hl : log.length < 10 ^ 8 - 1)
      (hp : bplan o shift ops st rid none s = .ok (name, f, .ok p)) (hf : FileOk f) (hc : phaseFile f.1 f.2 = .ok c) :
      BReachR may o ops (interrupted st name c n) ((p, s) :: log) (if n < c.length then p :: torn else torn)
  | load (st : BSt) (log : List (Props × S)) (torn : List Props) (h : FileHistory.History) (p : Props) (rid : Nat)
      (hr : BReachR may o ops st log torn) (hh : st.history = .ok h) (hp : p ∈ h.listFiles) :
      BReachR may o ops (bloadFile o ops st h p rid).1 log torn
  | list (st : BSt) (dir : BDir) (log : List (Props × S)) (torn : List Props) (hr : BReachR may o ops st log torn)
      (hp : dir.Perm st.dir) : BReachR may o ops ⟨dir, st.base⟩ log torn
  | restart (st : BSt) (log : List (Props × S)) (torn : List Props) (hr : BReachR may o ops st log torn) :
      BReachR may o ops ⟨st.dir, none⟩ log torn
  | other (st : BSt) (log : List (Props × S)) (torn : List Props) (r : Nat) (e : Props × S) (hr : BReachR may o ops st log torn)
      (he : e ∈ log) (ht : e.1 ∉ torn) : BReachR may o ops ⟨st.dir, some (r, e.1)⟩ log torn
  | remove (st : BSt) (log : List (Props × S)) (torn : List Props) (h : FileHistory.History) (gone : List Props)
      (hr : BReachR may o ops st log torn) (hh : st.history = .ok h) (hm : may h gone) :
      BReachR may o ops ⟨bremoveFiles gone st.dir, st.base⟩ log torn

/-- `BReachR`, where an object is saved only if its difference to the object that it is compared with can be expressed (`Good`). -/
inductive RReachR (may : FileHistory.History → List Props → Prop) (o : Opts) (ops : Ops S) (Good : S → S → Prop) :
    BSt → List (Props × S) → List Props → Prop
  | start (dir : BDir) (hn : (dir.map (·.1)).Nodup) (hf : ∀ e ∈ dir, analyze e.1 = .ok none) :
      RReachR may o ops Good ⟨dir, none⟩ [] []
  | save (shift : Shift) (st st' : BSt) (log : List (Props × S)) (torn : List Props) (rid : Nat) (s : S) (p : Props)
      (hr : RReachR may o ops Good st log torn) (hl : log.length < 10 ^ 8 - 1)
      (hg : ∀ a, Compared o shift ops st rid a → Good a s)
      (hf : ∀ x, bplan o shift ops st rid none s = .ok x → FileOk x.2.1)
      (hs : bsave o shift ops st rid none s = (st', .ok p)) : RReachR may o ops Good st' ((p, s) :: log) torn
  | fail (shift : Shift) (st st' : BSt) (log : List (Props × S)) (torn : List Props) (rid : Nat) (s : S) (r : Res Props)
      (hr : RReachR may o ops Good st log torn) (hl : log.length < 10 ^ 8 - 1)
      (hg : ∀ a, Compared o shift ops st rid a → Good a s)
      (hs : bsave o shift ops st rid none s = (st', r)) (hf : ∀ p, r ≠ .ok p) : RReachR may o ops Good st' log torn
  | interrupt (shift : Shift) (st : BSt) (log : List (Props × S)) (torn : List Props) (rid : Nat) (s : S) (name c : Bytes)
      (f : File) (p : Props) (n : Nat) (hr : RReachR may o ops Good st log torn) (hl : log.length < 10 ^ 8 - 1)
      (hg : ∀ a, Compared o shift ops st rid a → Good a s)
      (hp : bplan o shift ops st rid none s = .ok (name, f, .ok p)) (hf : FileOk f) (hc : phaseFile f.1 f.2 = .ok c) :
      RReachR may o ops Good (interrupted st name c n) ((p, s) :: log) (if n < c.length then p :: torn else torn)
  | load (st : BSt) (log : List (Props × S)) (torn : List Props) (h : FileHistory.History) (p : Props) (rid : Nat)
      (hr : RReachR may o ops Good st log torn) (hh : st.history = .ok h) (hp : p ∈ h.listFiles) :
      RReachR may o ops Good (bloadFile o ops st h p rid).1 log torn
  | list (st : BSt) (dir : BDir) (log : List (Props × S)) (torn : List Props) (hr : RReachR may o ops Good st log torn)
      (hp : dir.Perm st.dir) : RReachR may o ops Good ⟨dir, st.base⟩ log torn
  | restart (st : BSt) (log : List (Props × S)) (torn : List Props) (hr : RReachR may o ops Good st log torn) :
      RReachR may o ops Good ⟨st.dir, none⟩ log torn
  | other (st : BSt) (log : List (Props × S)) (torn : List Props) (r : Nat) (e : Props × S)
      (hr : RReachR may o ops Good st log torn) (he : e ∈ log) (ht : e.1 ∉ torn) :
      RReachR may o ops Good ⟨st.dir, some (r, e.1)⟩ log torn
  | remove (st : BSt) (log : List (Props × S)) (torn : List Props) (h : FileHistory.History) (gone : List Props)
      (hr : RReachR may o ops Good st log torn) (hh : st.history = .ok h) (hm : may h gone) :
      RReachR may o ops Good ⟨bremoveFiles gone st.dir, st.base⟩ log torn

end
end Verif.Removal
