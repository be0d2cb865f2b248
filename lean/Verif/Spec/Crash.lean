import Verif.Model.Crash
import Verif.Lemmas.Codec
/-! # Specification of runs with interrupted writes -/
namespace Verif.History
open VarInt FileName FileHistory Phase Codec

section
variable {S : Type}

/-- The values of a diff can be encoded, their encoding fits into memory, and reading and applying them gives the object
back. -/
def KOps.Lawful (k : KOps S) : Prop := ∀ a b v, k.diff a b = .ok v →
  (∀ x ∈ v, Valid x) ∧ v.length < 2 ^ 63 ∧ (∀ out, encodeVals v = .ok out → out.length < 2 ^ 63) ∧
    k.app a (v.map norm) = .ok b

/-- The statistics are 64 bit numbers, and the file fits into memory. -/
def FileOk (f : File) : Prop :=
  (∀ it ∈ f.1, it.mySize < 2 ^ 64 ∧ it.totalSize < 2 ^ 64 ∧ it.totalLen < 2 ^ 64) ∧ f.1.length < 2 ^ 60 ∧
    ∀ c, phaseFile f.1 f.2 = .ok c → c.length < 2 ^ 63

/-- States reachable by untagged saves and loads from a directory without history files, when the writing of a file may be
interrupted after any number of bytes. `other`: it is the turn of another process, with the base that it has from an earlier save or
load. The log records the files that were created, newest first; `torn` those of which the
contents are incomplete. -/
inductive BReach (o : Opts) (ops : Ops S) : BSt → List (Props × S) → List Props → Prop
  | start (dir : BDir) (hn : (dir.map (·.1)).Nodup) (hf : ∀ e ∈ dir, analyze e.1 = .ok none) : BReach o ops ⟨dir, none⟩ [] []
  | save (shift : Shift) (st st' : BSt) (log : List (Props × S)) (torn : List Props) (rid : Nat) (s : S) (p : Props)
      (hr : BReach o ops st log torn) (hl : log.length < 10 ^ 8 - 1)
      (hf : ∀ x, bplan o shift ops st rid none s = .ok x → FileOk x.2.1)
      (hs : bsave o shift ops st rid none s = (st', .ok p)) : BReach o ops st' ((p, s) :: log) torn
  | fail (shift : Shift) (st st' : BSt) (log : List (Props × S)) (torn : List Props) (rid : Nat) (s : S) (r : Res Props)
      (hr : BReach o ops st log torn) (hl : log.length < 10 ^ 8 - 1)
      (hf : ∀ x, bplan o shift ops st rid none s = .ok x → FileOk x.2.1)
      (hs : bsave o shift ops st rid none s = (st', r)) (hf : ∀ p, r ≠ .ok p) : BReach o ops st' log torn
  | interrupt (shift : Shift) (st : BSt) (log : List (Props × S)) (torn : List Props) (rid : Nat) (s : S) (name c : Bytes)
      (f : File) (p : Props) (n : Nat) (hr : BReach o ops st log torn) (hl : log.length < 10 ^ 8 - 1)
      (hp : bplan o shift ops st rid none s = .ok (name, f, .ok p)) (hf : FileOk f) (hc : phaseFile f.1 f.2 = .ok c) :
      BReach o ops (interrupted st name c n) ((p, s) :: log) (if n < c.length then p :: torn else torn)
  | load (st : BSt) (log : List (Props × S)) (torn : List Props) (h : FileHistory.History) (p : Props) (rid : Nat)
      (hr : BReach o ops st log torn) (hh : st.history = .ok h) (hp : p ∈ h.listFiles) :
      BReach o ops (bloadFile o ops st h p rid).1 log torn
  | list (st : BSt) (dir : BDir) (log : List (Props × S)) (torn : List Props) (hr : BReach o ops st log torn)
      (hp : dir.Perm st.dir) : BReach o ops ⟨dir, st.base⟩ log torn
  | restart (st : BSt) (log : List (Props × S)) (torn : List Props) (hr : BReach o ops st log torn) :
      BReach o ops ⟨st.dir, none⟩ log torn
  | other (st : BSt) (log : List (Props × S)) (torn : List Props) (r : Nat) (e : Props × S) (hr : BReach o ops st log torn)
      (he : e ∈ log) (ht : e.1 ∉ torn) : BReach o ops ⟨st.dir, some (r, e.1)⟩ log torn

end
end Verif.History
