import Verif.Spec.HistoryReal
/-!
# Histories with sessions of edits

What a program does with a history: it makes objects from the source, copies them, edits them, saves them and loads files. For C78.
-/
namespace Verif.History
open VarInt FileName FileHistory Phase Codec

section
variable {S : Type}

/-- The objects in memory, by their identities. -/
abbrev Live (S : Type) := Nat → Option S

def Live.set (m : Live S) (rid : Nat) (s : S) : Live S := fun n => if n = rid then some s else m n

/-- States reachable by creating objects from the source, copying them (a copy has a new identity, root_obj.rs:25-37), editing them
(`Edits`), saving them and loading them, when the writing of a file may be interrupted after any number of bytes. Objects are saved only
when their difference to what they are compared with is written by a diff (`Fine`). Nothing is said about where objects come from: that is
what the steps say. -/
inductive EReach (o : Opts) (ops : Ops S) (Edits : S → S → Prop) (Fine : S → S → Prop) :
    BSt → Live S → List (Props × S) → List Props → Prop
  | start (dir : BDir) (hn : (dir.map (·.1)).Nodup) (hf : ∀ e ∈ dir, analyze e.1 = .ok none) :
      EReach o ops Edits Fine ⟨dir, none⟩ (fun _ => none) [] []
  | create (st : BSt) (live : Live S) (log : List (Props × S)) (torn : List Props) (rid : Nat)
      (hr : EReach o ops Edits Fine st live log torn) (hn : live rid = none) : EReach o ops Edits Fine st (live.set rid ops.src) log torn
  | copy (st : BSt) (live : Live S) (log : List (Props × S)) (torn : List Props) (rid new : Nat) (s : S)
      (hr : EReach o ops Edits Fine st live log torn) (hs : live rid = some s) (hn : live new = none) :
      EReach o ops Edits Fine st (live.set new s) log torn
  | edit (st : BSt) (live : Live S) (log : List (Props × S)) (torn : List Props) (rid : Nat) (s t : S)
      (hr : EReach o ops Edits Fine st live log torn) (hs : live rid = some s) (he : Edits s t) :
      EReach o ops Edits Fine st (live.set rid t) log torn
  | save (shift : Shift) (st st' : BSt) (live : Live S) (log : List (Props × S)) (torn : List Props) (rid : Nat) (s : S) (p : Props)
      (hr : EReach o ops Edits Fine st live log torn) (hlv : live rid = some s) (hl : log.length < 10 ^ 8 - 1)
      (hg : ∀ a, Compared o shift ops st rid a → Fine a s)
      (hf : ∀ x, bplan o shift ops st rid none s = .ok x → FileOk x.2.1)
      (hs : bsave o shift ops st rid none s = (st', .ok p)) : EReach o ops Edits Fine st' live ((p, s) :: log) torn
  | fail (shift : Shift) (st st' : BSt) (live : Live S) (log : List (Props × S)) (torn : List Props) (rid : Nat) (s : S) (r : Res Props)
      (hr : EReach o ops Edits Fine st live log torn) (hlv : live rid = some s) (hl : log.length < 10 ^ 8 - 1)
      (hg : ∀ a, Compared o shift ops st rid a → Fine a s)
      (hf : ∀ x, bplan o shift ops st rid none s = .ok x → FileOk x.2.1)
      (hs : bsave o shift ops st rid none s = (st', r)) (hp : ∀ p, r ≠ .ok p) : EReach o ops Edits Fine st' live log torn
  | interrupt (shift : Shift) (st : BSt) (live : Live S) (log : List (Props × S)) (torn : List Props) (rid : Nat) (s : S) (name c : Bytes)
      (f : File) (p : Props) (n : Nat) (hr : EReach o ops Edits Fine st live log torn) (hlv : live rid = some s)
      (hl : log.length < 10 ^ 8 - 1) (hg : ∀ a, Compared o shift ops st rid a → Fine a s)
      (hp : bplan o shift ops st rid none s = .ok (name, f, .ok p)) (hf : FileOk f) (hc : phaseFile f.1 f.2 = .ok c) :
      EReach o ops Edits Fine (interrupted st name c n) live ((p, s) :: log) (if n < c.length then p :: torn else torn)
  | load (st : BSt) (live : Live S) (log : List (Props × S)) (torn : List Props) (h : FileHistory.History) (p : Props) (rid : Nat) (y : S)
      (hr : EReach o ops Edits Fine st live log torn) (hh : st.history = .ok h) (hp : p ∈ h.listFiles) (hn : live rid = none)
      (hy : bload o ops st.dir h p = .ok y) :
      EReach o ops Edits Fine (bloadFile o ops st h p rid).1 (live.set rid y) log torn
  | unloaded (st : BSt) (live : Live S) (log : List (Props × S)) (torn : List Props) (h : FileHistory.History) (p : Props) (rid : Nat)
      (hr : EReach o ops Edits Fine st live log torn) (hh : st.history = .ok h) (hp : p ∈ h.listFiles) (hn : live rid = none)
      (hy : ∀ y, bload o ops st.dir h p ≠ .ok y) :
      EReach o ops Edits Fine (bloadFile o ops st h p rid).1 live log torn
  | list (st : BSt) (dir : BDir) (live : Live S) (log : List (Props × S)) (torn : List Props) (hr : EReach o ops Edits Fine st live log torn)
      (hp : dir.Perm st.dir) : EReach o ops Edits Fine ⟨dir, st.base⟩ live log torn
  | restart (st : BSt) (live : Live S) (log : List (Props × S)) (torn : List Props) (hr : EReach o ops Edits Fine st live log torn) :
      EReach o ops Edits Fine ⟨st.dir, none⟩ (fun _ => none) log torn

end
end Verif.History
