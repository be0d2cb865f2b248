import Verif.Spec.HistorySession
import Verif.Model.CacheFiles
/-!
# Histories with sessions of edits and with the cache

`EReach` (C78, C79), for programs that keep a cache. For C81.
-/
namespace Verif.History
open VarInt FileName FileHistory Phase Codec

section
variable {S I : Type}

/-- The object that saving an object with the identity `rid` compares with, when the cache is `c`. -/
def ComparedC (o : Opts) (shift : Shift) (ops : Ops S) (st : BSt) (c : Cache S) (rid : Nat) (a : S) : Prop :=
  planBase o shift (st.dir.map (·.1)) st.base (bstat st.dir) (fun l => (bapplyForSave o ops st.dir l c).2) rid none = .ok a

/-- the same functions with another `diff` -/
def KOps.withDiff (k : KOps S) (d : S → S → Res (List KVal)) : KOps S := { k with diff := d }

/-- States reachable by creating objects from the source, copying them, editing them (`Edits`), saving them and loading them, with a cache
that ends with the process, when the writing of a file may be interrupted after any number of bytes. Every save has its own function of
`diffs`. Objects are saved only when their difference to what they are compared with is `Fine`. -/
inductive CReach (o : Opts) (k : KOps S) (diffs : I → S → S → Res (List KVal)) (Edits : S → S → Prop) (Fine : I → S → S → Prop) :
    BSt → Cache S → Live S → List (Props × S) → List Props → Prop
  | start (dir : BDir) (hn : (dir.map (·.1)).Nodup) (hf : ∀ e ∈ dir, analyze e.1 = .ok none) :
      CReach o k diffs Edits Fine ⟨dir, none⟩ [] (fun _ => none) [] []
  | create (st : BSt) (c : Cache S) (live : Live S) (log : List (Props × S)) (torn : List Props) (rid : Nat)
      (hr : CReach o k diffs Edits Fine st c live log torn) (hn : live rid = none) :
      CReach o k diffs Edits Fine st c (live.set rid k.src) log torn
  | copy (st : BSt) (c : Cache S) (live : Live S) (log : List (Props × S)) (torn : List Props) (rid new : Nat) (s : S)
      (hr : CReach o k diffs Edits Fine st c live log torn) (hs : live rid = some s) (hn : live new = none) :
      CReach o k diffs Edits Fine st c (live.set new s) log torn
  | edit (st : BSt) (c : Cache S) (live : Live S) (log : List (Props × S)) (torn : List Props) (rid : Nat) (s t : S)
      (hr : CReach o k diffs Edits Fine st c live log torn) (hs : live rid = some s) (he : Edits s t) :
      CReach o k diffs Edits Fine st c (live.set rid t) log torn
  | save (i : I) (shift : Shift) (st st' : BSt) (c c' : Cache S) (live : Live S) (log : List (Props × S)) (torn : List Props) (rid : Nat)
      (s : S) (p : Props) (hr : CReach o k diffs Edits Fine st c live log torn) (hlv : live rid = some s) (hl : log.length < 10 ^ 8 - 1)
      (hg : ∀ a, ComparedC o shift k.ops st c rid a → Fine i a s)
      (hf : ∀ x, (bplanC o shift (k.withDiff (diffs i)).ops st c rid none s).2 = .ok x → FileOk x.1.2.1)
      (hs : bsaveC o shift (k.withDiff (diffs i)).ops st c rid none s = (c', st', .ok p)) :
      CReach o k diffs Edits Fine st' c' live ((p, s) :: log) torn
  | fail (i : I) (shift : Shift) (st st' : BSt) (c c' : Cache S) (live : Live S) (log : List (Props × S)) (torn : List Props) (rid : Nat)
      (s : S) (r : Res Props) (hr : CReach o k diffs Edits Fine st c live log torn) (hlv : live rid = some s) (hl : log.length < 10 ^ 8 - 1)
      (hg : ∀ a, ComparedC o shift k.ops st c rid a → Fine i a s)
      (hs : bsaveC o shift (k.withDiff (diffs i)).ops st c rid none s = (c', st', r)) (hp : ∀ p, r ≠ .ok p) :
      CReach o k diffs Edits Fine st' c' live log torn
  | interrupt (i : I) (shift : Shift) (st : BSt) (c c' : Cache S) (live : Live S) (log : List (Props × S)) (torn : List Props) (rid : Nat)
      (s : S) (name b : Bytes) (f : File) (p : Props) (ph n : Nat) (hr : CReach o k diffs Edits Fine st c live log torn)
      (hlv : live rid = some s) (hl : log.length < 10 ^ 8 - 1) (hg : ∀ a, ComparedC o shift k.ops st c rid a → Fine i a s)
      (hp : bplanC o shift (k.withDiff (diffs i)).ops st c rid none s = (c', .ok ((name, f, .ok p), ph))) (hf : FileOk f)
      (hb : phaseFile f.1 f.2 = .ok b) :
      CReach o k diffs Edits Fine (interrupted st name b n) c' live ((p, s) :: log) (if n < b.length then p :: torn else torn)
  | load (st : BSt) (c : Cache S) (live : Live S) (log : List (Props × S)) (torn : List Props) (h : FileHistory.History) (p : Props)
      (rid : Nat) (y : S) (hr : CReach o k diffs Edits Fine st c live log torn) (hh : st.history = .ok h) (hp : p ∈ h.listFiles)
      (hn : live rid = none) (hy : bloadC o k.ops st.dir c h p = .ok y) :
      CReach o k diffs Edits Fine (bloadFileC o k.ops st c h p rid).1 c (live.set rid y) log torn
  | unloaded (st : BSt) (c : Cache S) (live : Live S) (log : List (Props × S)) (torn : List Props) (h : FileHistory.History) (p : Props)
      (rid : Nat) (hr : CReach o k diffs Edits Fine st c live log torn) (hh : st.history = .ok h) (hp : p ∈ h.listFiles)
      (hn : live rid = none) (hy : ∀ y, bloadC o k.ops st.dir c h p ≠ .ok y) :
      CReach o k diffs Edits Fine (bloadFileC o k.ops st c h p rid).1 c live log torn
  | list (st : BSt) (dir : BDir) (c : Cache S) (live : Live S) (log : List (Props × S)) (torn : List Props)
      (hr : CReach o k diffs Edits Fine st c live log torn) (hp : dir.Perm st.dir) :
      CReach o k diffs Edits Fine ⟨dir, st.base⟩ c live log torn
  | restart (st : BSt) (c : Cache S) (live : Live S) (log : List (Props × S)) (torn : List Props)
      (hr : CReach o k diffs Edits Fine st c live log torn) : CReach o k diffs Edits Fine ⟨st.dir, none⟩ [] (fun _ => none) log torn

end
end Verif.History
