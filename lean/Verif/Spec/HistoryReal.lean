import Verif.Spec.Crash
/-!
# Histories of real objects

`BReach` (C38) for functions whose diffs restore the object only if the change can be expressed. For C78.
-/
namespace Verif.History
open VarInt FileName FileHistory Phase Codec

section
variable {S : Type}

/-- The object that a save compares with: what the files it depends on are composed to. -/
def planBase (o : Opts) (shift : Shift) (names : List Bytes) (base : Option (Nat × Props)) (stat : Bytes → Res Data)
    (comp : List Props → Res S) (rid : Nat) (tag : Option Bytes) : Res S :=
  (createHistory names .empty).bind fun h =>
  match baseFor base rid, h.newest with
  | some b, some newest =>
    match fromFile o h b newest with
    | none => .err
    | some f =>
      (stat f.filename).bind fun data =>
      (calcNextPhase o shift data).bind fun next =>
      (ancestorsRev h f o.maxPhase o.cumulative.isSome).bind fun rev =>
      (createDependencies rev.reverse next (if newest = f then newest.control else newest.control + 1) tag o.maxPhase o.cumulative.isSome).bind
        fun dp => comp dp.1
  | _, _ => comp []

/-- The object that saving an object with the identity `rid` compares with. -/
def Compared (o : Opts) (shift : Shift) (ops : Ops S) (st : BSt) (rid : Nat) (a : S) : Prop :=
  planBase o shift (st.dir.map (·.1)) st.base (bstat st.dir) (fun l => bcompose ops st.dir l ops.src) rid none = .ok a

/-- States reachable by saves and loads, when the writing of a file may be interrupted after any number of bytes: `BReach`, but an object
is saved only if its difference to the object that it is compared with can be expressed (`Good`). -/
inductive RReach (o : Opts) (ops : Ops S) (Good : S → S → Prop) : BSt → List (Props × S) → List Props → Prop
  | start (dir : BDir) (hn : (dir.map (·.1)).Nodup) (hf : ∀ e ∈ dir, analyze e.1 = .ok none) : RReach o ops Good ⟨dir, none⟩ [] []
  | save (shift : Shift) (st st' : BSt) (log : List (Props × S)) (torn : List Props) (rid : Nat) (s : S) (p : Props)
      (hr : RReach o ops Good st log torn) (hl : log.length < 10 ^ 8 - 1) (hg : ∀ a, Compared o shift ops st rid a → Good a s)
      (hf : ∀ x, bplan o shift ops st rid none s = .ok x → FileOk x.2.1)
      (hs : bsave o shift ops st rid none s = (st', .ok p)) : RReach o ops Good st' ((p, s) :: log) torn
  | fail (shift : Shift) (st st' : BSt) (log : List (Props × S)) (torn : List Props) (rid : Nat) (s : S) (r : Res Props)
      (hr : RReach o ops Good st log torn) (hl : log.length < 10 ^ 8 - 1) (hg : ∀ a, Compared o shift ops st rid a → Good a s)
      (hf : ∀ x, bplan o shift ops st rid none s = .ok x → FileOk x.2.1)
      (hs : bsave o shift ops st rid none s = (st', r)) (hf : ∀ p, r ≠ .ok p) : RReach o ops Good st' log torn
  | interrupt (shift : Shift) (st : BSt) (log : List (Props × S)) (torn : List Props) (rid : Nat) (s : S) (name c : Bytes)
      (f : File) (p : Props) (n : Nat) (hr : RReach o ops Good st log torn) (hl : log.length < 10 ^ 8 - 1)
      (hg : ∀ a, Compared o shift ops st rid a → Good a s)
      (hp : bplan o shift ops st rid none s = .ok (name, f, .ok p)) (hf : FileOk f) (hc : phaseFile f.1 f.2 = .ok c) :
      RReach o ops Good (interrupted st name c n) ((p, s) :: log) (if n < c.length then p :: torn else torn)
  | load (st : BSt) (log : List (Props × S)) (torn : List Props) (h : FileHistory.History) (p : Props) (rid : Nat)
      (hr : RReach o ops Good st log torn) (hh : st.history = .ok h) (hp : p ∈ h.listFiles) :
      RReach o ops Good (bloadFile o ops st h p rid).1 log torn
  | list (st : BSt) (dir : BDir) (log : List (Props × S)) (torn : List Props) (hr : RReach o ops Good st log torn)
      (hp : dir.Perm st.dir) : RReach o ops Good ⟨dir, st.base⟩ log torn
  | restart (st : BSt) (log : List (Props × S)) (torn : List Props) (hr : RReach o ops Good st log torn) :
      RReach o ops Good ⟨st.dir, none⟩ log torn
  | other (st : BSt) (log : List (Props × S)) (torn : List Props) (r : Nat) (e : Props × S) (hr : RReach o ops Good st log torn)
      (he : e ∈ log) (ht : e.1 ∉ torn) : RReach o ops Good ⟨st.dir, some (r, e.1)⟩ log torn

end
end Verif.History
