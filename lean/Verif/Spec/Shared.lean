import Verif.Spec.Removal
import Verif.Model.Cache
/-! # Specification of several processes that use the same history -/
namespace Verif.Shared
open VarInt FileName FileHistory Phase History Remover Removal

section
variable {S : Type}

/-- What a process knows: the file of its current object, and its cache. -/
structure Proc (S : Type) where
  base : Option (Nat × Props)
  cache : Cache S

/-- a new process -/
def Proc.new : Proc S := ⟨none, []⟩

/-- Process `i` changes. -/
def put (ps : Nat → Proc S) (i : Nat) (p : Proc S) : Nat → Proc S := fun j => if j = i then p else ps j

/-- Processes take turns on one directory (compare `ReachC` and `ReachR`), each with its own current object and cache. One operation is
over before the next one begins. -/
inductive Shared (may : FileHistory.History → List Props → Prop) (o : Opts) (ops : Ops S) :
    Dir → (Nat → Proc S) → List (Props × S) → Prop
  | start (dir : Dir) (hn : (dir.map (·.1)).Nodup) (hf : ∀ e ∈ dir, analyze e.1 = .ok none) :
      Shared may o ops dir (fun _ => .new) []
  | save (i : Nat) (shift : Shift) (dir : Dir) (st' : St) (ps : Nat → Proc S) (c' : Cache S) (log : List (Props × S)) (rid : Nat) (s : S)
      (p : Props) (hr : Shared may o ops dir ps log) (hl : log.length < 10 ^ 8 - 1)
      (hs : saveC o shift ops ⟨dir, (ps i).base⟩ (ps i).cache rid none s = (c', st', .ok p)) :
      Shared may o ops st'.dir (put ps i ⟨st'.base, c'⟩) ((p, s) :: log)
  | killed (i : Nat) (shift : Shift) (dir : Dir) (st' : St) (ps : Nat → Proc S) (c' : Cache S) (log : List (Props × S)) (rid : Nat) (s : S)
      (p : Props) (hr : Shared may o ops dir ps log) (hl : log.length < 10 ^ 8 - 1)
      (hs : saveC o shift ops ⟨dir, (ps i).base⟩ (ps i).cache rid none s = (c', st', .ok p)) :
      Shared may o ops st'.dir (put ps i .new) ((p, s) :: log)
  | fail (i : Nat) (shift : Shift) (dir : Dir) (st' : St) (ps : Nat → Proc S) (c' : Cache S) (log : List (Props × S)) (rid : Nat) (s : S)
      (r : Res Props) (hr : Shared may o ops dir ps log) (hl : log.length < 10 ^ 8 - 1)
      (hs : saveC o shift ops ⟨dir, (ps i).base⟩ (ps i).cache rid none s = (c', st', r)) (hf : ∀ p, r ≠ .ok p) :
      Shared may o ops st'.dir (put ps i ⟨st'.base, c'⟩) log
  | load (i : Nat) (dir : Dir) (ps : Nat → Proc S) (log : List (Props × S)) (h : FileHistory.History) (p : Props) (rid : Nat)
      (hr : Shared may o ops dir ps log) (hh : St.history ⟨dir, (ps i).base⟩ = .ok h) (hp : p ∈ h.listFiles) :
      Shared may o ops dir
        (put ps i ⟨(loadFileC o ops ⟨dir, (ps i).base⟩ (ps i).cache h p rid).1.base, (ps i).cache⟩) log
  | list (dir dir' : Dir) (ps : Nat → Proc S) (log : List (Props × S)) (hr : Shared may o ops dir ps log) (hp : dir'.Perm dir) :
      Shared may o ops dir' ps log
  | restart (i : Nat) (dir : Dir) (ps : Nat → Proc S) (log : List (Props × S)) (hr : Shared may o ops dir ps log) :
      Shared may o ops dir (put ps i .new) log
  | remove (dir : Dir) (ps : Nat → Proc S) (log : List (Props × S)) (h : FileHistory.History) (gone : List Props)
      (hr : Shared may o ops dir ps log) (hh : St.history ⟨dir, none⟩ = .ok h) (hm : may h gone) :
      Shared may o ops (removeFiles gone dir) ps log

/-- `remove_old_files` with any number of files to keep, also 0 -/
def AnyOld (o : Opts) (h : FileHistory.History) (gone : List Props) : Prop :=
  ∃ n, gone = removableOldItems o.maxPhase o.cumulative.isSome h n

end
end Verif.Shared
