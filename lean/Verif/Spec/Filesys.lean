import Verif.Model.Filesys
import Verif.Lemmas.Codec
/-! # Specification of save files and their archives -/
namespace Verif.Filesys
open Codec VarInt HashDir

section
variable {V S : Type}

/-- What is needed of the functions of other crates: hashes have 128 bits; different sources with the same hash have the same root
object; an archive is read as the source it was made of, and a part of it is refused or read as the whole; the values of a diff can
be encoded, and reading and applying them gives the object back. The last is asked for the objects that are saved (`Good`, of the object
of the source and the saved one), and up to what counts as the same (`Same`). `V` is the type of the versions of the source that occur. -/
structure FsOps.Lawful (o : FsOps V S) (Good Same : S → S → Prop) : Prop where
  hash : ∀ v s h, o.root v = .ok (s, h) → h < 2 ^ 128
  collision : ∀ v v' s s' h, o.root v = .ok (s, h) → o.root v' = .ok (s', h) → s = s'
  whole : ∀ v s h out, o.root v = .ok (s, h) → o.archive v = .ok out → o.read out = .ok (s, h)
  torn : ∀ v s h out n, o.root v = .ok (s, h) → o.archive v = .ok out → n < out.length →
    o.read (out.take n) = .err ∨ o.read (out.take n) = o.read out
  diff : ∀ w a h b v, o.root w = .ok (a, h) → Good a b → o.diff a b = .ok v → (∀ x ∈ v, Valid x) ∧ v.length < 2 ^ 63 ∧
    (∀ out, encodeVals v = .ok out → out.length < 2 ^ 63) ∧ ∃ y, o.app a (v.map norm) = .ok y ∧ Same b y

/-- What is known of the files: the object that was saved last under a name in the folder of a hash, `none` if that save was
interrupted while it wrote the file. -/
abbrev Known (S : Type) := Nat → Bytes → Option (Option S)

def Known.set (k : Known S) (hash : Nat) (name : Bytes) (x : Option (Option S)) : Known S :=
  fun h n => if h = hash ∧ n = name then x else k h n

/-- The archive in the folder of `hash` came into being in a step, and it is not the whole archive of a source with this hash. -/
def Spoils (o : FsOps V S) (d d' : Disk V) (hash : Nat) : Prop :=
  d.read (hashToFolderName hash) archiveName = none ∧ ∃ c, d'.read (hashToFolderName hash) archiveName = some c ∧
    ¬ ∃ v s, o.root v = .ok (s, hash) ∧ o.archive v = .ok c

/-- What is known of the file of a save that dies after `i` actions and `n` bytes of the next one: the file is written by the last
action of a save that would have succeeded. -/
def afterCrash (acts : List Act) (r : Res Unit) (i n : Nat) (x : S) (before : Option (Option S)) : Option (Option S) :=
  match r with
  | .ok _ =>
    if acts.length ≤ i then some (some x)
    else if i + 1 = acts.length then
      match acts[i]? with
      | some (.put _ _ b) => if n < b.length then some none else some (some x)
      | _ => before
    else before
  | _ => before

/-- Runs of processes on one save directory: edits of the source, starts of processes, saves, crashes at every point of a save,
removals of files and of folders, removals of folders that stop at every
point (then the folder counts as spoiled if its archive is among what is gone). The names of the files are not reserved, and what is
saved is `Good`. `proc` is what the process has in its cache. -/
inductive Reach (o : FsOps V S) (Good : S → S → Prop) : Disk V → Option (S × Nat) → Known S → (Nat → Prop) → Prop
  | init (v : V) : Reach o Good ⟨v, fun _ => none⟩ none (fun _ _ => none) fun _ => False
  | edit (v : V) {d : Disk V} {p : Option (S × Nat)} {k : Known S} {bad : Nat → Prop} (hr : Reach o Good d p k bad) :
      Reach o Good ⟨v, d.dirs⟩ p k bad
  | start {d : Disk V} {p : Option (S × Nat)} {k : Known S} {bad : Nat → Prop} (s : S) (h : Nat) (hr : Reach o Good d p k bad)
      (hs : o.root d.src = .ok (s, h)) : Reach o Good d (some (s, h)) k bad
  | save {d : Disk V} {k : Known S} {bad : Nat → Prop} (s : S) (h : Nat) (now : Time) (name : Bytes) (x : S) (overwrite : Bool)
      (acts : List Act) (hr : Reach o Good d (some (s, h)) k bad) (hn : isReserved name = false) (hg : Good s x)
      (hs : save o (h, s) now name x overwrite d = (acts, .ok ())) :
      Reach o Good (runAll d acts) (some (s, h)) (k.set h name (some (some x)))
        fun h' => bad h' ∨ Spoils o d (runAll d acts) h'
  | fail {d : Disk V} {k : Known S} {bad : Nat → Prop} (s : S) (h : Nat) (now : Time) (name : Bytes) (x : S) (overwrite : Bool)
      (acts : List Act) (r : Res Unit) (hr : Reach o Good d (some (s, h)) k bad) (hn : isReserved name = false) (hg : Good s x)
      (hs : save o (h, s) now name x overwrite d = (acts, r)) (hf : r ≠ .ok ()) :
      Reach o Good (runAll d acts) (some (s, h)) k fun h' => bad h' ∨ Spoils o d (runAll d acts) h'
  | crash {d : Disk V} {k : Known S} {bad : Nat → Prop} (s : S) (h : Nat) (now : Time) (name : Bytes) (x : S) (overwrite : Bool)
      (acts : List Act) (r : Res Unit) (i n : Nat) (hr : Reach o Good d (some (s, h)) k bad) (hn : isReserved name = false) (hg : Good s x)
      (hs : save o (h, s) now name x overwrite d = (acts, r)) :
      Reach o Good (runAll d (cut acts i n)) none (k.set h name (afterCrash acts r i n x (k h name)))
        fun h' => bad h' ∨ Spoils o d (runAll d (cut acts i n)) h'
  | remove {d d' : Disk V} {p : Option (S × Nat)} {k : Known S} {bad : Nat → Prop} (h : Nat) (name : Bytes) (hh : h < 2 ^ 128)
      (hr : Reach o Good d p k bad) (hs : remove h name d = .ok d') : Reach o Good d' p (k.set h name none) bad
  | removeDir {d d' : Disk V} {p : Option (S × Nat)} {k : Known S} {bad : Nat → Prop} (h : Nat) (hh : h < 2 ^ 128)
      (hr : Reach o Good d p k bad) (hs : removeDir h d = .ok d') :
      Reach o Good d' p (fun h' n => if h' = h then none else k h' n) fun h' => h' ≠ h ∧ bad h'
  | removeSome {d : Disk V} {p : Option (S × Nat)} {k : Known S} {bad : Nat → Prop} (h : Nat) (gone : Bytes → Bool) (hh : h < 2 ^ 128)
      (hr : Reach o Good d p k bad) : Reach o Good (removeSome h gone d) p (fun h' n => if h' = h ∧ gone n = true then none else k h' n)
        fun h' => bad h' ∨ h' = h ∧ gone archiveName = true

end
end Verif.Filesys
