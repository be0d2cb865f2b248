import Verif.Model.Archive
/-!
# The threads of the archiver

Model of the threads of `dochy_archiver2/src/imp/read_archive.rs:22-62` and `dochy_archiver2/src/imp/structs/{archiver,hash_thread}.rs`
as a transition system: one step is one send, receive or job.

The threads are: the caller, who hands buffers to the pool; the jobs of the pool (decompression and conversion), which run in any
order although they are spawned with `spawn_fifo`; the archiving thread; the hashing thread. A channel that carries one message is
`none` until the message was sent. `read_archive_data_from_directory` is the same system with all the data there from the start.
-/
namespace Verif.Archive
open Codec VarInt

/-- A state of all the threads. -/
structure St (T H : Type) where
  /-- read_archive.rs:46: buffers that the caller has not handed to the pool -/
  unread : List (Nat × Bytes)
  /-- read_archive.rs:51-57: jobs that have not run -/
  decJobs : List (Nat × Bytes)
  /-- read_archive.rs:22: the channel of each file -/
  rawCh : Nat → Option (Option Bytes)
  /-- read_archive.rs:31: what the archiving thread waits for -/
  todo : List (Nat × String)
  /-- archiver.rs:43-46: jobs that have not run -/
  convJobs : List (Nat × String × Bytes)
  /-- archiver.rs:38: the channel of each file -/
  convCh : Nat → Option T
  /-- archiver.rs:12 `data_receivers`, those of which nothing was received yet -/
  items : List (Nat × String × Bytes)
  /-- archiver.rs:56 -/
  btree : List (String × (T × Bytes))
  /-- hash_thread.rs:14: the queue of the hashing thread -/
  queue : List (Option (String × Bytes))
  /-- hash_thread.rs:17: all that was written to the hasher -/
  hasher : Bytes
  /-- hash_thread.rs:44: the end was sent -/
  ended : Bool
  /-- hash_thread.rs:15: the channel of the result -/
  hashCh : Option H
  /-- read_archive.rs:27: the channel of the result -/
  out : Option (Res (Data T H))

/-- send on a channel for one message -/
def send {A : Type} (ch : Nat → Option A) (i : Nat) (a : A) : Nat → Option A := fun j => if j = i then some a else ch j

/-- One step of one of the threads. -/
inductive Step {T H : Type} (F : Fns T H) : St T H → St T H → Prop
  /-- read_archive.rs:46-51 -/
  | hand {s : St T H} {i : Nat} {b : Bytes} {r : List (Nat × Bytes)} (h : s.unread = (i, b) :: r) :
      Step F s { s with unread := r, decJobs := s.decJobs ++ [(i, b)] }
  /-- read_archive.rs:52-56 -/
  | decompress {s : St T H} {i : Nat} {b : Bytes} {l r : List (Nat × Bytes)} (h : s.decJobs = l ++ (i, b) :: r) :
      Step F s { s with decJobs := l ++ r, rawCh := send s.rawCh i (F.decompress b) }
  /-- read_archive.rs:33, archiver.rs:35-53 `archive` -/
  | archive {s : St T H} {i : Nat} {p : String} {d : Bytes} {r : List (Nat × String)} (ho : s.out = none)
      (h : s.todo = (i, p) :: r) (hc : s.rawCh i = some (some d)) :
      Step F s { s with todo := r, queue := s.queue ++ [some (p, d)], convJobs := s.convJobs ++ [(i, p, d)], items := s.items ++ [(i, p, d)] }
  /-- read_archive.rs:34-37 -/
  | fail {s : St T H} {i : Nat} {p : String} {r : List (Nat × String)} (ho : s.out = none)
      (h : s.todo = (i, p) :: r) (hc : s.rawCh i = some none) : Step F s { s with out := some .err }
  /-- archiver.rs:44-45 -/
  | convert {s : St T H} {i : Nat} {p : String} {d : Bytes} {l r : List (Nat × String × Bytes)} (h : s.convJobs = l ++ (i, p, d) :: r) :
      Step F s { s with convJobs := l ++ r, convCh := send s.convCh i (F.converter p d) }
  /-- archiver.rs:58-64 -/
  | collect {s : St T H} {i : Nat} {p : String} {d : Bytes} {r : List (Nat × String × Bytes)} {t : T} (ho : s.out = none)
      (ht : s.todo = []) (h : s.items = (i, p, d) :: r) (hc : s.convCh i = some t) :
      Step F s { s with items := r, btree := insert p (t, d) s.btree }
  /-- archiver.rs:65, hash_thread.rs:44 -/
  | finish {s : St T H} (ho : s.out = none) (ht : s.todo = []) (hi : s.items = []) (he : s.ended = false) :
      Step F s { s with queue := s.queue ++ [none], ended := true }
  /-- hash_thread.rs:20-25 -/
  | hash {s : St T H} {p : String} {d : Bytes} {r : List (Option (String × Bytes))} (h : s.queue = some (p, d) :: r) :
      Step F s { s with queue := r, hasher := s.hasher ++ strBytes p ++ d }
  /-- hash_thread.rs:26, 30-31 -/
  | hashEnd {s : St T H} {r : List (Option (String × Bytes))} (h : s.queue = none :: r) (hh : s.hashCh = none) :
      Step F s { s with queue := r, hashCh := some (F.hash s.hasher) }
  /-- hash_thread.rs:45, archiver.rs:67, read_archive.rs:44 -/
  | done {s : St T H} {h : H} (ho : s.out = none) (he : s.ended = true) (hh : s.hashCh = some h) :
      Step F s { s with out := some (.ok ⟨s.btree, h⟩) }

/-- read_archive.rs:46 after the header was read: the compressed buffers `files` -/
def initRead {T H : Type} (files : List (String × Bytes)) : St T H where
  unread := (files.zipIdx).map fun f => (f.2, f.1.2)
  decJobs := []
  rawCh := fun _ => none
  todo := (files.zipIdx).map fun f => (f.2, f.1.1)
  convJobs := []
  convCh := fun _ => none
  items := []
  btree := []
  queue := []
  hasher := []
  ended := false
  hashCh := none
  out := none

/-- read_archive_data_from_directory.rs:14: the data of the files is read by the archiving thread itself -/
def initDir {T H : Type} (files : List (String × Bytes)) : St T H :=
  { initRead files with unread := [], rawCh := fun i => files[i]?.map fun f => some f.2 }

/-- any number of steps -/
inductive Steps {T H : Type} (F : Fns T H) : St T H → St T H → Prop
  | refl (s : St T H) : Steps F s s
  | tail {s s' s'' : St T H} : Steps F s s' → Step F s' s'' → Steps F s s''

end Verif.Archive
