import Verif.Model.Res
/-!
# Saves of several threads

Model of the threads and locks of `dochy_fs/src/imp/history/pub_fn/save_history_file.rs`,
`dochy_fs/src/imp/history/current_root_obj_info/{fifo_thread,mutex_g,history_cache_map}.rs` and load_history_file.rs:21, for one
history directory, as a transition system.

The threads are callers (any number) and the one thread of the pool of the directory. What is done while the mutex is held (a save,
a load) is a program that works in small steps on the shared state `σ` (the files, the cache, the current object); nothing is
assumed about it. The counter `queued` is changed by separate steps, as in the code.

Simplified: the pool is there from the start (it is made by the first call, under a mutex of its own); a thread of the pool that
panics is replaced by another one at once (this is what the crate `threadpool` does); callbacks do nothing but what callers can do.
-/
namespace Verif.SaveQueue

/-- A program that is run while the mutex is held: what it starts with for a request, and one step of it, which ends with more to do
or with a result. -/
structure Body (Q σ L R : Type) where
  init : Q → L
  step : L → σ → σ × (L ⊕ Res R)

/-- A thread: the one of the pool, or a caller. -/
inductive Who where
  | worker
  | caller (c : Nat)
  deriving DecidableEq

/-- Where the holder of the mutex is. -/
inductive Phase (L R : Type) where
  /-- history_cache_map.rs:79: the lock was obtained, the counter was not increased -/
  | entered
  /-- after mutex_g.rs:14 -/
  | running (l : L)
  /-- after mutex_g.rs:21; the guard is not dropped yet -/
  | leaving (r : Res R)

/-- What the thread of the pool does when it does not hold the mutex. -/
inductive Work (Q R : Type) where
  | idle
  /-- save_history_file.rs:48, waiting for the mutex -/
  | waiting (q : Q)
  /-- inside the mutex -/
  | inside
  /-- save_history_file.rs:49-56, before the callback -/
  | callback (q : Q) (r : Res R)

/-- A state of all the threads. -/
structure St (Q X σ L R : Type) where
  /-- the object of each caller -/
  obj : Nat → X
  /-- jobs of the pool that were not taken -/
  queue : List Q
  work : Work Q R
  /-- callers that wait for the mutex, with what they want to do -/
  waiting : Nat → Option Q
  /-- callers that looked at the counter in `save_history_file_nb_if_vacant` and saw 0 -/
  peeked : Nat → Bool
  /-- the holder of the mutex, what it does, and where it is -/
  holder : Option (Who × Q × Phase L R)
  /-- history_cache_item.rs:28 -/
  queued : Nat
  /-- a thread panicked while it held the mutex -/
  poisoned : Bool
  shared : σ

/-- What can be seen. -/
inductive Event (Q R : Type) where
  /-- a job was given to the pool -/
  | call (q : Q)
  /-- the mutex was obtained -/
  | start (w : Who) (q : Q)
  /-- the mutex was released -/
  | stop (w : Who) (q : Q) (r : Res R)
  /-- the mutex was poisoned: history_cache_map.rs:79 `unwrap` panics -/
  | refused (w : Who) (q : Q)
  /-- the callback of a non-blocking save is called with its result -/
  | callback (q : Q) (r : Res R)
  /-- `save_history_file_nb_if_vacant` returned false -/
  | notVacant (c : Nat)

section
variable {Q X σ L R : Type}

/-- A caller that is in no call. -/
def St.Free (s : St Q X σ L R) (c : Nat) : Prop :=
  s.waiting c = none ∧ s.peeked c = false ∧ ∀ q p, s.holder ≠ some (.caller c, q, p)

/-- The thread panics. -/
def isPanic : Res R → Bool
  | .panic => true
  | _ => false

/-- save_history_file.rs:49: the thread of the pool goes on with the callback; if it panics, another thread takes its place. -/
def afterRelease (w : Who) (q : Q) (r : Res R) (old : Work Q R) : Work Q R :=
  match w with
  | .worker => if isPanic r then .idle else .callback q r
  | .caller _ => old

/-- One step of a caller that is in no call (or in `save_history_file_nb_if_vacant`). `req` makes the request of a non-blocking save
from an object (it is cloned). -/
inductive Env (req : X → Q) : St Q X σ L R → Option (Event Q R) → St Q X σ L R → Prop
  /-- a caller changes its object -/
  | change {s : St Q X σ L R} (c : Nat) (x : X) (hf : s.Free c) :
      Env req s none { s with obj := fun i => if i = c then x else s.obj i }
  /-- save_history_file.rs:37-58 `save_history_file_nb`: the object is cloned, the job is put into the queue of the pool -/
  | nb {s : St Q X σ L R} (c : Nat) (hf : s.Free c) :
      Env req s (some (.call (req (s.obj c)))) { s with queue := s.queue ++ [req (s.obj c)] }
  /-- save_history_file.rs:67-69: the counter is 0 -/
  | peekYes {s : St Q X σ L R} (c : Nat) (hf : s.Free c) (h0 : s.queued = 0) :
      Env req s none { s with peeked := fun i => if i = c then true else s.peeked i }
  /-- save_history_file.rs:70-71 -/
  | vacant {s : St Q X σ L R} (c : Nat) (hp : s.peeked c = true) :
      Env req s (some (.call (req (s.obj c)))) { s with
        queue := s.queue ++ [req (s.obj c)], peeked := fun i => if i = c then false else s.peeked i }
  /-- save_history_file.rs:69, 72-74 -/
  | peekNo {s : St Q X σ L R} (c : Nat) (hf : s.Free c) (h0 : s.queued ≠ 0) : Env req s (some (.notVacant c)) s
  /-- save_history_file.rs:23-27 `save_history_file`, load_history_file.rs:16-21: a call that waits for the mutex -/
  | block {s : St Q X σ L R} (c : Nat) (q : Q) (hf : s.Free c) :
      Env req s none { s with waiting := fun i => if i = c then some q else s.waiting i }

/-- One step of a call that is under way. -/
inductive Sys (B : Body Q σ L R) : St Q X σ L R → Option (Event Q R) → St Q X σ L R → Prop
  /-- fifo_thread.rs:16-19: the thread of the pool takes the first job -/
  | take {s : St Q X σ L R} (q : Q) (r : List Q) (hw : s.work = .idle) (hq : s.queue = q :: r) :
      Sys B s none { s with queue := r, work := .waiting q }
  /-- history_cache_map.rs:79 by the thread of the pool -/
  | lockW {s : St Q X σ L R} (q : Q) (hw : s.work = .waiting q) (hh : s.holder = none) (hp : s.poisoned = false) :
      Sys B s (some (.start .worker q)) { s with work := .inside, holder := some (.worker, q, .entered) }
  /-- history_cache_map.rs:79 by a caller -/
  | lockC {s : St Q X σ L R} (c : Nat) (q : Q) (hw : s.waiting c = some q) (hh : s.holder = none) (hp : s.poisoned = false) :
      Sys B s (some (.start (.caller c) q)) { s with
        waiting := fun i => if i = c then none else s.waiting i, holder := some (.caller c, q, .entered) }
  /-- history_cache_map.rs:79: `lock` returns the error of a poisoned mutex, `unwrap` panics; the job is lost -/
  | refusedW {s : St Q X σ L R} (q : Q) (hw : s.work = .waiting q) (hh : s.holder = none) (hp : s.poisoned = true) :
      Sys B s (some (.refused .worker q)) { s with work := .idle }
  | refusedC {s : St Q X σ L R} (c : Nat) (q : Q) (hw : s.waiting c = some q) (hh : s.holder = none) (hp : s.poisoned = true) :
      Sys B s (some (.refused (.caller c) q)) { s with waiting := fun i => if i = c then none else s.waiting i }
  /-- mutex_g.rs:14 -/
  | count {s : St Q X σ L R} (w : Who) (q : Q) (hh : s.holder = some (w, q, .entered)) :
      Sys B s none { s with holder := some (w, q, .running (B.init q)), queued := s.queued + 1 }
  /-- a step of the program -/
  | body {s : St Q X σ L R} (w : Who) (q : Q) (l l' : L) (g : σ) (hh : s.holder = some (w, q, .running l))
      (hb : B.step l s.shared = (g, .inl l')) :
      Sys B s none { s with holder := some (w, q, .running l'), shared := g }
  /-- the last step of the program, and mutex_g.rs:21 -/
  | finish {s : St Q X σ L R} (w : Who) (q : Q) (l : L) (g : σ) (r : Res R) (hh : s.holder = some (w, q, .running l))
      (hb : B.step l s.shared = (g, .inr r)) :
      Sys B s none { s with holder := some (w, q, .leaving r), shared := g, queued := s.queued - 1 }
  /-- mutex_g.rs:8, the guard is dropped; it is poisoned if the thread panics -/
  | release {s : St Q X σ L R} (w : Who) (q : Q) (r : Res R) (hh : s.holder = some (w, q, .leaving r)) :
      Sys B s (some (.stop w q r)) { s with
        holder := none
        poisoned := s.poisoned || isPanic r
        work := afterRelease w q r s.work }
  /-- save_history_file.rs:49-57: the callback is called; it returns (or panics) -/
  | returned {s : St Q X σ L R} (q : Q) (r : Res R) (hw : s.work = .callback q r) :
      Sys B s (some (.callback q r)) { s with work := .idle }

/-- One step. -/
inductive Step (B : Body Q σ L R) (req : X → Q) (s : St Q X σ L R) (e : Option (Event Q R)) (s' : St Q X σ L R) : Prop
  | env (h : Env req s e s')
  | sys (h : Sys B s e s')

/-- The state when the directory was opened (history_cache_map.rs:44-63). -/
def start (obj : Nat → X) (g : σ) : St Q X σ L R where
  obj := obj
  queue := []
  work := .idle
  waiting := fun _ => none
  peeked := fun _ => false
  holder := none
  queued := 0
  poisoned := false
  shared := g

/-- Any number of steps, with the events in their order. -/
inductive Run (B : Body Q σ L R) (req : X → Q) (s0 : St Q X σ L R) : List (Event Q R) → St Q X σ L R → Prop
  | nil : Run B req s0 [] s0
  | silent {evs : List (Event Q R)} {s s' : St Q X σ L R} (hr : Run B req s0 evs s) (hs : Step B req s none s') : Run B req s0 evs s'
  | event {evs : List (Event Q R)} {s s' : St Q X σ L R} {e : Event Q R} (hr : Run B req s0 evs s) (hs : Step B req s (some e) s') :
      Run B req s0 (evs ++ [e]) s'

end
end Verif.SaveQueue
