import Verif.Lemmas.SaveQueue
/-! # C41, C42: saves of several threads -/
namespace Verif.SaveQueue

section
variable {Q X σ L R : Type} {B : Body Q σ L R} {req : X → Q} {obj : Nat → X} {g0 : σ} {evs : List (Event Q R)} {s : St Q X σ L R}

/-- **C41**, one after the other: what is done with the mutex of a directory (saves of the pool, blocking saves, loads) starts only
when what started before has stopped. -/
theorem C41_one_at_a_time (hr : Run B req (start obj g0) evs s) : ∃ o, OneByOne evs o := ⟨_, hr.inv.one⟩

/-- **C41**, in the order of the calls: the non-blocking saves that were begun are the first of the calls, in their order, with the
same objects; all the others still wait. -/
theorem C41_call_order (hr : Run B req (start obj g0) evs s) : ∃ rest, calls evs = processed evs ++ rest := by
  refine ⟨s.work.taken ++ s.queue, ?_⟩
  rw [← List.append_assoc]
  exact hr.inv.fifo

/-- **C41**, the object at the time of the call: what is given to the pool is made from the object of the caller at that time (and
`C41_call_order` says that it is what is saved, whatever the caller does later). -/
theorem C41_object {q : Q} {s s' : St Q X σ L R} (h : Step B req s (some (.call q)) s') : ∃ c, q = req (s.obj c) := by
  rcases h with h | h
  · cases h with
    | nb c hf => exact ⟨c, rfl⟩
    | vacant c hp => exact ⟨c, rfl⟩
  · cases h

/-- **C41**, only at the boundaries of saves: in all schedules the files, the cache and the current object are what they are when
the completed saves and loads are run one after the other, each alone from its beginning to its end, in the order in which they
stopped, followed by a part of the one that runs now; all results are those of that sequential run. -/
theorem C41_sequential (hr : Run B req (start obj g0) evs s) :
    ∃ g, InOrder B g0 (completed evs) g ∧
      ((s.holder = none ∧ s.shared = g) ∨ (∃ w q, s.holder = some (w, q, .entered) ∧ s.shared = g) ∨
        (∃ w q l, s.holder = some (w, q, .running l) ∧ Part B (B.init q) g l s.shared) ∨
        (∃ w q r, s.holder = some (w, q, .leaving r) ∧ Whole B q g s.shared r)) := by
  have h := hr.inv.seq
  cases hh : s.holder with
  | none => rw [hh] at h; exact ⟨_, h, .inl ⟨rfl, rfl⟩⟩
  | some x =>
    obtain ⟨w, q, p⟩ := x
    rw [hh] at h
    cases p with
    | entered => exact ⟨_, h, .inr (.inl ⟨w, q, rfl, rfl⟩)⟩
    | running l =>
      obtain ⟨g, h1, h2⟩ := h
      exact ⟨g, h1, .inr (.inr (.inl ⟨w, q, l, rfl, h2⟩))⟩
    | leaving r =>
      obtain ⟨g, h1, h2⟩ := h
      exact ⟨g, h1, .inr (.inr (.inr ⟨w, q, r, rfl, h2⟩))⟩

/-- **C41**, when nobody holds the mutex the files, the cache and the current object are those of the sequential run. -/
theorem C41_boundary (hr : Run B req (start obj g0) evs s) (hh : s.holder = none) : InOrder B g0 (completed evs) s.shared := by
  have h := hr.inv.seq
  rw [hh] at h
  exact h

/-- **C41**, callbacks: they are called in the order of the saves, once for each save that ended without a panic, with its result;
at most the one of the last save has not been called yet. -/
theorem C41_callbacks (hr : Run B req (start obj g0) evs s) :
    ∃ l, ended evs = callbacks evs ++ l ∧ l.length ≤ 1 := by
  refine ⟨_, hr.back, ?_⟩
  cases s.work <;> simp [Work.calling]

/-- **C41**, all saves are processed: if saves and loads end when they are run alone (`fuel` is a bound for their steps), then from
every state the calls that are under way can make only a bounded number of steps, and when they can go on no more, all non-blocking
saves have been processed (or refused, after a panic), all callbacks were called and nobody waits. There is no deadlock. -/
theorem C41_all_processed {fuel : L → Nat} (hb : B.Bounded fuel) (hr : Run B req (start obj g0) evs s) :
    ∃ n, ∀ k more s', SysRun B s k more s' → k ≤ n ∧
      ((∀ e s'', ¬ Sys B s' e s'') →
        processed (evs ++ more) = calls (evs ++ more) ∧ callbacks (evs ++ more) = ended (evs ++ more) ∧ s'.Vacant) := by
  obtain ⟨n, hn⟩ := hr.finite
  refine ⟨weight B fuel n s, fun k more s' h => ⟨?_, fun hst => ?_⟩⟩
  · have := (h.weight_le hb hn).1
    omega
  · have hr' := hr.trans (h.run (req := req))
    obtain ⟨h1, h2, h3, h4⟩ := hr'.inv.stuck hst
    refine ⟨?_, ?_, h1, ?_, h3, h4⟩
    · have := hr'.inv.fifo
      rw [h1, h2] at this
      simpa [Work.taken] using this.symm
    · have := hr'.back
      rw [h2] at this
      simpa [Work.calling] using this.symm
    · intro q hq; rw [h2] at hq; cases hq

/-- **C41**, after a panic inside a save or a load the directory is dead: whatever is called afterwards, nothing is done any more, and
no callback is called but the one that may have been due. -/
theorem C41_after_panic {w : Who} {q : Q} {more : List (Event Q R)} {s' : St Q X σ L R} (hr : Run B req (start obj g0) evs s)
    (hp : (w, q, Res.panic) ∈ completed evs) (h : Run B req s more s') :
    s'.shared = s.shared ∧ completed more = [] ∧ (callbacks more).length ≤ 1 := by
  have hpo := hr.inv.poison.2 ⟨w, q, hp⟩
  have hh : s.holder = none := by
    cases hh : s.holder with
    | none => rfl
    | some x => have := hr.inv.fresh x hh; rw [hpo] at this; cases this
  obtain ⟨-, -, h1, h2, h3⟩ := h.poisoned hpo hh
  refine ⟨h1, h2, ?_⟩
  have := congrArg List.length h3
  have hl : s.work.calling.length ≤ 1 := by cases s.work <;> simp [Work.calling]
  simp at this
  omega

/-- **C42**, what the test sees, exactly: a caller of `save_history_file_nb_if_vacant` goes on to save if and only if no thread is
between the two changes of the counter, that is inside a save or load proper. -/
theorem C42_exact (hr : Run B req (start obj g0) evs s) {c : Nat} (hf : s.Free c) :
    (∃ s' : St Q X σ L R, Step B req s none s' ∧ s'.peeked c = true) ↔ ∀ w q l, s.holder ≠ some (w, q, .running l) := by
  have hc := hr.inv.counter
  constructor
  · rintro ⟨s', hs, hp⟩ w q l hh
    rw [hh] at hc
    have hpf := hf.2.1
    rcases hs with hs | hs
    · cases hs with
      | change c' x hf' => rw [hpf] at hp; cases hp
      | peekYes c' hf' h0 => rw [hc] at h0; cases h0
      | block c' q' hf' => rw [hpf] at hp; cases hp
    · cases hs <;> (rw [hpf] at hp; cases hp)
  · intro h
    refine ⟨_, .env (.peekYes c hf ?_), by simp⟩
    rw [hc]
    cases hh : s.holder with
    | none => rfl
    | some x =>
      obtain ⟨w, q, p⟩ := x
      cases p with
      | running l => exact absurd hh (h w q l)
      | entered => rfl
      | leaving r => rfl

/-- **C42** (partial): while a save or a load is running, `save_history_file_nb_if_vacant` does not get past its test. Missing: saves
that are queued, or that have or wait for the mutex without having changed the counter; see `C42_negation`. The full statement would
be: a step that sets `peeked c` is made only in a state that is `Vacant`. -/
theorem C42_running_partial (hr : Run B req (start obj g0) evs s) {w : Who} {q : Q} {l : L} (hh : s.holder = some (w, q, .running l))
    {c : Nat} (hf : s.Free c) {e : Option (Event Q R)} {s' : St Q X σ L R} (hs : Step B req s e s') : s'.peeked c = false := by
  have hc := hr.inv.counter
  rw [hh] at hc
  have hpf := hf.2.1
  rcases hs with hs | hs
  · cases hs with
    | peekYes c' hf' h0 => rw [hc] at h0; cases h0
    | vacant c' hp =>
      by_cases h : c = c'
      · simp [h]
      · simpa [h] using hpf
    | _ => exact hpf
  · cases hs <;> exact hpf

/-- **C42** is false, for one caller alone: two calls of `save_history_file_nb_if_vacant`, one after the other, both start a save,
although the first save is still in the queue of the pool when the second call looks. Nothing is assumed about saves. -/
theorem C42_negation (B : Body Q σ L R) (req : X → Q) (obj : Nat → X) (g0 : σ) (c : Nat) :
    ∃ s1 s2 s3 : St Q X σ L R, Run B req (start obj g0) [.call (req (obj c))] s1 ∧ s1.queue = [req (obj c)] ∧ s1.Free c ∧
      ¬ s1.Vacant ∧ Env req s1 none s2 ∧ s2.peeked c = true ∧ Env req s2 (some (.call (req (obj c)))) s3 := by
  have f0 : (start obj g0 : St Q X σ L R).Free c := ⟨rfl, rfl, (fun _ _ h => (nomatch h))⟩
  have r1 := Run.silent (Run.nil (B := B) (req := req)) (.env (.peekYes c f0 rfl))
  have r2 := Run.event r1 (.env (.vacant c (by simp)))
  refine ⟨_, _, _, r2, rfl, ?_, ?_, .peekYes c ?_ rfl, ?_, .vacant c (by simp)⟩
  · exact ⟨rfl, by simp, (fun _ _ h => (nomatch h))⟩
  · rintro ⟨h, -⟩; cases h
  · exact ⟨rfl, by simp, (fun _ _ h => (nomatch h))⟩
  · simp

/-- **C42** is also false while a save has the mutex: it has not increased the counter yet, so a call that looks now starts another
save. -/
theorem C42_negation_running (B : Body Q σ L R) (req : X → Q) (obj : Nat → X) (g0 : σ) (c : Nat) :
    ∃ (evs : List (Event Q R)) (s1 s2 : St Q X σ L R), Run B req (start obj g0) evs s1 ∧
      s1.holder = some (.worker, req (obj c), .entered) ∧ s1.Free c ∧ Env req s1 none s2 ∧ s2.peeked c = true := by
  have f0 : (start obj g0 : St Q X σ L R).Free c := ⟨rfl, rfl, (fun _ _ h => (nomatch h))⟩
  have r1 := Run.event (Run.nil (B := B) (req := req)) (.env (.nb c f0))
  have r2 := Run.silent r1 (.sys (.take _ [] rfl rfl))
  have r3 := Run.event r2 (.sys (.lockW _ rfl rfl rfl))
  refine ⟨_, _, _, r3, rfl, ?_, .peekYes c ?_ rfl, by simp⟩
  · exact ⟨rfl, rfl, (fun _ _ h => (nomatch h))⟩
  · exact ⟨rfl, rfl, (fun _ _ h => (nomatch h))⟩

end

/-! ## Examples -/

/-- A program that adds a number to a list, in two steps; the number 0 panics. -/
def toyBody : Body Nat (List Nat) (Nat × Bool) Nat where
  init q := (q, false)
  step l g := if l.2 then (l.1 :: g, .inr (if l.1 = 0 then .panic else .ok g.length)) else (g, .inl (l.1, true))

theorem toyBody_bounded : toyBody.Bounded (fun l => if l.2 then 0 else 1) := by
  intro l g g' l' h
  unfold toyBody at h
  simp only at h
  split at h
  · cases h
  · rename_i h1
    cases h
    simp [h1]

/-- A non-blocking save of 5, of which the caller changes the object to 6 afterwards, with a blocking load of another caller that
waits at the same time: the state after the save is released. -/
theorem toy_run : ∃ s : St Nat Nat (List Nat) (Nat × Bool) Nat, Run toyBody id (start (fun _ => 5) [])
    [.call 5, .start .worker 5, .stop .worker 5 (.ok 0), .start (.caller 1) 9, .callback 5 (.ok 0)] s ∧ s.shared = [5] ∧ s.obj 0 = 6 := by
  have f0 : ∀ c, (start (fun _ => 5) [] : St Nat Nat (List Nat) (Nat × Bool) Nat).Free c := fun c => ⟨rfl, rfl, (fun _ _ h => (nomatch h))⟩
  have r1 := Run.event (Run.nil (B := toyBody) (req := id)) (.env (.nb 0 (f0 0)))
  have r2 := Run.silent r1 (.env (.change 0 6 ⟨rfl, rfl, (fun _ _ h => (nomatch h))⟩))
  have r3 := Run.silent r2 (.sys (.take 5 [] rfl rfl))
  have r4 := Run.event r3 (.sys (.lockW 5 rfl rfl rfl))
  have r5 := Run.silent r4 (.env (.block 1 9 ⟨rfl, rfl, (fun _ _ h => by cases h)⟩))
  have r6 := Run.silent r5 (.sys (.count .worker 5 rfl))
  have r7 := Run.silent r6 (.sys (.body .worker 5 (5, false) (5, true) [] rfl rfl))
  have r8 := Run.silent r7 (.sys (.finish .worker 5 (5, true) [5] (.ok 0) rfl rfl))
  have r9 := Run.event r8 (.sys (.release .worker 5 (.ok 0) rfl))
  have r10 := Run.event r9 (.sys (.lockC 1 9 rfl rfl rfl))
  have r11 := Run.event r10 (.sys (.returned 5 (.ok 0) rfl))
  exact ⟨_, r11, rfl, rfl⟩

example : ∃ s : St Nat Nat (List Nat) (Nat × Bool) Nat, ∃ evs, Run toyBody id (start (fun _ => 5) []) evs s ∧
    completed evs = [(.worker, 5, .ok 0)] ∧ InOrder toyBody [] (completed evs) [5] := by
  obtain ⟨s, hr, -, -⟩ := toy_run
  refine ⟨s, _, hr, rfl, ?_⟩
  exact .snoc (l := []) .worker 5 (.ok 0) .nil ⟨(5, true), [], .step (.refl _ _) rfl, rfl⟩

/-- A save of 0 panics, and a save of 7 afterwards is refused. -/
theorem toy_panic : ∃ s : St Nat Nat (List Nat) (Nat × Bool) Nat, Run toyBody id (start (fun c => if c = 0 then 0 else 7) [])
    ([.call 0, .start .worker 0, .stop .worker 0 .panic] ++ [.call 7, .refused .worker 7]) s ∧ s.work = .idle ∧ s.queue = [] := by
  have f0 : ∀ c, (start (fun c => if c = 0 then 0 else 7) [] : St Nat Nat (List Nat) (Nat × Bool) Nat).Free c :=
    fun c => ⟨rfl, rfl, (fun _ _ h => (nomatch h))⟩
  have r1 := Run.event (Run.nil (B := toyBody) (req := id)) (.env (.nb 0 (f0 0)))
  have r3 := Run.silent r1 (.sys (.take 0 [] rfl rfl))
  have r4 := Run.event r3 (.sys (.lockW 0 rfl rfl rfl))
  have r6 := Run.silent r4 (.sys (.count .worker 0 rfl))
  have r7 := Run.silent r6 (.sys (.body .worker 0 (0, false) (0, true) [] rfl rfl))
  have r8 := Run.silent r7 (.sys (.finish .worker 0 (0, true) [0] .panic rfl rfl))
  have r9 := Run.event r8 (.sys (.release .worker 0 .panic rfl))
  have r10 := Run.event r9 (.env (.nb 1 ⟨rfl, rfl, (fun _ _ h => (nomatch h))⟩))
  have r11 := Run.silent r10 (.sys (.take 7 [] rfl rfl))
  have r12 := Run.event r11 (.sys (.refusedW 7 rfl rfl rfl))
  exact ⟨_, r12, rfl, rfl⟩

/-- A save that is running, and a caller that looks. -/
example : ∃ (evs : List (Event Nat Nat)) (s : St Nat Nat (List Nat) (Nat × Bool) Nat), Run toyBody id (start (fun _ => 5) []) evs s ∧
    s.holder = some (.worker, 5, .running (5, false)) ∧ s.Free 0 := by
  have f0 : ∀ c, (start (fun _ => 5) [] : St Nat Nat (List Nat) (Nat × Bool) Nat).Free c := fun c => ⟨rfl, rfl, (fun _ _ h => (nomatch h))⟩
  have r1 := Run.event (Run.nil (B := toyBody) (req := id)) (.env (.nb 0 (f0 0)))
  have r3 := Run.silent r1 (.sys (.take 5 [] rfl rfl))
  have r4 := Run.event r3 (.sys (.lockW 5 rfl rfl rfl))
  have r6 := Run.silent r4 (.sys (.count .worker 5 rfl))
  exact ⟨_, _, r6, rfl, rfl, rfl, (fun _ _ h => by cases h)⟩

end Verif.SaveQueue
