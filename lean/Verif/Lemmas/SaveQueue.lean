import Verif.Spec.SaveQueue
import Mathlib.Tactic.Common
import Mathlib.Algebra.BigOperators.Group.Finset.Basic
import Mathlib.Algebra.Order.BigOperators.Group.Finset
/-! # What is true in all states of the threads that save -/
namespace Verif.SaveQueue

section
variable {Q X σ L R : Type}

theorem calls_append (a b : List (Event Q R)) : calls (a ++ b) = calls a ++ calls b := by
  induction a with
  | nil => rfl
  | cons e r ih => cases e <;> simp [calls, ih]

theorem processed_append (a b : List (Event Q R)) : processed (a ++ b) = processed a ++ processed b := by
  induction a with
  | nil => rfl
  | cons e r ih =>
    cases e with
    | start w q => cases w <;> simp [processed, ih]
    | refused w q => cases w <;> simp [processed, ih]
    | _ => simp [processed, ih]

theorem completed_append (a b : List (Event Q R)) : completed (a ++ b) = completed a ++ completed b := by
  induction a with
  | nil => rfl
  | cons e r ih => cases e <;> simp [completed, ih]

theorem callbacks_append (a b : List (Event Q R)) : callbacks (a ++ b) = callbacks a ++ callbacks b := by
  induction a with
  | nil => rfl
  | cons e r ih => cases e <;> simp [callbacks, ih]

theorem ended_append (a b : List (Event Q R)) : ended (a ++ b) = ended a ++ ended b := by
  induction a with
  | nil => rfl
  | cons e r ih =>
    cases e with
    | stop w q x =>
      cases w with
      | worker => cases x <;> simp [ended, ih]
      | caller c => simp [ended, ih]
    | _ => simp [ended, ih]

/-- The job the thread of the pool waits with. -/
def Work.taken : Work Q R → List Q
  | .waiting q => [q]
  | _ => []

/-- The callback the thread of the pool is about to call. -/
def Work.calling : Work Q R → List (Q × Res R)
  | .callback q r => [(q, r)]
  | _ => []

/-- The holder without its position. -/
def held : Option (Who × Q × Phase L R) → Option (Who × Q)
  | some (w, q, _) => some (w, q)
  | none => none

/-- What the counter shows. -/
def counted : Option (Who × Q × Phase L R) → Nat
  | some (_, _, .running _) => 1
  | _ => 0

/-- The shared state is the result of what was completed, and of the part the holder has done. -/
def SeqOk (B : Body Q σ L R) (g0 : σ) (done : List (Who × Q × Res R)) (g : σ) : Option (Who × Q × Phase L R) → Prop
  | none => InOrder B g0 done g
  | some (_, _, .entered) => InOrder B g0 done g
  | some (_, q, .running l) => ∃ g1, InOrder B g0 done g1 ∧ Part B (B.init q) g1 l g
  | some (_, q, .leaving r) => ∃ g1, InOrder B g0 done g1 ∧ Whole B q g1 g r

/-- What is true in all states. -/
structure Inv (B : Body Q σ L R) (g0 : σ) (evs : List (Event Q R)) (s : St Q X σ L R) : Prop where
  fifo : calls evs = processed evs ++ s.work.taken ++ s.queue
  one : OneByOne evs (held s.holder)
  counter : s.queued = counted s.holder
  seq : SeqOk B g0 (completed evs) s.shared s.holder
  inside : s.work = .inside ↔ ∃ q p, s.holder = some (.worker, q, p)
  poison : s.poisoned = true ↔ ∃ w q, (w, q, Res.panic) ∈ completed evs
  fresh : ∀ h, s.holder = some h → s.poisoned = false
  apart : ∀ c q p, s.holder = some (.caller c, q, p) → s.waiting c = none

theorem Inv.nil (B : Body Q σ L R) (obj : Nat → X) (g0 : σ) : Inv B g0 [] (start obj g0 : St Q X σ L R) where
  fifo := rfl
  one := .nil
  counter := rfl
  seq := .nil
  inside := ⟨(fun h => (nomatch h)), (fun ⟨_, _, h⟩ => (nomatch h))⟩
  poison := ⟨(fun h => (nomatch h)), (fun ⟨_, _, h⟩ => (nomatch h))⟩
  fresh := fun _ h => nomatch h
  apart := fun _ _ _ h => nomatch h

theorem Inv.step {B : Body Q σ L R} {req : X → Q} {g0 : σ} {evs : List (Event Q R)} {s s' : St Q X σ L R} {e : Option (Event Q R)}
    (hi : Inv B g0 evs s) (hs : Step B req s e s') : Inv B g0 (evs ++ e.toList) s' := by
  obtain ⟨h1, h2, h3, h4, h5, h6, h7, h8⟩ := hi
  rcases hs with hs | hs
  · cases hs with
      | change c x hf => simpa using ⟨h1, h2, h3, h4, h5, h6, h7, h8⟩
      | nb c hf =>
        refine ⟨?_, .call _ h2, h3, ?_, h5, ?_, h7, h8⟩
        · simp [calls_append, processed_append, h1, calls, processed]
        · simpa [completed_append, completed] using h4
        · simpa [completed_append, completed] using h6
      | peekYes c hf h0 => simpa using ⟨h1, h2, h3, h4, h5, h6, h7, h8⟩
      | vacant c hp =>
        refine ⟨?_, .call _ h2, h3, ?_, h5, ?_, h7, h8⟩
        · simp [calls_append, processed_append, h1, calls, processed]
        · simpa [completed_append, completed] using h4
        · simpa [completed_append, completed] using h6
      | peekNo c hf h0 =>
        refine ⟨?_, .notVacant _ h2, h3, ?_, h5, ?_, h7, h8⟩
        · simp [calls_append, processed_append, h1, calls, processed]
        · simpa [completed_append, completed] using h4
        · simpa [completed_append, completed] using h6
      | block c q hf =>
        refine ⟨by simpa using h1, by simpa using h2, h3, by simpa using h4, h5, by simpa using h6, h7, ?_⟩
        intro c' q' p' hh
        have := h8 c' q' p' hh
        by_cases hc : c' = c
        · subst hc; exact absurd hh (hf.2.2 _ _)
        · simpa [hc] using this
  · cases hs with
      | take q r hw hq =>
        refine ⟨?_, by simpa using h2, h3, by simpa using h4, ?_, by simpa using h6, h7, h8⟩
        · simp [h1, hw, hq, Work.taken]
        · constructor
          · intro h; cases h
          · intro h; rw [← h5, hw] at h; cases h
      | lockW q hw hh hp =>
        rw [hh] at h2 h3 h4
        refine ⟨?_, .start _ _ h2, h3, ?_, ?_, ?_, fun _ _ => hp, ?_⟩
        · simp [calls_append, processed_append, h1, calls, processed, hw, Work.taken]
        · simpa [completed_append, completed, SeqOk] using h4
        · exact ⟨fun _ => ⟨_, _, rfl⟩, fun _ => rfl⟩
        · simpa [completed_append, completed] using h6
        · intro c q p h; cases h
      | lockC c q hw hh hp =>
        rw [hh] at h2 h3 h4
        refine ⟨?_, .start _ _ h2, h3, ?_, ?_, ?_, fun _ _ => hp, ?_⟩
        · simp [calls_append, processed_append, h1, calls, processed]
        · simpa [completed_append, completed, SeqOk] using h4
        · constructor
          · intro h; rw [h5, hh] at h; obtain ⟨_, _, h⟩ := h; cases h
          · rintro ⟨_, _, h⟩; cases h
        · simpa [completed_append, completed] using h6
        · intro c' q p h; cases h; simp
      | refusedW q hw hh hp =>
        refine ⟨?_, .refused _ _ h2, h3, ?_, ?_, ?_, h7, h8⟩
        · simp [calls_append, processed_append, h1, calls, processed, hw, Work.taken]
        · simpa [completed_append, completed] using h4
        · rw [hh]
          constructor
          · intro h; cases h
          · rintro ⟨_, _, h⟩; cases h
        · simpa [completed_append, completed] using h6
      | refusedC c q hw hh hp =>
        refine ⟨?_, .refused _ _ h2, h3, ?_, h5, ?_, h7, ?_⟩
        · simp [calls_append, processed_append, h1, calls, processed]
        · simpa [completed_append, completed] using h4
        · simpa [completed_append, completed] using h6
        · intro c' q p h; rw [hh] at h; cases h
      | count w q hh =>
        rw [hh] at h2 h3 h4
        refine ⟨by simpa using h1, by simpa [held] using h2, by simp [h3, counted], ?_, ?_, by simpa using h6, ?_, ?_⟩
        · exact ⟨_, by simpa [SeqOk] using h4, .refl _ _⟩
        · rw [h5, hh]; simp
        · intro h _; exact h7 _ hh
        · intro c q p h; cases h; exact h8 _ _ _ hh
      | body w q l l' g hh hb =>
        rw [hh] at h2 h3 h4
        obtain ⟨g1, h4a, h4b⟩ := h4
        refine ⟨by simpa using h1, by simpa [held] using h2, h3, ?_, ?_, by simpa using h6, ?_, ?_⟩
        · exact ⟨_, by simpa using h4a, h4b.step hb⟩
        · rw [h5, hh]; simp
        · intro h _; exact h7 _ hh
        · intro c q p h; cases h; exact h8 _ _ _ hh
      | finish w q l g r hh hb =>
        rw [hh] at h2 h3 h4
        obtain ⟨g1, h4a, h4b⟩ := h4
        refine ⟨by simpa using h1, by simpa [held] using h2, by simp [h3, counted], ?_, ?_, by simpa using h6, ?_, ?_⟩
        · exact ⟨_, by simpa using h4a, _, _, h4b, hb⟩
        · rw [h5, hh]; simp
        · intro h _; exact h7 _ hh
        · intro c q p h; cases h; exact h8 _ _ _ hh
      | release w q r hh =>
        have hp := h7 _ hh
        have hin := h5
        rw [hh] at h2 h3 h4 hin
        obtain ⟨g1, h4a, h4b⟩ := h4
        refine ⟨?_, .stop _ _ _ h2, h3, ?_, ?_, ?_, ?_, ?_⟩
        · have : (afterRelease w q r s.work).taken = s.work.taken := by
            cases w with
            | worker => rw [hin.2 ⟨_, _, rfl⟩]; cases r <;> rfl
            | caller c => rfl
          simp only [this]
          simp [calls_append, processed_append, h1, calls, processed]
        · show InOrder B g0 _ s.shared
          simp only [Option.toList, completed_append, completed]
          exact .snoc _ _ _ h4a h4b
        · constructor
          · intro h
            exfalso
            cases w with
            | worker => cases r <;> cases h
            | caller c => obtain ⟨_, _, h'⟩ := hin.1 h; cases h'
          · rintro ⟨_, _, h⟩; cases h
        · rw [hp] at h6 ⊢
          have hn : ¬ ∃ w q, (w, q, Res.panic) ∈ completed evs := fun h => by simpa using h6.2 h
          simp only [Option.toList, completed_append, completed]
          cases r with
          | panic => simpa [isPanic] using ⟨w, q, .inr ⟨rfl, rfl⟩⟩
          | ok x => simpa [isPanic] using hn
          | err => simpa [isPanic] using hn
        · intro h h'; cases h'
        · intro c q p h; cases h
      | returned q r hw =>
        refine ⟨?_, .callback _ _ h2, h3, ?_, ?_, ?_, h7, h8⟩
        · simpa [calls_append, processed_append, calls, processed, hw, Work.taken] using h1
        · simpa [completed_append, completed] using h4
        · constructor
          · intro h; cases h
          · intro h; rw [← h5, hw] at h; cases h
        · simpa [completed_append, completed] using h6

theorem Run.inv {B : Body Q σ L R} {req : X → Q} {obj : Nat → X} {g0 : σ} {evs : List (Event Q R)} {s : St Q X σ L R}
    (hr : Run B req (start obj g0) evs s) : Inv B g0 evs s := by
  induction hr with
  | nil => exact .nil _ _ _
  | silent _ hs ih => simpa using ih.step hs
  | event _ hs ih => exact ih.step hs

/-- The callbacks are those of the saves that ended, in their order. -/
theorem Run.back {B : Body Q σ L R} {req : X → Q} {obj : Nat → X} {g0 : σ} {evs : List (Event Q R)} {s : St Q X σ L R}
    (hr : Run B req (start obj g0) evs s) : ended evs = callbacks evs ++ s.work.calling := by
  have key : ∀ (evs : List (Event Q R)) (s s' : St Q X σ L R) (e : Option (Event Q R)), Inv B g0 evs s → Step B req s e s' →
      ended evs = callbacks evs ++ s.work.calling → ended (evs ++ e.toList) = callbacks (evs ++ e.toList) ++ s'.work.calling := by
    intro evs s s' e hi hs ih
    rcases hs with hs | hs
    · cases hs <;> simpa [ended_append, callbacks_append, ended, callbacks] using ih
    · cases hs with
      | take q r hw hq => simpa [hw, Work.calling] using ih
      | lockW q hw hh hp => simpa [ended_append, callbacks_append, ended, callbacks, hw, Work.calling] using ih
      | lockC c q hw hh hp => simpa [ended_append, callbacks_append, ended, callbacks] using ih
      | refusedW q hw hh hp => simpa [ended_append, callbacks_append, ended, callbacks, hw, Work.calling] using ih
      | refusedC c q hw hh hp => simpa [ended_append, callbacks_append, ended, callbacks] using ih
      | count w q hh => simpa using ih
      | body w q l l' g hh hb => simpa using ih
      | finish w q l g r hh hb => simpa using ih
      | release w q r hh =>
        cases w with
        | worker =>
          rw [hi.inside.2 ⟨_, _, hh⟩] at ih
          cases r <;> simpa [ended_append, callbacks_append, ended, callbacks, Work.calling, afterRelease, isPanic] using ih
        | caller c => simpa [ended_append, callbacks_append, ended, callbacks, afterRelease] using ih
      | returned q r hw => simpa [ended_append, callbacks_append, ended, callbacks, hw, Work.calling] using ih
  induction hr with
  | nil => rfl
  | silent hr hs ih => simpa using key _ _ _ _ hr.inv hs ih
  | event hr hs ih => exact key _ _ _ _ hr.inv hs ih

/-! ## The end of all calls -/

/-- What is left to do for a call that waits. -/
def waitWeight (B : Body Q σ L R) (fuel : L → Nat) : Option Q → Nat
  | some q => fuel (B.init q) + 6
  | none => 0

def holdWeight (B : Body Q σ L R) (fuel : L → Nat) : Option (Who × Q × Phase L R) → Nat
  | none => 0
  | some (_, q, .entered) => fuel (B.init q) + 5
  | some (_, _, .running l) => fuel l + 4
  | some (_, _, .leaving _) => 3

def workWeight (B : Body Q σ L R) (fuel : L → Nat) : Work Q R → Nat
  | .waiting q => fuel (B.init q) + 7
  | .callback _ _ => 1
  | _ => 0

def queueWeight (B : Body Q σ L R) (fuel : L → Nat) : List Q → Nat
  | [] => 0
  | q :: r => fuel (B.init q) + 8 + queueWeight B fuel r

/-- What is left to do, when only the first `n` callers wait. -/
def weight (B : Body Q σ L R) (fuel : L → Nat) (n : Nat) (s : St Q X σ L R) : Nat :=
  queueWeight B fuel s.queue + workWeight B fuel s.work + holdWeight B fuel s.holder +
    ∑ c ∈ Finset.range n, waitWeight B fuel (s.waiting c)

theorem sum_waiting (B : Body Q σ L R) (fuel : L → Nat) (n : Nat) (f : Nat → Option Q) (c : Nat) (q : Q) (hc : c < n)
    (hq : f c = some q) :
    ∑ i ∈ Finset.range n, waitWeight B fuel (f i) =
      ∑ i ∈ Finset.range n, waitWeight B fuel (if i = c then none else f i) + (fuel (B.init q) + 6) := by
  have hm : c ∈ Finset.range n := Finset.mem_range.2 hc
  rw [← Finset.add_sum_erase _ _ hm, ← Finset.add_sum_erase _ (fun i => waitWeight B fuel (if i = c then none else f i)) hm]
  have : ∑ x ∈ (Finset.range n).erase c, waitWeight B fuel (if x = c then none else f x) =
      ∑ x ∈ (Finset.range n).erase c, waitWeight B fuel (f x) := by
    apply Finset.sum_congr rfl
    intro x hx
    rw [if_neg (Finset.ne_of_mem_erase hx)]
  rw [this]
  simp [hq, waitWeight]
  omega

/-- Each step of a call that is under way leaves less to do. -/
theorem Sys.weight_lt {B : Body Q σ L R} {fuel : L → Nat} (hb : B.Bounded fuel) {n : Nat} {s s' : St Q X σ L R}
    {e : Option (Event Q R)} (hn : ∀ c, n ≤ c → s.waiting c = none) (hs : Sys B s e s') :
    weight B fuel n s' < weight B fuel n s ∧ ∀ c, n ≤ c → s'.waiting c = none := by
  cases hs with
  | take q r hw hq => exact ⟨by simp only [weight, hw, hq, queueWeight, workWeight]; omega, hn⟩
  | lockW q hw hh hp => exact ⟨by simp only [weight, hw, hh, holdWeight, workWeight]; omega, hn⟩
  | lockC c q hw hh hp =>
    have hc : c < n := by
      by_contra hcon
      rw [hn c (by omega)] at hw
      cases hw
    refine ⟨?_, fun i hi => by simp [hn i hi]⟩
    simp only [weight, hh, holdWeight]
    rw [sum_waiting B fuel n s.waiting c q hc hw]
    omega
  | refusedW q hw hh hp => exact ⟨by simp only [weight, hw, workWeight]; omega, hn⟩
  | refusedC c q hw hh hp =>
    have hc : c < n := by
      by_contra hcon
      rw [hn c (by omega)] at hw
      cases hw
    refine ⟨?_, fun i hi => by simp [hn i hi]⟩
    simp only [weight]
    rw [sum_waiting B fuel n s.waiting c q hc hw]
    omega
  | count w q hh => exact ⟨by simp only [weight, hh, holdWeight]; omega, hn⟩
  | body w q l l' g hh hbd =>
    have := hb _ _ _ _ hbd
    exact ⟨by simp only [weight, hh, holdWeight]; omega, hn⟩
  | finish w q l g r hh hbd => exact ⟨by simp only [weight, hh, holdWeight]; omega, hn⟩
  | release w q r hh =>
    refine ⟨?_, hn⟩
    have : workWeight B fuel (afterRelease w q r s.work) ≤ workWeight B fuel s.work + 1 := by
      cases w with
      | worker => cases r <;> simp [afterRelease, isPanic, workWeight]
      | caller c => simp [afterRelease]
    simp only [weight, hh, holdWeight]
    omega
  | returned q r hw => exact ⟨by simp only [weight, hw, workWeight]; omega, hn⟩

/-- Only finitely many callers wait. -/
theorem Run.finite {B : Body Q σ L R} {req : X → Q} {obj : Nat → X} {g0 : σ} {evs : List (Event Q R)} {s : St Q X σ L R}
    (hr : Run B req (start obj g0) evs s) : ∃ n, ∀ c, n ≤ c → s.waiting c = none := by
  have key : ∀ (s s' : St Q X σ L R) (e : Option (Event Q R)), Step B req s e s' →
      (∃ n, ∀ c, n ≤ c → s.waiting c = none) → ∃ n, ∀ c, n ≤ c → s'.waiting c = none := by
    rintro s s' e hs ⟨n, hn⟩
    rcases hs with hs | hs
    · cases hs with
      | block c q hf =>
        refine ⟨max n (c + 1), fun i hi => ?_⟩
        have h1 : i ≠ c := by omega
        simp [h1, hn i (by omega)]
      | _ => exact ⟨n, hn⟩
    · cases hs with
      | lockC c q hw hh hp => exact ⟨n, fun i hi => by simp [hn i hi]⟩
      | refusedC c q hw hh hp => exact ⟨n, fun i hi => by simp [hn i hi]⟩
      | _ => exact ⟨n, hn⟩
  induction hr with
  | nil => exact ⟨0, fun _ _ => rfl⟩
  | silent _ hs ih => exact key _ _ _ hs ih
  | event _ hs ih => exact key _ _ _ hs ih

theorem SysRun.weight_le {B : Body Q σ L R} {fuel : L → Nat} (hb : B.Bounded fuel) {n : Nat} {s s' : St Q X σ L R} {k : Nat}
    {evs : List (Event Q R)} (hn : ∀ c, n ≤ c → s.waiting c = none) (h : SysRun B s k evs s') :
    weight B fuel n s' + k ≤ weight B fuel n s ∧ ∀ c, n ≤ c → s'.waiting c = none := by
  induction h with
  | nil => exact ⟨by omega, hn⟩
  | step _ hs ih =>
    obtain ⟨h1, h2⟩ := ih
    obtain ⟨h3, h4⟩ := hs.weight_lt hb h2
    exact ⟨by omega, h4⟩

/-- Runs can be put together. -/
theorem Run.trans {B : Body Q σ L R} {req : X → Q} {s0 s s' : St Q X σ L R} {a b : List (Event Q R)} (h : Run B req s0 a s)
    (h' : Run B req s b s') : Run B req s0 (a ++ b) s' := by
  induction h' with
  | nil => simpa using h
  | silent _ hs ih => exact .silent ih hs
  | event _ hs ih => rw [← List.append_assoc]; exact .event ih hs

theorem SysRun.run {B : Body Q σ L R} {req : X → Q} {s s' : St Q X σ L R} {k : Nat} {evs : List (Event Q R)}
    (h : SysRun B s k evs s') : Run B req s evs s' := by
  induction h with
  | nil => exact .nil
  | step h hs ih =>
    rename_i e
    cases e with
    | none => simpa using Run.silent ih (.sys hs)
    | some e => exact Run.event ih (.sys hs)

/-- If no call can go on, no call is under way. -/
theorem Inv.stuck {B : Body Q σ L R} {g0 : σ} {evs : List (Event Q R)} {s : St Q X σ L R} (hi : Inv B g0 evs s)
    (hst : ∀ e s', ¬ Sys B s e s') : s.queue = [] ∧ s.work = .idle ∧ (∀ c, s.waiting c = none) ∧ s.holder = none := by
  have hh : s.holder = none := by
    cases hh : s.holder with
    | none => rfl
    | some x =>
      obtain ⟨w, q, p⟩ := x
      cases p with
      | entered => exact absurd (Sys.count w q hh) (hst _ _)
      | running l =>
        obtain ⟨g, y, hy⟩ : ∃ g y, B.step l s.shared = (g, y) := ⟨_, _, rfl⟩
        cases y with
        | inl l' => exact absurd (Sys.body w q l l' g hh hy) (hst _ _)
        | inr r => exact absurd (Sys.finish w q l g r hh hy) (hst _ _)
      | leaving r => exact absurd (Sys.release w q r hh) (hst _ _)
  have hw : s.work = .idle := by
    cases hw : s.work with
    | idle => rfl
    | waiting q =>
      cases hp : s.poisoned with
      | false => exact absurd (Sys.lockW q hw hh hp) (hst _ _)
      | true => exact absurd (Sys.refusedW q hw hh hp) (hst _ _)
    | inside =>
      obtain ⟨_, _, h⟩ := hi.inside.1 hw
      rw [hh] at h
      cases h
    | callback q r => exact absurd (Sys.returned q r hw) (hst _ _)
  refine ⟨?_, hw, ?_, hh⟩
  · cases hq : s.queue with
    | nil => rfl
    | cons q r => exact absurd (Sys.take q r hw hq) (hst _ _)
  · intro c
    cases hc : s.waiting c with
    | none => rfl
    | some q =>
      cases hp : s.poisoned with
      | false => exact absurd (Sys.lockC c q hc hh hp) (hst _ _)
      | true => exact absurd (Sys.refusedC c q hc hh hp) (hst _ _)

/-- After a panic nothing is done any more. -/
theorem Run.poisoned {B : Body Q σ L R} {req : X → Q} {s s' : St Q X σ L R} {evs : List (Event Q R)} (h : Run B req s evs s')
    (hp : s.poisoned = true) (hh : s.holder = none) :
    s'.poisoned = true ∧ s'.holder = none ∧ s'.shared = s.shared ∧ completed evs = [] ∧
      callbacks evs ++ s'.work.calling = s.work.calling := by
  have key : ∀ (evs : List (Event Q R)) (s1 s2 : St Q X σ L R) (e : Option (Event Q R)), Step B req s1 e s2 →
      (s1.poisoned = true ∧ s1.holder = none ∧ s1.shared = s.shared ∧ completed evs = [] ∧
        callbacks evs ++ s1.work.calling = s.work.calling) →
      s2.poisoned = true ∧ s2.holder = none ∧ s2.shared = s.shared ∧ completed (evs ++ e.toList) = [] ∧
        callbacks (evs ++ e.toList) ++ s2.work.calling = s.work.calling := by
    rintro evs s1 s2 e hs ⟨h1, h2, h3, h4, h5⟩
    rcases hs with hs | hs
    · cases hs <;> simpa [completed_append, callbacks_append, completed, callbacks, h1, h2, h3, h4] using h5
    · cases hs with
      | take q r hw hq => simpa [h1, h2, h3, h4, hw, Work.calling] using h5
      | lockW q hw hh hp => rw [h1] at hp; cases hp
      | lockC c q hw hh hp => rw [h1] at hp; cases hp
      | refusedW q hw hh hp => simpa [completed_append, callbacks_append, completed, callbacks, h1, h2, h3, h4, hw, Work.calling] using h5
      | refusedC c q hw hh hp => simpa [completed_append, callbacks_append, completed, callbacks, h1, h2, h3, h4] using h5
      | count w q hh => rw [h2] at hh; cases hh
      | body w q l l' g hh hb => rw [h2] at hh; cases hh
      | finish w q l g r hh hb => rw [h2] at hh; cases hh
      | release w q r hh => rw [h2] at hh; cases hh
      | returned q r hw => simpa [completed_append, callbacks_append, completed, callbacks, h1, h2, h3, h4, hw, Work.calling] using h5
  induction h with
  | nil => exact ⟨hp, hh, rfl, rfl, rfl⟩
  | silent _ hs ih => simpa using key _ _ _ _ hs ih
  | event _ hs ih => exact key _ _ _ _ hs ih

end
end Verif.SaveQueue
