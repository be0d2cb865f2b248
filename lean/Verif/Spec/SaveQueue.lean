import Verif.Model.SaveQueue
/-! # Specification of saves of several threads -/
namespace Verif.SaveQueue

section
variable {Q X σ L R : Type}

/-- The requests that were given to the pool, in the order of the calls. -/
def calls : List (Event Q R) → List Q
  | [] => []
  | .call q :: r => q :: calls r
  | _ :: r => calls r

/-- The requests that the pool has begun to process (or that were refused), in their order. -/
def processed : List (Event Q R) → List Q
  | [] => []
  | .start .worker q :: r => q :: processed r
  | .refused .worker q :: r => q :: processed r
  | _ :: r => processed r

/-- What was done while the mutex was held, with its result, in the order of the releases. -/
def completed : List (Event Q R) → List (Who × Q × Res R)
  | [] => []
  | .stop w q r :: l => (w, q, r) :: completed l
  | _ :: l => completed l

/-- The callbacks, in their order. -/
def callbacks : List (Event Q R) → List (Q × Res R)
  | [] => []
  | .callback q r :: l => (q, r) :: callbacks l
  | _ :: l => callbacks l

/-- The non-blocking saves that came to an end without a panic, with their results. -/
def ended : List (Event Q R) → List (Q × Res R)
  | [] => []
  | .stop .worker _ .panic :: l => ended l
  | .stop .worker q r :: l => (q, r) :: ended l
  | _ :: l => ended l

/-- One holder of the mutex at a time: what starts stops before anything else starts. The last argument is the current holder. -/
inductive OneByOne : List (Event Q R) → Option (Who × Q) → Prop
  | nil : OneByOne [] none
  | start {l : List (Event Q R)} (w : Who) (q : Q) (h : OneByOne l none) : OneByOne (l ++ [.start w q]) (some (w, q))
  | stop {l : List (Event Q R)} (w : Who) (q : Q) (r : Res R) (h : OneByOne l (some (w, q))) : OneByOne (l ++ [.stop w q r]) none
  | call {l : List (Event Q R)} {o : Option (Who × Q)} (q : Q) (h : OneByOne l o) : OneByOne (l ++ [.call q]) o
  | refused {l : List (Event Q R)} {o : Option (Who × Q)} (w : Who) (q : Q) (h : OneByOne l o) : OneByOne (l ++ [.refused w q]) o
  | callback {l : List (Event Q R)} {o : Option (Who × Q)} (q : Q) (r : Res R) (h : OneByOne l o) :
      OneByOne (l ++ [.callback q r]) o
  | notVacant {l : List (Event Q R)} {o : Option (Who × Q)} (c : Nat) (h : OneByOne l o) : OneByOne (l ++ [.notVacant c]) o

/-- A part of a run of a program, alone. -/
inductive Part (B : Body Q σ L R) : L → σ → L → σ → Prop
  | refl (l : L) (g : σ) : Part B l g l g
  | step {l l' l'' : L} {g g' g'' : σ} (h : Part B l g l' g') (hs : B.step l' g' = (g'', .inl l'')) : Part B l g l'' g''

/-- A whole run of a program, alone. -/
def Whole (B : Body Q σ L R) (q : Q) (g g' : σ) (r : Res R) : Prop :=
  ∃ l g1, Part B (B.init q) g l g1 ∧ B.step l g1 = (g', .inr r)

/-- The programs run one after the other, each alone. -/
inductive InOrder (B : Body Q σ L R) (g0 : σ) : List (Who × Q × Res R) → σ → Prop
  | nil : InOrder B g0 [] g0
  | snoc {l : List (Who × Q × Res R)} {g g' : σ} (w : Who) (q : Q) (r : Res R) (h : InOrder B g0 l g) (hw : Whole B q g g' r) :
      InOrder B g0 (l ++ [(w, q, r)]) g'

/-- A number of steps of calls that are under way; no new calls are made. -/
inductive SysRun (B : Body Q σ L R) (s0 : St Q X σ L R) : Nat → List (Event Q R) → St Q X σ L R → Prop
  | nil : SysRun B s0 0 [] s0
  | step {n : Nat} {evs : List (Event Q R)} {s s' : St Q X σ L R} {e : Option (Event Q R)} (h : SysRun B s0 n evs s)
      (hs : Sys B s e s') : SysRun B s0 (n + 1) (evs ++ e.toList) s'

/-- All runs of the program end: a bound for the number of its steps. -/
def Body.Bounded (B : Body Q σ L R) (fuel : L → Nat) : Prop :=
  ∀ l g g' l', B.step l g = (g', .inl l') → fuel l' < fuel l

/-- No save (or load) is queued or running. -/
def St.Vacant (s : St Q X σ L R) : Prop :=
  s.queue = [] ∧ (∀ q, s.work ≠ .waiting q) ∧ (∀ c, s.waiting c = none) ∧ s.holder = none

end
end Verif.SaveQueue
