import Verif.Model.Phase
/-!
# What the phases mean

A chain of saves, newest first: each entry is the phase and the size of the diff of one history file, each file being
saved on top of the one before it.
-/
namespace Verif.Phase

/-- The chains of saves that can happen under the options, with the statistics stored in the newest file. A chain starts
with a file of phase 0; each further file gets the phase chosen by `calc_next_phase` from the statistics of its base. -/
inductive Saves (o : Opts) (shift : Shift) : List (Nat × Nat) → Data → Prop
  | first (size : Nat) : Saves o shift [(0, size)] (Data.new size)
  | next {log d n} (size : Nat) : Saves o shift log d → calcNextPhase o shift d = .ok n →
      Saves o shift ((n, size) :: log) (d.popAndPush n size)

/-- `it` describes level `k` of the chain `log`: the newest file of phase `k` that has not been superseded by a file of
a smaller phase, and number and total size of the files after it. -/
def Describes (log : List (Nat × Nat)) (k : Nat) (it : Item) : Prop :=
  ∃ newer size older, log = newer ++ (k, size) :: older ∧ (∀ e ∈ newer, k < e.1) ∧
    it.mySize = size ∧ it.totalSize = (newer.map (·.2)).sum ∧ it.totalLen = newer.length

/-- The size of the newest file of phase `k` that has not been superseded by a file of a smaller phase: the newest file of
phase at most `k`. -/
def levelSize (log : List (Nat × Nat)) (k : Nat) : Nat := ((log.find? fun e => decide (e.1 ≤ k)).map (·.2)).getD 0

/-- How many of the levels `0 … m` have a file that is larger than `n`. -/
def larger (log : List (Nat × Nat)) (m n : Nat) : Nat := ((List.range (m + 1)).filter fun k => decide (n < levelSize log k)).length

end Verif.Phase
