import Verif.Model.Remover
import Verif.Spec.FileHistory
/-! # Specification of the removal of old files -/
namespace Verif.Remover
open VarInt FileName FileHistory Phase History

/-- There are files below the file, in its own control number. -/
def Deeper (h : FileHistory.History) (p : Props) : Prop :=
  ∃ q ∈ h.listFiles, q.control = p.control ∧ ∃ r, r ≠ [] ∧ q.order = p.order ++ r

/-- The files which the code takes for files of a cumulative phase: files of the last phase and, because of an error in
counting, those files of the phase before it which have files below them. -/
def Flagged (maxPhase : Nat) (cumulative : Bool) (h : FileHistory.History) (p : Props) : Prop :=
  cumulative = true ∧ ((Deeper h p ∧ p.order.length = maxPhase) ∨ (¬ Deeper h p ∧ p.order.length = maxPhase + 1))

/-- The file that is marked after `p`. -/
inductive Step (maxPhase : Nat) (cumulative : Bool) (h : FileHistory.History) (p q : Props) : Prop
  | sibling (hf : Flagged maxPhase cumulative h p) (hl : orderLast p ≠ 0) (hb : orderBase p ≠ [])
      (hq : h.getProps p.control (orderBase p ++ [orderLast p - 1]) = some q)
  | parent (hf : ¬ (Flagged maxPhase cumulative h p ∧ orderLast p ≠ 0)) (hl : p.order.length ≠ 1)
      (hq : h.getProps p.prevCtl (orderBase p) = some q)

/-- `q` is `p` or a dependency of it, according to the remover. -/
inductive Marks (maxPhase : Nat) (cumulative : Bool) (h : FileHistory.History) : Props → Props → Prop
  | self (p : Props) : Marks maxPhase cumulative h p p
  | next (p q r : Props) (hs : Step maxPhase cumulative h p q) (hm : Marks maxPhase cumulative h q r) :
      Marks maxPhase cumulative h p r

/-- Every file belongs to a phase of the options. -/
def Shallow (maxPhase : Nat) (h : FileHistory.History) : Prop := ∀ p ∈ h.listFiles, p.order.length ≤ maxPhase + 1

/-- The shapes of cumulative histories for which the marking is right: there is more than one phase; files that
continue a last phase continue it in their own control number; and a file of the phase before the last one that has files
below it and is not the first of its series follows files that were all derived in the same way. -/
def Sound (maxPhase : Nat) (cumulative : Bool) (h : FileHistory.History) : Prop :=
  cumulative = true → maxPhase ≠ 0 ∧
    (∀ p ∈ h.listFiles, p.order.length = maxPhase + 1 → orderLast p ≠ 0 → p.prevCtl = p.control) ∧
    (∀ p ∈ h.listFiles, p.order.length = maxPhase → orderBase p ≠ [] → Deeper h p → ∀ j < orderLast p,
      ∃ q, h.getProps p.control (orderBase p ++ [j]) = some q ∧ q.prevCtl = p.prevCtl)

end Verif.Remover
