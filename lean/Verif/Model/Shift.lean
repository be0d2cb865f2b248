import Verif.Model.Phase
/-!
# The comparison of averages

Model of `dochy_fs/src/imp/history/algo/should_shift_to_parent_phase.rs`, with the arithmetic of `f64` on bits.

Sizes and counts are natural numbers (`Model/Phase.lean`). The payload of a NaN is not specified by Rust; the model gives one of them.
-/
namespace Verif.Compaction

/-- the significand of a finite float -/
def Fmt.sig (F : Fmt) (b : Nat) : Nat := if F.exp b = 0 then F.man b else 2 ^ F.p + F.man b
/-- the exponent of a finite float, counted from that of the least positive number -/
def Fmt.sh (F : Fmt) (b : Nat) : Nat := F.exp b - 1

/-- The bits of `n / d`, counted in least positive numbers, rounded to nearest, ties to even; infinity if it is too large. -/
def Fmt.roundRat (F : Fmt) (n d : Nat) : Nat :=
  let e := (n / d).log2 - F.p
  let q := n / (d * 2 ^ e)
  let r := n % (d * 2 ^ e)
  let q := if d * 2 ^ e < 2 * r ∨ (2 * r = d * 2 ^ e ∧ q % 2 = 1) then q + 1 else q
  min (e * 2 ^ F.p + q) ((2 ^ F.w - 1) * 2 ^ F.p)

/-- `a / b` for floats -/
def Fmt.div (F : Fmt) (a b : Nat) : Nat :=
  let sign := if F.neg a != F.neg b then 2 ^ (F.p + F.w) else 0
  let inf := (2 ^ F.w - 1) * 2 ^ F.p
  let nan := inf + 2 ^ (F.p - 1)
  if F.isNan a || F.isNan b then nan
  else if F.isInf a then (if F.isInf b then nan else sign + inf)
  else if F.isInf b then sign
  else if F.sig b = 0 then (if F.sig a = 0 then nan else sign + inf)
  else sign + F.roundRat (F.sig a * 2 ^ F.sh a * 2 ^ (F.bias - 1 + F.p)) (F.sig b * 2 ^ F.sh b)

/-- a number that is ordered as the float is -/
def Fmt.key (F : Fmt) (b : Nat) : Int :=
  let m : Nat := b % 2 ^ (F.p + F.w)
  if F.neg b then -(m : Int) else m

/-- `a < b` for floats: on the bits without the sign, which are ordered as the numbers are -/
def Fmt.lt (F : Fmt) (a b : Nat) : Bool := !F.isNan a && !F.isNan b && decide (F.key a < F.key b)

end Verif.Compaction

namespace Verif.Phase
open Compaction

/-- should_shift_to_parent_phase.rs:9-11, 14-16: `size as f64 / len as f64` -/
def average (size len : Nat) : Nat := f64.div (f64.ofNat size) (f64.ofNat len)

/-- should_shift_to_parent_phase.rs:4-20 `should_shift_to_parent_phase` -/
def shouldShift : Shift := fun parentSize descSize descLen curSize curLen =>
  let averageNormal := average (parentSize + descSize + curSize) (1 + descLen + curLen)
  let averageParent := average (parentSize + descSize) (1 + descLen)
  f64.lt averageParent averageNormal

end Verif.Phase
