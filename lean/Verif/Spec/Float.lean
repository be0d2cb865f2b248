import Mathlib.Algebra.Order.Group.Unbundled.Abs
import Mathlib.Algebra.Order.Ring.Int
/-!
# IEEE 754 numbers and the casts of Rust

What the bits of a float mean, and what the casts between floats and integers give, independently of the model.
-/
namespace Verif.Float

/-- A binary interchange format of IEEE 754: `p` bits of the significand, `w` bits of the exponent. -/
structure Format where
  p : Nat
  w : Nat

def single : Format := ⟨23, 8⟩
def double : Format := ⟨52, 11⟩

/-- What a float is: finite floats are `± m * 2 ^ e` units. -/
inductive Kind where
  | nan
  | inf (neg : Bool)
  | fin (neg : Bool) (m e : Nat)
  deriving DecidableEq

/-- The number 1 in units, which are the least positive number of the format. -/
def Format.one (F : Format) : Nat := 2 ^ (2 ^ (F.w - 1) - 2 + F.p)

/-- What the bits mean. -/
def Format.read (F : Format) (b : Nat) : Kind :=
  let neg := decide (b / 2 ^ (F.p + F.w) % 2 = 1)
  let e := b / 2 ^ F.p % 2 ^ F.w
  let m := b % 2 ^ F.p
  if e = 2 ^ F.w - 1 then (if m = 0 then .inf neg else .nan)
  else if e = 0 then .fin neg m 0
  else .fin neg (2 ^ F.p + m) (e - 1)

/-- The value of a finite float, in units. -/
def Kind.units : Kind → Option Int
  | .fin neg m e => some (if neg then -((m : Int) * 2 ^ e) else (m : Int) * 2 ^ e)
  | _ => none

/-- `b` is the float nearest to the number `x` (in units); of two of them, the one with an even significand. -/
def Nearest (F : Format) (x : Int) (b : Nat) : Prop :=
  ∃ v, (F.read b).units = some v ∧ ∀ c u, (F.read c).units = some u → |x - v| ≤ |x - u| ∧ (|x - v| = |x - u| → u ≠ v → b % 2 = 0)

/-- What `f as iN` and `f as uN` give, `lo` and `hi` being the least and the greatest integer of the type: 0 for NaN, otherwise cut towards
zero and saturated. -/
def Format.cut (F : Format) (lo hi : Int) (b : Nat) : Int :=
  match F.read b with
  | .nan => 0
  | .inf neg => if neg then lo else hi
  | .fin neg m e => max lo (min hi ((if neg then -((m : Int) * 2 ^ e) else (m : Int) * 2 ^ e).tdiv F.one))

/-- `a == b` for floats: no NaN, and the same number. -/
def Format.eq (F : Format) (a b : Nat) : Prop :=
  match F.read a, F.read b with
  | .inf s, .inf t => s = t
  | .fin s m e, .fin t n f => (Kind.fin s m e).units = (Kind.fin t n f).units
  | _, _ => False

/-- `r` is the number `n / d` (in units) with the given sign as IEEE 754 rounds it: infinity from halfway beyond the greatest number on,
otherwise the float nearest to it, of two of them the one with an even significand. -/
def Rounds (F : Format) (neg : Bool) (n d r : Nat) : Prop :=
  if (2 ^ (F.p + 2) - 1) * 2 ^ (2 ^ F.w - 3) * d ≤ 2 * n then F.read r = .inf neg
  else ∃ m e, F.read r = .fin neg m e ∧ ∀ c t k f, F.read c = .fin t k f →
    |(n : Int) - d * (m * 2 ^ e)| ≤ |(n : Int) - d * (k * 2 ^ f)| ∧
      (|(n : Int) - d * (m * 2 ^ e)| = |(n : Int) - d * (k * 2 ^ f)| → k * 2 ^ f ≠ m * 2 ^ e → r % 2 = 0)

/-- `r` is `a / b` for floats. -/
def Quotient (F : Format) (a b r : Nat) : Prop :=
  match F.read a, F.read b with
  | .nan, _ => F.read r = .nan
  | _, .nan => F.read r = .nan
  | .inf _, .inf _ => F.read r = .nan
  | .inf s, .fin t _ _ => F.read r = .inf (s != t)
  | .fin s _ _, .inf t => F.read r = .fin (s != t) 0 0
  | .fin s m e, .fin t n f =>
    if n = 0 then (if m = 0 then F.read r = .nan else F.read r = .inf (s != t))
    else Rounds F (s != t) (m * 2 ^ e * F.one) (n * 2 ^ f) r

/-- `a < b` for floats -/
def Format.lt (F : Format) (a b : Nat) : Prop :=
  match F.read a, F.read b with
  | .nan, _ => False
  | _, .nan => False
  | .inf s, .inf t => s = true ∧ t = false
  | .inf s, .fin _ _ _ => s = true
  | .fin _ _ _, .inf t => t = false
  | .fin s m e, .fin t n f =>
    (if s then -((m : Int) * 2 ^ e) else (m : Int) * 2 ^ e) < (if t then -((n : Int) * 2 ^ f) else (n : Int) * 2 ^ f)

end Verif.Float
