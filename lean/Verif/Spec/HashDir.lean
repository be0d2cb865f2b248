import Mathlib.Data.Nat.Digits.Defs
import Verif.Model.HashDir
/-! # Names of hashes -/
namespace Verif.HashDir

/-- `0` to `9`, `a` to `f` -/
def HexByte (b : UInt8) : Prop := (48 ≤ b.toNat ∧ b.toNat ≤ 57) ∨ (97 ≤ b.toNat ∧ b.toNat ≤ 102)

instance (b : UInt8) : Decidable (HexByte b) := inferInstanceAs (Decidable (_ ∨ _))

/-- the value of such a byte -/
def hexValue (b : UInt8) : Nat := if b.toNat ≤ 57 then b.toNat - 48 else b.toNat - 87

/-- the number that is written -/
def hexNumber (s : List UInt8) : Nat := Nat.ofDigits 16 (s.reverse.map hexValue)

/-- `name` is the name of the folder of `hash`: 32 hexadecimal digits that denote it -/
def Names (name : List UInt8) (hash : Nat) : Prop := name.length = 32 ∧ (∀ b ∈ name, HexByte b) ∧ hexNumber name = hash

/-- A byte whose check ends in a panic in a build with overflow checks: below `0`, or between `9` and `a`. -/
def Fatal (b : UInt8) : Prop := b.toNat < 48 ∨ (57 < b.toNat ∧ b.toNat < 97)

/-- The first byte that is no digit is fatal. -/
def FatalName (name : List UInt8) : Prop :=
  name.length = 32 ∧ ∃ a b r, name = a ++ b :: r ∧ (∀ x ∈ a, HexByte x) ∧ Fatal b

end Verif.HashDir
