import Verif.Model.DiffData
/-! # Legal names -/
namespace Verif.Names
open Diff

/-- `a` to `z` -/
def Lower (c : Char) : Prop := 97 ≤ c.toNat ∧ c.toNat ≤ 122
/-- `A` to `Z` -/
def Upper (c : Char) : Prop := 65 ≤ c.toNat ∧ c.toNat ≤ 90
/-- `0` to `9` -/
def Digit (c : Char) : Prop := 48 ≤ c.toNat ∧ c.toNat ≤ 57

/-- a legal identifier: a small letter, `@` or `_`, then letters, digits and `_` -/
def Ident (s : List Char) : Prop :=
  ∃ c r, s = c :: r ∧ (Lower c ∨ c = '@' ∨ c = '_') ∧ ∀ x ∈ r, Lower x ∨ Upper x ∨ Digit x ∨ x = '_'

/-- the suffixes and what they mean -/
inductive Suffix : List Char → VType → Prop
  | normal : Suffix [] .normal
  | nullable : Suffix ['?'] .nullable
  | undefiable : Suffix ['!'] .undefiable
  | both : Suffix ['!', '?'] .undefNullable
  | both' : Suffix ['?', '!'] .undefNullable

/-- the names with a special meaning -/
def Special (s : List Char) : Prop := s = "Old".toList ∨ s = "ID".toList ∨ s = "Ref".toList ∨ s = "Enum".toList

end Verif.Names
