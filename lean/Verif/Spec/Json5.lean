import Verif.Spec.Number
import Verif.Model.Json5
/-!
# The texts that are sources, and what they mean

A grammar without order of alternatives and without greediness, from texts to values. Of the model it uses the types `JVal` and `Uni`
only.
-/
namespace Verif.Json5
open Source (JVal)
open Number (DecInt Lit Body Fractional signed denotes exponent IsDigit IsHexDigit)

/-! ## Characters -/

/-- a character that ends a line -/
def LineTerm (c : Char) : Prop := c.toNat = 10 ∨ c.toNat = 13 ∨ c.toNat = 0x2028 ∨ c.toNat = 0x2029

/-- white space of JSON5: tabulators, spaces, ends of lines, the byte order mark and the spaces of Unicode (Zs) -/
def White (c : Char) : Prop :=
  (9 ≤ c.toNat ∧ c.toNat ≤ 13) ∨ c.toNat = 32 ∨ c.toNat = 0xa0 ∨ c.toNat = 0x1680 ∨ (0x2000 ≤ c.toNat ∧ c.toNat ≤ 0x200a) ∨
    c.toNat = 0x2028 ∨ c.toNat = 0x2029 ∨ c.toNat = 0x202f ∨ c.toNat = 0x205f ∨ c.toNat = 0x3000 ∨ c.toNat = 0xfeff

/-- What is assumed of the classes of Unicode: letters and marks are not white space, and among the first 128 characters they are the
letters, the digits, `_` (punctuation that connects), `^` and the back quote (diacritics). -/
def Uni.Sound (u : Uni) : Prop :=
  ∀ c, u.letter c = true ∨ u.mark c = true →
    ¬ White c ∧ (c.toNat < 128 → c.isAlphanum = true ∨ c = '_' ∨ c = '^' ∨ c = '`')

/-! ## White space and comments -/

/-- white space and comments between two tokens -/
inductive Gap : List Char → Prop
  | nil : Gap []
  | white {c g} : White c → Gap g → Gap (c :: g)
  | block {b g} : ¬ ['*', '/'] <:+: b → Gap g → Gap ('/' :: '*' :: (b ++ '*' :: '/' :: g))
  | line {b c g} : (∀ x ∈ b, ¬ LineTerm x) → LineTerm c → Gap g → Gap ('/' :: '/' :: (b ++ c :: g))

/-- white space and comments at the end of the text; the last line may be a comment -/
inductive GapEnd : List Char → Prop
  | gap {g} : Gap g → GapEnd g
  | line {g b} : Gap g → (∀ x ∈ b, ¬ LineTerm x) → GapEnd (g ++ '/' :: '/' :: b)

/-! ## Strings -/

/-- what `\c` stands for, if it stands for one character by itself -/
inductive Escape : Char → Char → Prop
  | b : Escape 'b' (Char.ofNat 8)
  | f : Escape 'f' (Char.ofNat 12)
  | n : Escape 'n' (Char.ofNat 10)
  | r : Escape 'r' (Char.ofNat 13)
  | t : Escape 't' (Char.ofNat 9)
  | v : Escape 'v' (Char.ofNat 11)
  | self {c} : c ∉ ['b', 'f', 'n', 'r', 't', 'v', 'x', 'u'] → ¬ IsDigit c → ¬ LineTerm c → Escape c c

/-- the character with this number; the surrogates are not characters -/
def scalar (n : Nat) : Option (List Char) := if 0xd800 ≤ n ∧ n ≤ 0xdfff then none else some [Char.ofNat n]

/-- a part of a string in the quotes `q`, and the characters it stands for -/
inductive Piece (q : Char) : List Char → Option (List Char) → Prop
  | plain {c} : c ≠ q → c ≠ '\\' → ¬ LineTerm c → Piece q [c] (some [c])
  | escape {c d} : Escape c d → Piece q ['\\', c] (some [d])
  | nul : Piece q ['\\', '0'] (some [Char.ofNat 0])
  | hex {a b} : IsHexDigit a → IsHexDigit b → Piece q ['\\', 'x', a, b] (scalar (denotes 16 [a, b]))
  | unicode {a b c d} : IsHexDigit a → IsHexDigit b → IsHexDigit c → IsHexDigit d →
      Piece q ['\\', 'u', a, b, c, d] (scalar (denotes 16 [a, b, c, d]))
  | crlf : Piece q ['\\', Char.ofNat 13, Char.ofNat 10] (some [])
  | cont {c} : LineTerm c → Piece q ['\\', c] (some [])

/-- the text between the quotes `q`, and the string it stands for (`none` if there is a surrogate) -/
inductive StrText (q : Char) : List Char → Option (List Char) → Prop
  | nil : StrText q [] (some [])
  | cons {t o r p} : Piece q t o → StrText q r p → StrText q (t ++ r) (o.bind fun x => p.map fun y => x ++ y)

def Quote (q : Char) : Prop := q = '"' ∨ q = '\''

/-! ## Names -/

/-- the start of a name without quotes -/
inductive IdStart (u : Uni) : List Char → Prop
  | letter {c} : u.letter c = true ∨ c = '$' ∨ c = '_' ∨ c = '@' → IdStart u [c]
  | unicode {a b c d} : IsHexDigit a → IsHexDigit b → IsHexDigit c → IsHexDigit d → IdStart u ['\\', 'u', a, b, c, d]

/-- the other parts of a name without quotes -/
inductive IdPart (u : Uni) : List Char → Prop
  | start {t} : IdStart u t → IdPart u t
  | mark {c} : u.mark c = true ∨ c.toNat = 0x200c ∨ c.toNat = 0x200d → IdPart u [c]

inductive IdParts (u : Uni) : List Char → Prop
  | nil : IdParts u []
  | cons {t r} : IdPart u t → IdParts u r → IdParts u (t ++ r)

/-- a key and the name it stands for: the text itself, without the quotes if there are any -/
inductive Key (u : Uni) : List Char → List Char → Prop
  | ident {t r} (a b : Bool) : IdStart u t → IdParts u r →
      Key u (t ++ (r ++ ((if a then ['!'] else []) ++ if b then ['?'] else [])))
        (t ++ (r ++ ((if a then ['!'] else []) ++ if b then ['?'] else [])))
  | string {q t o} : Quote q → StrText q t o → Key u (q :: (t ++ [q])) t

/-! ## Values -/

section
variable (u : Uni) (pf : List Char → Option UInt64)

mutual
/-- a value -/
inductive Value : List Char → JVal → Prop
  | null : Value "null".toList .null
  | undef : Value "undefined".toList .undef
  | tru : Value "true".toList (.bool true)
  | fls : Value "false".toList (.bool false)
  | string {q t x} : Quote q → StrText q t (some x) → Value (q :: (t ++ [q])) (.string (String.ofList x))
  | int {s i} : DecInt i → -(2 ^ 63) ≤ signed s (denotes 10 i) → signed s (denotes 10 i) < 2 ^ 63 →
      Value (Lit.text ⟨s, .int i⟩) (.int (signed s (denotes 10 i)))
  | hex {big ds} : ds ≠ [] → (∀ x ∈ ds, IsHexDigit x) → denotes 16 ds < 2 ^ 32 →
      Value (Lit.text ⟨none, .hex big ds⟩) (.int (denotes 16 ds))
  | float {l b} : Fractional l → l.Wf → pf l.text = some b → exponent b ≠ 2047 → Value l.text (.double b.toBitVec)
  | array0 {g} : Gap g → Value ('[' :: (g ++ [']'])) (.array [])
  | array {g t v r vs} : Gap g → Value t v → Tail r vs → Value ('[' :: (g ++ (t ++ r))) (.array (v :: vs))
  | object0 {g} : Gap g → Value ('{' :: (g ++ ['}'])) (.map [])
  | object {g m k v r ms} : Gap g → Member m k v → MTail r ms → (k :: ms.map Prod.fst).Nodup →
      Value ('{' :: (g ++ (m ++ r))) (.map ((k, v) :: ms))
/-- what follows the first element of an array -/
inductive Tail : List Char → List JVal → Prop
  | close {g} : Gap g → Tail (g ++ [']']) []
  | comma {g g'} : Gap g → Gap g' → Tail (g ++ ',' :: (g' ++ [']'])) []
  | more {g g' t v r vs} : Gap g → Gap g' → Value t v → Tail r vs → Tail (g ++ ',' :: (g' ++ (t ++ r))) (v :: vs)
/-- a member of an object -/
inductive Member : List Char → String → JVal → Prop
  | mk {k name g g' t v} : Key u k name → Gap g → Gap g' → Value t v → Member (k ++ (g ++ ':' :: (g' ++ t))) (String.ofList name) v
/-- what follows the first member of an object -/
inductive MTail : List Char → List (String × JVal) → Prop
  | close {g} : Gap g → MTail (g ++ ['}']) []
  | comma {g g'} : Gap g → Gap g' → MTail (g ++ ',' :: (g' ++ ['}'])) []
  | more {g g' m k v r ms} : Gap g → Gap g' → Member m k v → MTail r ms → MTail (g ++ ',' :: (g' ++ (m ++ r))) ((k, v) :: ms)
end

/-- a source and its value -/
inductive Text : List Char → JVal → Prop
  | mk {g t g' v} : Gap g → Value u pf t v → GapEnd g' → Text (g ++ (t ++ g')) v

end

end Verif.Json5
