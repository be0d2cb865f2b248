import Mathlib.Data.Nat.Digits.Defs
/-!
# The literals of the grammar

`dochy_json5/src/json5.pest:25-31, 48, 52, 89-97`. A parser of the grammar takes the first alternative that fits; every text it accepts as
a number is one of these.
-/
namespace Verif.Number

def IsDigit (c : Char) : Prop := 48 ≤ c.toNat ∧ c.toNat ≤ 57
def IsHexDigit (c : Char) : Prop := IsDigit c ∨ (97 ≤ c.toNat ∧ c.toNat ≤ 102) ∨ (65 ≤ c.toNat ∧ c.toNat ≤ 70)

/-- the value of a hexadecimal (or decimal) digit -/
def value (c : Char) : Nat := if c.toNat ≤ 57 then c.toNat - 48 else if c.toNat ≤ 70 then c.toNat - 55 else c.toNat - 87

/-- the number that a row of digits denotes -/
def denotes (base : Nat) (s : List Char) : Nat := Nat.ofDigits base (s.reverse.map value)

/-- `decimal_integer_literal` -/
def DecInt (s : List Char) : Prop := s = ['0'] ∨ ∃ c r, s = c :: r ∧ IsDigit c ∧ c ≠ '0' ∧ ∀ x ∈ r, IsDigit x

/-- `exponent_part` -/
structure Exp where
  big : Bool
  sign : Option Bool
  digits : List Char

def signText : Option Bool → List Char
  | none => []
  | some true => ['+']
  | some false => ['-']

def Exp.text (e : Exp) : List Char := (if e.big then 'E' else 'e') :: (signText e.sign ++ e.digits)
def Exp.Wf (e : Exp) : Prop := e.digits ≠ [] ∧ ∀ x ∈ e.digits, IsDigit x

def expText : Option Exp → List Char
  | none => []
  | some e => e.text

/-- `numeric_literal` -/
inductive Body where
  /-- `0x1f`, `0X1f` -/
  | hex (big : Bool) (digits : List Char)
  /-- `12` -/
  | int (i : List Char)
  /-- `12e3` -/
  | intExp (i : List Char) (e : Exp)
  /-- `12.`, `12.5`, `12.5e3` -/
  | frac (i f : List Char) (e : Option Exp)
  /-- `.5`, `.5e3` -/
  | dot (f : List Char) (e : Option Exp)
  | infinity
  | nan

def Body.text : Body → List Char
  | .hex big ds => '0' :: (if big then 'X' else 'x') :: ds
  | .int i => i
  | .intExp i e => i ++ e.text
  | .frac i f e => i ++ '.' :: (f ++ expText e)
  | .dot f e => '.' :: (f ++ expText e)
  | .infinity => "Infinity".toList
  | .nan => "NaN".toList

def Body.Wf : Body → Prop
  | .hex _ ds => ds ≠ [] ∧ ∀ x ∈ ds, IsHexDigit x
  | .int i => DecInt i
  | .intExp i e => DecInt i ∧ e.Wf
  | .frac i f e => DecInt i ∧ (∀ x ∈ f, IsDigit x) ∧ ∀ y, e = some y → y.Wf
  | .dot f e => f ≠ [] ∧ (∀ x ∈ f, IsDigit x) ∧ ∀ y, e = some y → y.Wf
  | .infinity => True
  | .nan => True

/-- `number` -/
structure Lit where
  sign : Option Bool
  body : Body

def Lit.text (l : Lit) : List Char := signText l.sign ++ l.body.text
def Lit.Wf (l : Lit) : Prop := l.body.Wf

/-- with the sign -/
def signed : Option Bool → Nat → Int
  | some false, n => -n
  | _, n => n

/-- The literal is an integer written without fraction and exponent, and denotes `i`. -/
inductive Integer : Lit → Int → Prop
  | hex {s big ds} : Integer ⟨s, .hex big ds⟩ (signed s (denotes 16 ds))
  | dec {s i} : Integer ⟨s, .int i⟩ (signed s (denotes 10 i))

/-- a decimal with a fraction or an exponent -/
inductive Fractional : Lit → Prop
  | intExp {s i e} : Fractional ⟨s, .intExp i e⟩
  | frac {s i f e} : Fractional ⟨s, .frac i f e⟩
  | dot {s f e} : Fractional ⟨s, .dot f e⟩

/-! ## What the standard library takes for a float

The documentation of `impl FromStr for f64`: `Float ::= Sign? ( 'inf' | 'infinity' | 'nan' | Number )`,
`Number ::= ( Digit+ | Digit+ '.' Digit* | Digit* '.' Digit+ ) Exp?`, `Exp ::= 'e' Sign? Digit+`, case-insensitive. -/

/-- `Exp?` -/
inductive RustExp : List Char → Prop
  | none : RustExp []
  | some {c s ds} : c = 'e' ∨ c = 'E' → ds ≠ [] → (∀ x ∈ ds, IsDigit x) → RustExp (c :: (signText s ++ ds))

/-- the words of the grammar -/
def RustWord (s : List Char) : Prop :=
  s.map Char.toLower = "inf".toList ∨ s.map Char.toLower = "infinity".toList ∨ s.map Char.toLower = "nan".toList

/-- `Float` -/
inductive RustFloat : List Char → Prop
  | word {s w} : RustWord w → RustFloat (signText s ++ w)
  | int {s i e} : i ≠ [] → (∀ x ∈ i, IsDigit x) → RustExp e → RustFloat (signText s ++ (i ++ e))
  | frac {s i f e} : i ≠ [] ∨ f ≠ [] → (∀ x ∈ i, IsDigit x) → (∀ x ∈ f, IsDigit x) → RustExp e →
      RustFloat (signText s ++ (i ++ '.' :: (f ++ e)))

/-- the exponent of the float with the bits `b`; 2047 stands for infinity and for what is not a number -/
def exponent (b : UInt64) : Nat := b.toNat / 2 ^ 52 % 2 ^ 11

end Verif.Number
