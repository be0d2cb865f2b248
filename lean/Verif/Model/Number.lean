import Verif.Model.Res
/-!
# Numbers in the source

Model of `dochy_json5/src/de.rs:33-39`, 103-142. Strings are lists of characters (all of them ASCII here, so `&s[..2]` and `&s[2..]`
count characters).

`str::parse::<i64>` and `u32::from_str_radix` of the standard library are written out; they detect an overflow at the digit at which it
happens, here the value is compared at the end. `str::parse::<f64>` is a parameter `pf` that yields the bits of the float.
-/
namespace Verif.Number

/-- the value of a digit, `char::to_digit` -/
def digit (base : Nat) (c : Char) : Option Nat :=
  let v :=
    if '0' ≤ c ∧ c ≤ '9' then some (c.toNat - 48)
    else if 'a' ≤ c ∧ c ≤ 'z' then some (c.toNat - 97 + 10)
    else if 'A' ≤ c ∧ c ≤ 'Z' then some (c.toNat - 65 + 10)
    else none
  match v with
  | some n => if n < base then some n else none
  | none => none

/-- the loop of `from_str_radix` -/
def digits (base : Nat) (acc : Nat) : List Char → Option Nat
  | [] => some acc
  | c :: r =>
    match digit base c with
    | some n => digits base (acc * base + n) r
    | none => none

/-- `u32::from_str_radix(s, 16)`, `str::parse::<i64>` before the comparison with the range: an optional sign and at least one digit -/
def magnitude (base : Nat) (s : List Char) : Option Nat := if s = [] then none else digits base 0 s

/-- `str::parse::<i64>` -/
def parseI64 (s : List Char) : Option Int :=
  match s with
  | '-' :: r =>
    match magnitude 10 r with
    | some n => if n ≤ 2 ^ 63 then some (-(n : Int)) else none
    | none => none
  | '+' :: r =>
    match magnitude 10 r with
    | some n => if n < 2 ^ 63 then some n else none
    | none => none
  | r =>
    match magnitude 10 r with
    | some n => if n < 2 ^ 63 then some n else none
    | none => none

/-- de.rs:136-138 `parse_hex` with `u32::from_str_radix`, which takes a plus sign too -/
def parseHex (s : List Char) : Option Nat :=
  match s with
  | '+' :: r =>
    match magnitude 16 r with
    | some n => if n < 2 ^ 32 then some n else none
    | none => none
  | r =>
    match magnitude 16 r with
    | some n => if n < 2 ^ 32 then some n else none
    | none => none

/-- de.rs:140-142 `is_hex_literal` -/
def isHexLiteral (s : List Char) : Bool :=
  decide (s.length > 2) && (decide (s.take 2 = ['0', 'x']) || decide (s.take 2 = ['0', 'X']))

/-- de.rs:132-134 `is_int` -/
def isInt (s : List Char) : Bool := !s.contains '.' && (isHexLiteral s || (!s.contains 'e' && !s.contains 'E'))

/-- a number as it is read: `JVal::Int`, `JVal::Double` -/
inductive Num where
  | int (i : Int)
  | float (bits : UInt64)
  deriving DecidableEq

/-- `f64::is_finite`: the exponent is not all ones -/
def isFinite (b : UInt64) : Bool := decide (b &&& 0x7ff0000000000000 ≠ 0x7ff0000000000000)

/-- de.rs:123-130 `parse_integer` -/
def parseInteger (s : List Char) : Res Int :=
  if isHexLiteral s then
    match parseHex (s.drop 2) with
    | some n => .ok n
    | none => .err
  else
    match parseI64 s with
    | some i => .ok i
    | none => .err

/-- de.rs:103-121 `parse_number`; `f64::from(u32)` is the parameter `fromU32` -/
def parseNumber (pf : List Char → Option UInt64) (fromU32 : Nat → UInt64) (s : List Char) : Res UInt64 :=
  if s = "Infinity".toList then .ok 0x7ff0000000000000
  else if s = "-Infinity".toList then .ok 0xfff0000000000000
  else if s = "NaN".toList ∨ s = "-NaN".toList then .ok 0x7ff8000000000000
  else if isHexLiteral s then
    match parseHex (s.drop 2) with
    | some n => .ok (fromU32 n)
    | none => .err
  else
    match pf s with
    | some b => if isFinite b then .ok b else .err
    | none => .err

/-- de.rs:33-39: the number case of `deserialize_any` -/
def readNumber (pf : List Char → Option UInt64) (fromU32 : Nat → UInt64) (s : List Char) : Res Num :=
  if isInt s then (parseInteger s).map .int else (parseNumber pf fromU32 s).map .float

end Verif.Number
