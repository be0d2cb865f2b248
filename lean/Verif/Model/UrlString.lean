import Verif.Model.Codec
/-!
# URL strings

Model of `dochy_compaction/src/url_string/{b8s_and_b6s,char_and_b6,mod}.rs`.
-/
namespace Verif.UrlString
open VarInt Codec

/-- b8s_and_b6s.rs:9-23: copy the bits, two zero bits before every group of six. -/
def spread : List Bool → Nat → List Bool
  | [], _ => []
  | b :: bits, count6 =>
    if count6 = 6 then false :: false :: b :: spread bits 1
    else b :: spread bits (count6 + 1)

/-- b8s_and_b6s.rs:4-25 `to_b6s`. -/
def toB6s (b8s : Bytes) : Bytes := bitsToBytes (spread (bytesToBits b8s) 6)

/-- b8s_and_b6s.rs:33-36 `get_bit`. -/
def getBit (b6 : UInt8) (bit : Nat) : Bool := b6.toNat / 2 ^ (bit - 1) % 2 == 1

/-- b8s_and_b6s.rs:28-52 `to_b8s`.  The byte popped in line 49 is popped from a temporary; the result is
`result.to_bytes()` with the padding byte. -/
def toB8s (b6s : Bytes) : Bytes :=
  bitsToBytes (b6s.flatMap fun b => [getBit b 6, getBit b 5, getBit b 4, getBit b 3, getBit b 2, getBit b 1])

/-- char_and_b6.rs:2-14 `char_to_b6`. -/
def charToB6 (c : Char) : Option UInt8 :=
  if 'A' ≤ c ∧ c ≤ 'Z' then some (UInt8.ofNat (c.toNat - 'A'.toNat))
  else if 'a' ≤ c ∧ c ≤ 'z' then some (UInt8.ofNat (c.toNat - 'a'.toNat + 26))
  else if '0' ≤ c ∧ c ≤ '9' then some (UInt8.ofNat (c.toNat - '0'.toNat + 52))
  else if c = '-' then some 62
  else if c = '_' then some 63
  else none

/-- char_and_b6.rs:17-31 `b6_to_char`. -/
def b6ToChar (b : UInt8) : Option Char :=
  let n := b.toNat
  if n ≤ 25 then some (Char.ofNat ('A'.toNat + n))
  else if n ≤ 51 then some (Char.ofNat ('a'.toNat + (n - 26)))
  else if n ≤ 61 then some (Char.ofNat ('0'.toNat + (n - 52)))
  else if n = 62 then some '-'
  else if n = 63 then some '_'
  else none

/-- char_and_b6.rs:35-43 `b6s_to_string`. -/
def b6sToString : Bytes → Option (List Char)
  | [] => some []
  | b :: bs => (b6ToChar b).bind fun c => (b6sToString bs).map (c :: ·)

/-- char_and_b6.rs:47-54 `string_to_b6s`. -/
def stringToB6s : List Char → Option Bytes
  | [] => some []
  | c :: cs => (charToB6 c).bind fun b => (stringToB6s cs).map (b :: ·)

/-- mod.rs:5-8 `get_url_string` (`unwrap` of `None` is a panic). -/
def getUrlString (bytes : Bytes) : Res String :=
  match b6sToString (toB6s bytes) with
  | some cs => .ok (String.ofList cs)
  | none => .panic

/-- mod.rs:11-14 `get_bytes`. -/
def getBytes (s : String) : Option Bytes := (stringToB6s s.toList).map toB8s

end Verif.UrlString
