import Verif.Model.Codec
/-!
# Compaction of strings that look like numbers

Model of `dochy_compaction/src/string_compaction.rs` and `enc_dec/decimal_lib.rs:1-30`.
Text is a list of characters; the regular expression is a hand written recogniser.
-/
namespace Verif.StringCompaction
open VarInt Codec

def digitVal (c : Char) : Nat := c.toNat - '0'.toNat
def digitChar (n : Nat) : Char := Char.ofNat ('0'.toNat + n)

/-- Value of a list of decimal digits (`str::parse` on digits). -/
def parseNat (cs : List Char) : Nat := cs.foldl (fun a c => a * 10 + digitVal c) 0

/-- `to_string` of an unsigned integer. -/
def natStr (n : Nat) : List Char :=
  if n < 10 then [digitChar n] else natStr (n / 10) ++ [digitChar (n % 10)]
termination_by n
decreasing_by omega

/-- `to_string` of a signed integer. -/
def intStr (i : Int) : List Char := if i < 0 then '-' :: natStr (-i).toNat else natStr i.toNat

/-- Captures of the regular expression of string_compaction.rs:103, `^(-?)(([0-9]+)(.?)([0-9]*))$`:
minus sign, group 3, group 4 and group 5.  `[0-9]+` is greedy, so group 3 takes all leading digits; the unescaped
`.` takes any one character except a line feed. -/
structure Caps where
  minus : Bool
  ds : List Char
  sep : Option Char
  es : List Char

/-- string_compaction.rs:102-106 `rex`. -/
def rex (cs : List Char) : Option Caps :=
  let minus := cs.head? == some '-'
  let body := if minus then cs.tail else cs
  let ds := body.takeWhile Char.isDigit
  if ds = [] then none
  else
    match body.dropWhile Char.isDigit with
    | [] => some ⟨minus, ds, none, []⟩
    | c :: es => if c ≠ '\n' ∧ es.all Char.isDigit then some ⟨minus, ds, some c, es⟩ else none

/-- string_compaction.rs:96-100 `NumResult`. -/
structure NumResult where
  minus : Bool
  dot : Option Nat
  number : Int

/-- string_compaction.rs:114-126 `get_dot_info`: `len - start - 1`, in bytes, is the number of bytes after the first
byte of the separator; the digits after it are one byte each.  `Err` is `none`. -/
def dotInfo (c : Caps) : Option (Option Nat) :=
  match c.sep with
  | none => some none
  | some s =>
    let pos := s.utf8Size + c.es.length - 1
    if pos < 256 then some (some pos) else none

/-- `parse::<i128>` of group 1 + group 3 + group 5. -/
def parseI128 (minus : Bool) (ds : List Char) : Option Int :=
  let v : Int := if minus then -(parseNat ds : Int) else parseNat ds
  if -(2 : Int) ^ 127 ≤ v ∧ v < (2 : Int) ^ 127 then some v else none

/-- string_compaction.rs:110-148 `get_number`. -/
def getNumber (cs : List Char) : Option NumResult :=
  (rex cs).bind fun caps =>
  (dotInfo caps).bind fun dot =>
  (parseI128 caps.minus (caps.ds ++ caps.es)).bind fun number =>
    let result : NumResult := ⟨caps.minus, dot, number⟩
    -- group 2
    let body := caps.ds ++ caps.sep.toList ++ caps.es
    if body.getLast? = some '.' then none
    else if body.head? = some '0' then
      (if body.take 2 = ['0', '.'] then some result else none)
    else some result

/-- string_compaction.rs:86-94 `get_str`. -/
def getStr (s : String) : KVal :=
  if (strBytes s).length < 16 then .str16 s
  else if (strBytes s).length < 256 then .str256 s
  else .bigStr s

/-- string_compaction.rs:56-84 `to_enum`. -/
def toEnum (s : String) : KVal :=
  if s = "0" then .bit false
  else if s = "1" then .bit true
  else if s = "true" then .bool true
  else if s = "false" then .bool false
  else
    match getNumber s.toList with
    | none => getStr s
    | some n =>
      if n.number = 0 ∧ n.minus = true then getStr s
      else
        match n.dot with
        | some dot => .decimal n.number (UInt8.ofNat dot)
        | none =>
          if -(2 : Int) ^ 63 ≤ n.number ∧ n.number < (2 : Int) ^ 63 then
            if -128 ≤ n.number ∧ n.number < 128 then .byte n.number else .int n.number
          else .decimal n.number 0

/-- decimal_lib.rs:1-30 `to_string`. -/
def decimalStr (num : Int) (dot : UInt8) : List Char :=
  let s := intStr num
  if dot = 0 then s
  else
    let s := if num < 0 then s.tail else s
    let dot := dot.toNat
    let result :=
      if s.length ≤ dot then ['0', '.'] ++ List.replicate (dot - s.length) '0' ++ s
      else s.take (s.length - dot) ++ '.' :: s.drop (s.length - dot)
    if num < 0 then '-' :: result else result

/-- string_compaction.rs:32-54 `to_string`.  The texts of floats and binaries, which `to_enum` never produces,
are not modelled (`none`). -/
def toStr : KVal → Option String
  | .null => some "null"
  | .bit b => some (if b then "1" else "0")
  | .bool b => some (if b then "true" else "false")
  | .byte b => some (String.ofList (intStr b))
  | .str16 s => some s
  | .int i => some (String.ofList (intStr i))
  | .str256 s => some s
  | .decimal i d => some (String.ofList (decimalStr i d))
  | .bigStr s => some s
  | .undefined u => some (String.ofList ("undefined".toList ++ natStr u))
  | _ => none

/-- string_compaction.rs:17-21 `compress_strings`. -/
def compressStrings (strs : List String) : Res Bytes := encodeVals (strs.map toEnum)

/-- string_compaction.rs:23-30 `decompress` with the unread rest. -/
def decompress : Rd UInt8 (List (Option String)) :=
  Rd.bind decodeVals fun ks => Rd.pure (ks.map toStr)

end Verif.StringCompaction
