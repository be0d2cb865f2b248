import Verif.Model.Res
/-!
# Variable length integers

Model of `dochy_compaction/src/enc_dec/var_int.rs` and `signed_bytes.rs`.

A byte is a `UInt8`.  `i64`/`i128` values are `Int`; the ranges are stated as hypotheses (`InI64`, `InI128`)
where they matter.  The 64- and the 128-bit functions are the same text at a different width, so one Lean
definition serves both; the only place where the width shows is `decode`, which takes the maximal number of
bytes (8 or 16) and panics (shift overflow in checked builds) when more are given.
-/
namespace Verif.VarInt

abbrev Bytes := List UInt8

/-- Value range of `i64`. -/
def InI64 (v : Int) : Prop := -(2 : Int) ^ 63 ≤ v ∧ v < (2 : Int) ^ 63
/-- Value range of `i128`. -/
def InI128 (v : Int) : Prop := -(2 : Int) ^ 127 ≤ v ∧ v < (2 : Int) ^ 127

instance (v : Int) : Decidable (InI64 v) := by unfold InI64; infer_instance
instance (v : Int) : Decidable (InI128 v) := by unfold InI128; infer_instance

/-- var_int.rs:10-19 (and 96-104, signed_bytes.rs:6, 19): the magnitude that is stored,
`-(val+1)` for negative values. -/
def magnitude (v : Int) : Nat := if v < 0 then (-(v + 1)).toNat else v.toNat

/-- signed_bytes.rs:8-12 / 21-25: the loop, without the `size = 1` start value. -/
def signedBytesLoop (m : Nat) (size : Nat) : Nat :=
  if m < 128 then size else signedBytesLoop (m / 256) (size + 1)
termination_by m
decreasing_by omega

/-- signed_bytes.rs:5-13 / 18-26 `signed_bytes`, `signed_bytes128`. -/
def signedBytes (v : Int) : Nat := signedBytesLoop (magnitude v) 1

/-- var_int.rs:52-56 / 66-70: the loop of `to_bytes`, least significant byte first. -/
def digits (m : Nat) : Bytes :=
  if m = 0 then [] else UInt8.ofNat (m % 256) :: digits (m / 256)
termination_by m
decreasing_by omega

/-- var_int.rs:44-58 / 61-72 `to_bytes`, `to_bytes128`. -/
def toBytes (m : Nat) : Bytes := if m = 0 then [0] else digits m

/-- var_int.rs:75-82 / 85-92 `from_bytes`, `from_bytes128` (value before it is cut to the machine width;
the callers never pass more than 8 / 16 bytes, see `decode`). -/
def fromBytes (bs : Bytes) : Nat := bs.foldr (fun b acc => acc * 256 + b.toNat) 0

/-- var_int.rs:26 / 111: set the top bit of the last byte. -/
def setTopBit : Bytes → Bytes
  | [] => []
  | [b] => [b ||| 0x80]
  | b :: bs => b :: setTopBit bs

/-- var_int.rs:9-29 / 95-114 `encode`, `encode128`. -/
def encode (v : Int) : Bytes :=
  let bytes := toBytes (magnitude v)
  let bytes := if bytes.length < signedBytes v then bytes ++ [0] else bytes
  if v < 0 then setTopBit bytes else bytes

/-- var_int.rs:32-41 / 117-126 `decode`, `decode128` for an input of at most 8 / 16 bytes.
`ans` as unsigned number; the signed value after the `xor` is the same in both readings. -/
def decode (bs : Bytes) : Int :=
  if bs.length = 0 then 0
  else
    let ans := fromBytes bs
    let signBit := 0x80 <<< (8 * (bs.length - 1))
    if signBit &&& ans ≠ 0 then -((ans ^^^ signBit : Nat) : Int) - 1 else (ans : Int)

/-- `decode` with the panic of the checked build made explicit: more than `width` bytes overflow the
shift in var_int.rs:35 (or already the multiplication in var_int.rs:78). -/
def decodeChecked (width : Nat) (bs : Bytes) : Res Int :=
  if bs.length ≤ width then .ok (decode bs) else .panic

/-- var_int.rs:129-135 `write`: length byte, then the bytes. -/
def write (v : Int) : Bytes :=
  let bytes := encode v
  UInt8.ofNat bytes.length :: bytes

end Verif.VarInt
