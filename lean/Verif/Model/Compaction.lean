import Verif.Model.Codec
/-!
# Typed compaction

Model of `dochy_compaction/src/basic_compaction.rs` and of the accessors of `kval_enum.rs`.

Floats are bit patterns.  `==` on floats, the truncation to an integer and the conversion of an integer to a float
are modelled on the bits; the remaining IEEE operations (`trunc`, `f64 as f32`, `f32 as f64`) are the fields of
`FloatOps`, about which nothing is assumed.
-/
namespace Verif.Compaction
open VarInt Codec

/-- The IEEE operations that stay uninterpreted. -/
structure FloatOps where
  /-- `f64::trunc` -/
  trunc64 : BitVec 64 → BitVec 64
  /-- `f32::trunc` -/
  trunc32 : BitVec 32 → BitVec 32
  /-- `f64 as f32` -/
  toF32 : BitVec 64 → BitVec 32
  /-- `f32 as f64` -/
  toF64 : BitVec 32 → BitVec 64

/-- A binary interchange format: `p` mantissa bits, `w` exponent bits. -/
structure Fmt where
  p : Nat
  w : Nat
def f32 : Fmt := ⟨23, 8⟩
def f64 : Fmt := ⟨52, 11⟩
def Fmt.bias (F : Fmt) : Nat := 2 ^ (F.w - 1) - 1

/-- sign, exponent and mantissa fields of a bit pattern -/
def Fmt.neg (F : Fmt) (b : Nat) : Bool := b / 2 ^ (F.p + F.w) % 2 == 1
def Fmt.exp (F : Fmt) (b : Nat) : Nat := b / 2 ^ F.p % 2 ^ F.w
def Fmt.man (F : Fmt) (b : Nat) : Nat := b % 2 ^ F.p
def Fmt.isNan (F : Fmt) (b : Nat) : Bool := F.exp b == 2 ^ F.w - 1 && F.man b != 0
def Fmt.isInf (F : Fmt) (b : Nat) : Bool := F.exp b == 2 ^ F.w - 1 && F.man b == 0
def Fmt.isZero (F : Fmt) (b : Nat) : Bool := b == 0 || b == 2 ^ (F.p + F.w)

/-- `==` on floats: NaN equals nothing, the two zeros are equal, otherwise the bits decide. -/
def Fmt.feq (F : Fmt) (a b : Nat) : Bool :=
  !F.isNan a && !F.isNan b && (a == b || (F.isZero a && F.isZero b))

/-- Magnitude of a finite number cut to an integer. -/
def Fmt.truncMag (F : Fmt) (b : Nat) : Nat :=
  let m := if F.exp b = 0 then F.man b else 2 ^ F.p + F.man b
  let e := max (F.exp b) 1
  if F.bias + F.p ≤ e then m * 2 ^ (e - (F.bias + F.p)) else m / 2 ^ (F.bias + F.p - e)

/-- `f as iN`: 0 for NaN, saturating, cut towards 0. -/
def Fmt.toInt (F : Fmt) (lo hi : Int) (b : Nat) : Int :=
  if F.isNan b then 0
  else if F.isInf b then (if F.neg b then lo else hi)
  else
    let v : Int := if F.neg b then -(F.truncMag b : Int) else (F.truncMag b : Int)
    max lo (min hi v)

/-- `n as fM` for a non-negative integer, rounding to nearest, ties to even. -/
def Fmt.ofNat (F : Fmt) (n : Nat) : Nat :=
  if n = 0 then 0
  else
    let k := n.log2
    let q :=
      if k ≤ F.p then n * 2 ^ (F.p - k)
      else
        let sh := k - F.p
        let q := n / 2 ^ sh
        let r := n % 2 ^ sh
        if 2 ^ (sh - 1) < r ∨ (r = 2 ^ (sh - 1) ∧ q % 2 = 1) then q + 1 else q
    (k + F.bias) * 2 ^ F.p + (q - 2 ^ F.p)

/-- `i as fM`. -/
def Fmt.ofInt (F : Fmt) (i : Int) : Nat :=
  if i < 0 then 2 ^ (F.p + F.w) + F.ofNat (-i).toNat else F.ofNat i.toNat

def i64Lo : Int := -(2 : Int) ^ 63
def i64Hi : Int := (2 : Int) ^ 63 - 1
def i32Lo : Int := -(2 : Int) ^ 31
def i32Hi : Int := (2 : Int) ^ 31 - 1

def eq64 (a b : BitVec 64) : Bool := f64.feq a.toNat b.toNat
def eq32 (a b : BitVec 32) : Bool := f32.feq a.toNat b.toNat
/-- `f64 as i64` -/
def f64ToI64 (a : BitVec 64) : Int := f64.toInt i64Lo i64Hi a.toNat
/-- `f32 as i64` -/
def f32ToI64 (a : BitVec 32) : Int := f32.toInt i64Lo i64Hi a.toNat
/-- `f32 as i32` -/
def f32ToI32 (a : BitVec 32) : Int := f32.toInt i32Lo i32Hi a.toNat
/-- `i64 as f64` (also of an `i8` and of an `isize`) -/
def i64ToF64 (i : Int) : BitVec 64 := BitVec.ofNat 64 (f64.ofInt i)
/-- `i64 as f32` (also of an `i8`, an `i32` and of an `isize`) -/
def i64ToF32 (i : Int) : BitVec 32 := BitVec.ofNat 32 (f32.ofInt i)

/-- basic_compaction.rs:43-48 `comp_int`; `int as i8 as i64 == int` is the range test of an `i8`. -/
def compInt (i : Int) : KVal :=
  if i = 0 then .bit false
  else if i = 1 then .bit true
  else if i8OfByte (byteOfI8 i) = i then .byte (i8OfByte (byteOfI8 i))
  else .int i

/-- basic_compaction.rs:51-57 `comp_str`. -/
def compStr (s : String) : KVal :=
  let len := (strBytes s).length
  if len = 0 then .bit false
  else if len < 16 then .str16 s
  else if len < 256 then .str256 s
  else .bigStr s

/-- basic_compaction.rs:7-23 `comp_double`. -/
def compDouble (F : FloatOps) (num : BitVec 64) : KVal :=
  if num = 0x8000000000000000#64 then .double num
  else
    let int := F.trunc64 num
    if !eq64 int num then .double num
    else if eq64 (i64ToF64 (f64ToI64 int)) int then compInt (f64ToI64 int)
    else if eq64 (F.toF64 (F.toF32 num)) num then .float (F.toF32 num)
    else .double num

/-- basic_compaction.rs:26-40 `comp_float`. -/
def compFloat (F : FloatOps) (num : BitVec 32) : KVal :=
  if num = 0x80000000#32 then .float num
  else
    let int := F.trunc32 num
    if !eq32 int num then .float num
    else if eq32 (i64ToF32 (f32ToI32 int)) int then compInt (f32ToI64 int)
    else .float num

/-- kval_enum.rs:56-66 `as_f64`. -/
def asF64 (F : FloatOps) : KVal → Option (BitVec 64)
  | .bit b => some (i64ToF64 (if b then 1 else 0))
  | .byte b => some (i64ToF64 b)
  | .int i => some (i64ToF64 i)
  | .float f => some (F.toF64 f)
  | .double d => some d
  | _ => none

/-- kval_enum.rs:69-79 `as_f32`. -/
def asF32 (F : FloatOps) : KVal → Option (BitVec 32)
  | .bit b => some (i64ToF32 (if b then 1 else 0))
  | .byte b => some (i64ToF32 b)
  | .int i => some (i64ToF32 i)
  | .float f => some f
  | .double d => some (F.toF32 d)
  | _ => none

/-- kval_enum.rs:82-90 `as_i64`. -/
def asI64 : KVal → Option Int
  | .bit b => some (if b then 1 else 0)
  | .byte b => some b
  | .int i => some i
  | _ => none

/-- kval_enum.rs:93-102 `as_string`. -/
def asString : KVal → Option String
  | .bit _ => some ""
  | .str16 s => some s
  | .str256 s => some s
  | .bigStr s => some s
  | _ => none

/-- kval_enum.rs:105-111 `as_bool`. -/
def asBool : KVal → Option Bool
  | .bool b => some b
  | .bit b => some b
  | _ => none

/-- kval_enum.rs:114-119 `as_null`. -/
def asNull : KVal → Option Unit
  | .null => some ()
  | _ => none

/-- kval_enum.rs:124-129 `as_undefined`. -/
def asUndefined : KVal → Option Nat
  | .undefined u => some u
  | _ => none

/-- basic_compaction.rs has no function for booleans; the callers (dochy_diff/src/imp/write/write_param.rs:70)
store them as a bit. -/
def compBool (b : Bool) : KVal := .bit b

end Verif.Compaction
