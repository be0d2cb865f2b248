import Verif.Model.VarInt
/-!
# Binary encoding of value sequences

Model of `dochy_compaction/src/enc_dec/{encode,decode,tag_storage,tag_reader,reader,writer,kihon_from_tag}.rs`
and of the value type `dochy_compaction/src/kval_enum.rs:5-60` (`KVal`).

Simplifications: floats are their bit patterns; `write` always succeeds (it is a list append); the allocation of
huge but representable buffers is not modelled (it is an allocation failure of the process, not of the code).
-/
namespace Verif.Codec
open VarInt

/-- kval_enum.rs `KVal`: the values of the binary format.  `f32`/`f64` are bit patterns,
`u64`/`u32`/`u16` vectors are bit vectors, `i8` is an `Int` in -128..127. -/
inductive KVal where
  | null
  | bit (b : Bool)
  | bool (b : Bool)
  | byte (i : Int)
  | str16 (s : String)
  | int (i : Int)
  | float (f : BitVec 32)
  | str256 (s : String)
  | double (d : BitVec 64)
  | decimal (int : Int) (dot : UInt8)
  | bigStr (s : String)
  | binary (v : List UInt8)
  | binaryArc (v : List UInt8)
  | binary8 (v : List (BitVec 64))
  | binary4 (v : List (BitVec 32))
  | binary2 (v : List (BitVec 16))
  | undefined (i : Nat)
  deriving Repr, DecidableEq

/-- The UTF-8 bytes of a string (`str::as_bytes`); their number is Rust's `str::len`. -/
def strBytes (s : String) : Bytes := s.toUTF8.data.toList

/-- `String::from_utf8`. -/
def strOfBytes (bs : Bytes) : Option String := String.fromUTF8? ⟨bs.toArray⟩

/-- `uN::to_le_bytes` for an `n` byte integer. -/
def leBytes : Nat → Nat → Bytes
  | 0, _ => []
  | n + 1, v => UInt8.ofNat (v % 256) :: leBytes n (v / 256)

/-- tag_storage.rs:13-26 `append`: the `n` low bits of `val`, most significant first. -/
def appendBits (val : Nat) : Nat → List Bool
  | 0 => []
  | n + 1 => (val / 2 ^ n % 2 == 1) :: appendBits val n

/-- `i8 as u8`. -/
def byteOfI8 (i : Int) : UInt8 := UInt8.ofNat (i % 256).toNat
/-- `u8 as i8`. -/
def i8OfByte (b : UInt8) : Int := if b.toNat < 128 then (b.toNat : Int) else (b.toNat : Int) - 256

/-- encode.rs:70-74, 79-82, 88-91, 95-97, 104-106, 113-115: tag bits and data bytes of a length. -/
def lenTag (n : Nat) : List Bool := appendBits ((encode (n : Int)).length - 1) 3
def lenBytes (n : Nat) : Bytes := encode (n : Int)

/-- encode.rs:15-127, the bits appended to the tag storage for one value. -/
def tagBits : KVal → List Bool
  | .null => appendBits 0b01001 5
  | .bit b => appendBits (0b10 + b.toNat) 2
  | .bool b => appendBits (0b0100010 + b.toNat) 7
  | .byte _ => appendBits 0b011 3
  | .str16 s => appendBits 0b0101 4 ++ appendBits (strBytes s).length 4
  | .int i => appendBits 0b0011 4 ++ appendBits ((encode i).length - 1) 3
  | .float _ => appendBits 0b00100001 8
  | .str256 _ => appendBits 0b00101 5
  | .double _ => appendBits 0b001001 6
  | .decimal i _ => appendBits 0b0100001 7 ++ appendBits ((encode i).length - 1) 4
  | .bigStr s => appendBits 0b0010001 7 ++ lenTag (strBytes s).length
  | .binary v => appendBits 0b00011 5 ++ lenTag v.length
  | .binaryArc v => appendBits 0b00011 5 ++ lenTag v.length
  | .binary8 v => appendBits 0b000101 6 ++ lenTag v.length
  | .binary4 v => appendBits 0b0001001 7 ++ lenTag v.length
  | .binary2 v => appendBits 0b00010001 8 ++ lenTag v.length
  | .undefined i => appendBits 0b00001 5 ++ appendBits 0 i ++ appendBits 1 1

/-- encode.rs:15-127, the bytes appended to the data vector for one value. -/
def dataBytes : KVal → Bytes
  | .null => []
  | .bit _ => []
  | .bool _ => []
  | .byte i => [byteOfI8 i]
  | .str16 s => strBytes s
  | .int i => encode i
  | .float f => (leBytes 4 f.toNat).reverse
  | .str256 s => UInt8.ofNat (strBytes s).length :: strBytes s
  | .double d => (leBytes 8 d.toNat).reverse
  | .decimal i dot => encode i ++ [dot]
  | .bigStr s => lenBytes (strBytes s).length ++ strBytes s
  | .binary v => lenBytes v.length ++ v
  | .binaryArc v => lenBytes v.length ++ v
  | .binary8 v => lenBytes v.length ++ v.flatMap fun x => leBytes 8 x.toNat
  | .binary4 v => lenBytes v.length ++ v.flatMap fun x => leBytes 4 x.toNat
  | .binary2 v => lenBytes v.length ++ v.flatMap fun x => leBytes 2 x.toNat
  | .undefined _ => []

/-- The explicit `panic!`s of encode.rs:28, 47, 121. -/
def encodePanics : KVal → Bool
  | .str16 s => 16 ≤ (strBytes s).length
  | .str256 s => 256 ≤ (strBytes s).length
  | .undefined i => 8 ≤ i
  | _ => false

/-- The 8 bits of a byte, most significant first (`BitVec::from_bytes` of the bit-vec crate). -/
def bytesToBits (bs : Bytes) : List Bool := bs.flatMap fun b => appendBits b.toNat 8

/-- Value of a bit list, most significant first. -/
def bitsVal (l : List Bool) : Nat := l.foldl (fun a b => a * 2 + b.toNat) 0

/-- `BitVec::to_bytes` of the bit-vec crate (tag_storage.rs:28-30): groups of 8, the last one padded with 0. -/
def bitsToBytes (l : List Bool) : Bytes :=
  match l with
  | [] => []
  | b :: l =>
    UInt8.ofNat (bitsVal ((b :: l.take 7) ++ List.replicate (8 - (b :: l.take 7).length) false))
      :: bitsToBytes (l.drop 7)
termination_by l.length
decreasing_by simp; omega

/-- encode.rs:8-137 `encode` (the bytes written). -/
def encodeVals (vals : List KVal) : Res Bytes :=
  if vals.any encodePanics then .panic
  else
    let tagVec := bitsToBytes (vals.flatMap tagBits)
    let data := vals.flatMap dataBytes
    .ok (write vals.length ++ (write tagVec.length ++ (tagVec ++ data)))

/-- kihon_from_tag.rs:2-19 `KihonFromTag`. -/
inductive KTag where
  | null
  | bit (b : Bool)
  | bool (b : Bool)
  | byte
  | str16 (len : Nat)
  | int (size : Nat)
  | float
  | str256
  | double
  | decimal (size : Nat)
  | bigStr (size : Nat)
  | binary (size : Nat)
  | binary8 (size : Nat)
  | binary4 (size : Nat)
  | binary2 (size : Nat)
  | undefined (i : Nat)
  deriving Repr, DecidableEq

/-- A reader over a stream of `σ`: either fails or returns a value and the unread rest. -/
def Rd (σ : Type) (α : Type) := List σ → Res (α × List σ)

namespace Rd
variable {σ : Type}
def pure {α : Type} (a : α) : Rd σ α := fun inp => .ok (a, inp)
def bind {α β : Type} (r : Rd σ α) (f : α → Rd σ β) : Rd σ β :=
  fun inp => (r inp).bind fun p => f p.1 p.2
def fail {α : Type} : Rd σ α := fun _ => .err
instance : Monad (Rd σ) where
  pure := pure
  bind := bind
/-- lift a result that does not read -/
def lift {α : Type} (r : Res α) : Rd σ α := fun inp => r.map fun a => (a, inp)
end Rd

/-- tag_reader.rs:15-23 `read_bit`; reader.rs:13-18 `read_byte`: the next element or an error at the end. -/
def readOne {σ : Type} : Rd σ σ
  | [] => .err
  | b :: rest => .ok (b, rest)

/-- tag_reader.rs:25-32 `read_bits`. -/
def readBits (n : Nat) (acc : Nat := 0) : Rd Bool Nat :=
  match n with
  | 0 => Rd.pure acc
  | n + 1 => Rd.bind readOne fun b => readBits n (acc * 2 + b.toNat)

/-- tag_reader.rs:34-41 `read_next_1`: number of zeros before the next one. -/
def readNext1 : Rd Bool Nat
  | [] => .err
  | true :: rest => .ok (0, rest)
  | false :: rest => (readNext1 rest).map fun p => (p.1 + 1, p.2)

/-- tag_reader.rs:43-106 `read_tag`. -/
def readTag : Rd Bool KTag :=
  Rd.bind readNext1 fun count =>
    match count with
    | 0 => Rd.bind readOne fun b => Rd.pure (.bit b)
    | 1 => Rd.bind readNext1 fun count =>
      match count with
      | 0 => Rd.pure .byte
      | 1 => Rd.bind (readBits 4) fun n => Rd.pure (.str16 n)
      | 2 => Rd.pure .null
      | 3 => Rd.bind readOne fun b => Rd.pure (.bool b)
      | 4 => Rd.bind (readBits 4) fun n => Rd.pure (.decimal (n + 1))
      | _ => Rd.fail
    | 2 => Rd.bind readNext1 fun count =>
      match count with
      | 0 => Rd.bind (readBits 3) fun n => Rd.pure (.int (n + 1))
      | 1 => Rd.pure .str256
      | 2 => Rd.pure .double
      | 3 => Rd.bind (readBits 3) fun n => Rd.pure (.bigStr (n + 1))
      | 4 => Rd.pure .float
      | _ => Rd.fail
    | 3 => Rd.bind readNext1 fun count =>
      match count with
      | 0 => Rd.bind (readBits 3) fun n => Rd.pure (.binary (n + 1))
      | 1 => Rd.bind (readBits 3) fun n => Rd.pure (.binary8 (n + 1))
      | 2 => Rd.bind (readBits 3) fun n => Rd.pure (.binary4 (n + 1))
      | 3 => Rd.bind (readBits 3) fun n => Rd.pure (.binary2 (n + 1))
      | _ => Rd.fail
    | 4 => Rd.bind readNext1 fun count => Rd.pure (.undefined (count % 256))
    | _ => Rd.fail

/-- Repeat a reader `n` times (`for _ in 0..n { push(..?) }`). -/
def readTimes {σ α : Type} (r : Rd σ α) : Nat → Rd σ (List α)
  | 0 => Rd.pure []
  | n + 1 => Rd.bind r fun a => Rd.bind (readTimes r n) fun as => Rd.pure (a :: as)

/-- reader.rs:32-38 `read_binary` (`read_exact` of `n` bytes; too large a capacity is an `Err`). -/
def readN (n : Nat) : Rd UInt8 Bytes := fun inp =>
  if inp.length < n then .err else .ok (inp.take n, inp.drop n)

/-- reader.rs:19-24, 72-80 `read` with `set_buf_len`: reserving more than `isize::MAX` bytes panics with
"capacity overflow". -/
def readBuf (n : Nat) : Rd UInt8 Bytes := fun inp =>
  if 2 ^ 63 ≤ n then .panic else readN n inp

/-- reader.rs:25-31 `read_string`. -/
def readString (n : Nat) : Rd UInt8 String :=
  Rd.bind (readN n) fun bs => Rd.lift (Res.ofOption (strOfBytes bs))

/-- reader.rs:39-68 `read_binary8/4/2`: `len` little endian words of `w` bytes. -/
def readWords (w len : Nat) : Rd UInt8 (List Nat) :=
  readTimes (Rd.bind (readN w) fun bs => Rd.pure (fromBytes bs)) len

/-- `i64 as usize` (64 bit). -/
def asUsize (i : Int) : Nat := (i % 2 ^ 64).toNat

/-- var_int.rs:137-141 `read`. -/
def readVarInt : Rd UInt8 Int :=
  Rd.bind readOne fun len => Rd.bind (readBuf len.toNat) fun bs => Rd.lift (decodeChecked 8 bs)

/-- decode.rs:66-67 and alike: a length of `size` bytes. -/
def readLen (size : Nat) : Rd UInt8 Nat :=
  Rd.bind (readBuf size) fun bs => Rd.pure (asUsize (decode bs))

/-- decode.rs:25-90: the value for one tag. -/
def readVal : KTag → Rd UInt8 KVal
  | .null => Rd.pure .null
  | .bit b => Rd.pure (.bit b)
  | .bool b => Rd.pure (.bool b)
  | .byte => Rd.bind readOne fun b => Rd.pure (.byte (i8OfByte b))
  | .str16 l => Rd.bind (readString l) fun s => Rd.pure (.str16 s)
  | .int size => Rd.bind (readBuf size) fun bs => Rd.pure (.int (decode bs))
  | .float => Rd.bind (readBuf 4) fun bs => Rd.pure (.float (BitVec.ofNat 32 (fromBytes bs.reverse)))
  | .str256 => Rd.bind readOne fun b => Rd.bind (readString b.toNat) fun s => Rd.pure (.str256 s)
  | .double => Rd.bind (readBuf 8) fun bs => Rd.pure (.double (BitVec.ofNat 64 (fromBytes bs.reverse)))
  | .decimal size =>
    Rd.bind (readBuf size) fun bs => Rd.bind readOne fun dot => Rd.pure (.decimal (decode bs) dot)
  | .bigStr size => Rd.bind (readLen size) fun len => Rd.bind (readString len) fun s => Rd.pure (.bigStr s)
  | .binary size => Rd.bind (readLen size) fun len => Rd.bind (readN len) fun v => Rd.pure (.binary v)
  | .binary8 size =>
    Rd.bind (readLen size) fun len => Rd.bind (readWords 8 len) fun v => Rd.pure (.binary8 (v.map (BitVec.ofNat 64)))
  | .binary4 size =>
    Rd.bind (readLen size) fun len => Rd.bind (readWords 4 len) fun v => Rd.pure (.binary4 (v.map (BitVec.ofNat 32)))
  | .binary2 size =>
    Rd.bind (readLen size) fun len => Rd.bind (readWords 2 len) fun v => Rd.pure (.binary2 (v.map (BitVec.ofNat 16)))
  | .undefined i => Rd.pure (.undefined i)

/-- decode.rs:24-92: the loop over the tags. -/
def readVals : List KTag → Rd UInt8 (List KVal)
  | [] => Rd.pure []
  | t :: ts => Rd.bind (readVal t) fun v => Rd.bind (readVals ts) fun vs => Rd.pure (v :: vs)

/-- decode.rs:17-21: read `count` tags from the tag bytes; the rest of the tag bytes is ignored. -/
def readTags (count : Nat) (tagBytes : Bytes) : Res (List KTag) :=
  (readTimes readTag count (bytesToBits tagBytes)).map fun p => p.1

/-- decode.rs:10-95 `decode`; the result carries the unread rest of the stream
(`bytes_read` is the length of the consumed part). -/
def decodeVals : Rd UInt8 (List KVal) :=
  Rd.bind readVarInt fun count =>
  Rd.bind readVarInt fun tagLen =>
  Rd.bind (readBuf (asUsize tagLen)) fun tagBytes =>
  Rd.bind (Rd.lift (readTags (asUsize count) tagBytes)) fun tags =>
  readVals tags

end Verif.Codec
