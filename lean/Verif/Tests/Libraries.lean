import Verif.Tests.Support
import Verif.Model.HashDir
/-!
# The name of a folder and the size of an archive

The manual gives the name of a folder that the program made (dochy_manual/src/b1_save_dochy_files/save_dochy_file_test.rs:44) and the size
of an archive (dochy_manual/src/b2_save_history_files/save_history_file_test.rs:45). Both depend on library code, which is a parameter of the
model: MetroHash128 and the compression of snappy. They are written down here to compare the model with the program.

The files of the manual were made on Windows: paths are joined with a backslash, and lines end with CR LF.
-/
namespace Verif.Tests
open Codec VarInt

/-! ## MetroHash128 -/

namespace Metro

def k0 : UInt64 := 0xC83A91E1
def k1 : UInt64 := 0x8648DBDB
def k2 : UInt64 := 0x7BDEC03B
def k3 : UInt64 := 0x2F5870A5

def rotr (v k : UInt64) : UInt64 := (v >>> k) ||| (v <<< (64 - k))

/-- the first `n` bytes, the lowest first -/
def word (n : Nat) (b : Bytes) : UInt64 := UInt64.ofNat (fromBytes (b.take n))

structure V where
  a : UInt64
  b : UInt64
  c : UInt64
  d : UInt64

/-- 32 bytes at a time -/
def blocks : Nat → V → Bytes → V × Bytes
  | 0, v, s => (v, s)
  | n + 1, v, s =>
    if s.length < 32 then (v, s)
    else
      let a := rotr (v.a + word 8 s * k0) 29 + v.c
      let b := rotr (v.b + word 8 (s.drop 8) * k1) 29 + v.d
      let c := rotr (v.c + word 8 (s.drop 16) * k2) 29 + a
      let d := rotr (v.d + word 8 (s.drop 24) * k3) 29 + b
      blocks n ⟨a, b, c, d⟩ (s.drop 32)

def mix (v : V) : V :=
  let c := v.c ^^^ rotr ((v.a + v.d) * k0 + v.b) 21 * k1
  let d := v.d ^^^ rotr ((v.b + c) * k1 + v.a) 21 * k0
  let a := v.a ^^^ rotr ((v.a + c) * k0 + d) 21 * k1
  let b := v.b ^^^ rotr ((v.b + d) * k1 + c) 21 * k0
  ⟨a, b, c, d⟩

def tail16 (x : V × Bytes) : V × Bytes :=
  let (v, s) := x
  if s.length < 16 then x
  else
    let a := rotr (v.a + word 8 s * k2) 33 * k3
    let b := rotr (v.b + word 8 (s.drop 8) * k2) 33 * k3
    let a := a ^^^ rotr (a * k2 + b) 45 * k1
    let b := b ^^^ rotr (b * k3 + a) 45 * k0
    ({ v with a, b }, s.drop 16)

def tailA (n : Nat) (r : UInt64) (x : V × Bytes) : V × Bytes :=
  let (v, s) := x
  if s.length < n then x
  else
    let a := rotr (v.a + word n s * k2) 33 * k3
    ({ v with a := a ^^^ rotr (a * k2 + v.b) r * k1 }, s.drop n)

def tailB (n : Nat) (r : UInt64) (x : V × Bytes) : V × Bytes :=
  let (v, s) := x
  if s.length < n then x
  else
    let b := rotr (v.b + word n s * k2) 33 * k3
    ({ v with b := b ^^^ rotr (b * k3 + v.a) r * k0 }, s.drop n)

/-- MetroHash128 with the seed 0, and hash_thread.rs:52-56 `to_u128` -/
def hash (s : Bytes) : Nat :=
  let v : V := ⟨(0 - k0) * k3, k1 * k2, k0 * k2, (0 - k1) * k3⟩
  let x := blocks s.length v s
  let x := if s.length < 32 then x else (mix x.1, x.2)
  let v := (tailB 1 58 (tailA 2 22 (tailB 4 46 (tailA 8 27 (tail16 x))))).1
  let a := v.a + rotr (v.a * k0 + v.b) 13
  let b := v.b + rotr (v.b * k1 + a) 37
  let a := a + rotr (a * k2 + b) 13
  let b := b + rotr (b * k3 + a) 37
  b.toNat + a.toNat * 2 ^ 64

/-- the test vector of the library; it is written with the lowest bytes first -/
def vector : Bytes := strBytes "012345678901234567890123456789012345678901234567890123456789012"
#guard hash vector = 0x9B9FEDA4BFE27CC797A27450ACB24805

end Metro

/-- dochy_manual/src/b1_save_dochy_files/src_dir/root.json5 on Windows -/
def messageSrc : Bytes := strBytes "{\r\n  message : \"Hello World\"\r\n}"

/-- The name of the folder that the manual shows, from what the model hashes: the path as it was given, and the bytes of the file. -/
def folderTest : Bytes :=
  HashDir.hashToFolderName (Archive.archiveAll (T := Unit) ⟨some, some, fun _ _ => (), Metro.hash⟩
    [("src/b1_save_dochy_files/src_dir\\root.json5", messageSrc)]).hash
#guard folderTest = strBytes "80a3e5062f0fbeede35cab8cab5d0826"

/-! ## The compression of snappy -/

namespace Snap

def load32 (s : ByteArray) (i : Nat) : UInt32 :=
  (s.get! i).toUInt32 ||| (s.get! (i + 1)).toUInt32 <<< 8 ||| (s.get! (i + 2)).toUInt32 <<< 16 ||| (s.get! (i + 3)).toUInt32 <<< 24

def hash32 (x shift : UInt32) : Nat := ((x * 0x1e35a7bd) >>> shift).toNat

def literal (s : Bytes) (a b : Nat) : Bytes :=
  let n := b - a - 1
  (if n < 60 then [UInt8.ofNat (n * 4)] else [240, UInt8.ofNat n]) ++ (s.drop a).take (b - a)

def copy (off len : Nat) : Bytes :=
  if 12 ≤ len ∨ 2048 ≤ off then [UInt8.ofNat ((len - 1) * 4 + 2), UInt8.ofNat off, UInt8.ofNat (off / 256)]
  else [UInt8.ofNat (off / 256 * 32 + (len - 4) * 4 + 1), UInt8.ofNat off]

/-- how many bytes from `i` and from `j` on are the same -/
def same (s : Bytes) (i j : Nat) : Nat := (((s.drop i).zip (s.drop j)).takeWhile fun p => p.1 = p.2).length

/-- Between 17 and 256 bytes without long literals and copies (which is enough here). `emit` is where the next literal begins. -/
def compress (s : Bytes) : Bytes := Id.run do
  let src : ByteArray := ⟨s.toArray⟩
  let limit := s.length - 15
  let h := fun i => hash32 (load32 src i) 24
  let mut out : Bytes := []
  let mut table : Array Nat := Array.replicate 256 0
  let mut emit := 0
  let mut pos := 1
  let mut skip := 32
  for _ in [0:s.length] do
    let next := pos + skip / 32
    if next ≤ limit then
      let cand := table[h pos]!
      table := table.set! (h pos) pos
      if load32 src pos = load32 src cand then
        out := out ++ literal s emit pos
        let mut cand := cand
        for _ in [0:s.length] do
          let len := same s cand pos
          out := out ++ copy (pos - cand) len
          pos := pos + len
          emit := pos
          if limit ≤ pos then break
          table := table.set! (h (pos - 1)) (pos - 1)
          cand := table[h pos]!
          table := table.set! (h pos) pos
          if load32 src pos ≠ load32 src cand then
            pos := pos + 1
            break
        skip := 32
        if limit ≤ emit then break
      else
        skip := skip + skip / 32
        pos := next
    else break
  if emit < s.length then out := out ++ literal s emit s.length
  return [UInt8.ofNat (s.length % 128 + 128), UInt8.ofNat (s.length / 128)] ++ out

end Snap

/-- dochy_manual/src/b2_save_history_files/src_dir/root.json5 on Windows -/
def digitsSrc : Bytes :=
  strBytes ("{\r\n" ++ String.intercalate ",\r\n" ((List.range 10).map fun i => "  d" ++ toString i ++ " : \"aaaaa\"") ++ "\r\n}")

/-- save_history_file_test.rs:45 "src.archive 130 bytes" -/
def archiveTest : Res Nat :=
  (Archive.writeItems [("src/b2_save_history_files/src_dir\\root.json5", Snap.compress digitsSrc)]).map (·.length)
#guard okEq archiveTest 130
#guard digitsSrc.length = 173 && (Snap.compress digitsSrc).length = 78

end Verif.Tests
