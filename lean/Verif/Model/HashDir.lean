import Verif.Model.Codec
/-!
# Folders of source versions

Model of `dochy_fs/src/imp/common/path/{hash,created_time_file,get_hash_times,hash_dir_path}.rs`.

A folder name is the list of bytes of `to_string_lossy` (for a name that is not UTF-8, the bytes of its replacement). Subtractions of
bytes that would be negative panic in a build with overflow checks (`checked = true`, the default of debug builds) and wrap around
without them.
-/
namespace Verif.HashDir
open Codec VarInt

/-! ## Hashes -/

/-- `a - b` for bytes -/
def subByte (checked : Bool) (a b : UInt8) : Res UInt8 := if checked && decide (a < b) then .panic else .ok (a - b)

/-- hash.rs:14-37 `hex_to_u64`; the loop over the 16 bytes of `s` -/
def hexToU64 (checked : Bool) (r : UInt64) : Bytes → Res (Option UInt64)
  | [] => .ok (some r)
  | b :: s =>
    (subByte checked b 48).bind fun num =>
    if num ≤ 9 then hexToU64 checked ((r <<< 4) + num.toUInt64) s
    else
      (subByte checked b 97).bind fun num =>
      if num ≤ 5 then hexToU64 checked ((r <<< 4) + (10 + num.toUInt64)) s
      else .ok none

/-- hash.rs:3-12 `folder_name_to_hash` -/
def folderNameToHash (checked : Bool) (name : Bytes) : Res (Option Nat) :=
  if name.length ≠ 32 then .ok none
  else
    (hexToU64 checked 0 (name.take 16)).bind fun upper =>
    match upper with
    | none => .ok none
    | some upper =>
      (hexToU64 checked 0 (name.drop 16)).bind fun lower =>
      match lower with
      | none => .ok none
      | some lower => .ok (some (upper.toNat * 2 ^ 64 + lower.toNat))

/-- hash.rs:56-63 `get_char_and_shift`: the character -/
def getChar (num : UInt64) : UInt8 :=
  let hex := (num &&& 0xf000000000000000) >>> 60
  if hex < 10 then 48 + hex.toUInt8 else 97 + (hex - 10).toUInt8

/-- hash.rs:48-54 `u64_to_hex_file_name`, `k` characters -/
def u64ToHex (num : UInt64) : Nat → Bytes
  | 0 => []
  | k + 1 => getChar num :: u64ToHex (num <<< 4) k

/-- hash.rs:39-46 `hash_to_folder_name` of a hash of 128 bits -/
def hashToFolderName (hash : Nat) : Bytes := u64ToHex (UInt64.ofNat (hash / 2 ^ 64)) 16 ++ u64ToHex (UInt64.ofNat hash) 16

/-! ## Times -/

/-- `SystemTime`: seconds of 64 bits with a sign, and nanoseconds below a second -/
structure Time where
  secs : Int
  nanos : Nat
  deriving DecidableEq

/-- the values of the type -/
def Time.Wf (t : Time) : Prop := InI64 t.secs ∧ t.nanos < 1000000000

/-- `SystemTime + Duration`, a panic if the seconds do not fit -/
def Time.add (t : Time) (secs nanos : Nat) : Res Time :=
  let n := t.nanos + nanos
  let s := t.secs + secs + (n / 1000000000 : Nat)
  if s < 2 ^ 63 then .ok ⟨s, n % 1000000000⟩ else .panic

/-- created_time_file.rs:6-13 `create_time_dat`: what is written; an error for times before 1970 -/
def createTimeDat (t : Time) : Res Bytes :=
  if t.secs < 0 then .err else .ok (leBytes 8 t.secs.toNat ++ leBytes 4 t.nanos)

/-- created_time_file.rs:22 -/
def timeOf (secs nanos : Nat) : Res Time :=
  (Time.add ⟨0, 0⟩ secs 0).bind fun t => t.add (nanos / 1000000000) (nanos % 1000000000)

/-- created_time_file.rs:15-24 `from_time_dat` -/
def fromTimeDat : Rd UInt8 Time :=
  Rd.bind (readN 8) fun secs => Rd.bind (readN 4) fun nanos => Rd.lift (timeOf (fromBytes secs) (fromBytes nanos))

/-! ## The list of folders -/

/-- an entry of a directory: its name, whether it is a directory, the file `created_time.dat` in it, the creation time of the system -/
structure Entry where
  name : Bytes
  isDir : Bool
  timeFile : Option Bytes
  created : Option Time

/-- get_hash_times.rs:33-46 `get_folder_time` -/
def getFolderTime (e : Entry) : Res Time :=
  let fallback := e.created.getD ⟨0, 0⟩
  match e.timeFile with
  | some bytes =>
    match fromTimeDat bytes with
    | .ok (t, _) => .ok t
    | .err => .ok fallback
    | .panic => .panic
  | none => .ok fallback

/-- get_hash_times.rs:15-27: the folders in the order in which the system lists them -/
def collect (checked : Bool) : List Entry → Res (List (Nat × Time))
  | [] => .ok []
  | e :: r =>
    if e.isDir then
      (folderNameToHash checked e.name).bind fun hash =>
      match hash with
      | some hash => (getFolderTime e).bind fun t => (collect checked r).map fun l => (hash, t) :: l
      | none => collect checked r
    else collect checked r

/-- the order of `SystemTime` -/
def Time.le (a b : Time) : Bool := decide (a.secs < b.secs) || (decide (a.secs = b.secs) && decide (a.nanos ≤ b.nanos))

/-- get_hash_times.rs:10-31 `get_hash_times` (`sort_by_key` is stable) -/
def getHashTimes (checked : Bool) (entries : List Entry) : Res (List (Nat × Time)) :=
  (collect checked entries).map fun l => l.mergeSort fun a b => a.2.le b.2

end Verif.HashDir
