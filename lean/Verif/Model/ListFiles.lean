import Verif.Model.Filesys
/-!
# The list of saved files

Model of `dochy_fs/src/imp/filesys/list_dochy_files.rs` and `dochy_fs/src/imp/common/list/*.rs`.

`ReadDir` is the list of the entries that it still returns, in the order of the system; `none` is an error of reading one. It ends
after its last entry and stays at the end. Names are bytes, as they are on the disk; `to_string_lossy` is `lossy`.
-/
namespace Verif.ListFiles
open Codec VarInt HashDir Filesys

/-! ## Names -/

/-- a continuation byte of UTF-8 -/
def cont (b : UInt8) : Bool := 0x80 ≤ b && b ≤ 0xbf

/-- the first two bytes of a character of three or four bytes -/
def twoOf (b c : UInt8) : Bool :=
  (b == 0xe0 && 0xa0 ≤ c && c ≤ 0xbf) || (((0xe1 ≤ b && b ≤ 0xec) || b == 0xee || b == 0xef) && cont c) || (b == 0xed && 0x80 ≤ c && c ≤ 0x9f) ||
    (b == 0xf0 && 0x90 ≤ c && c ≤ 0xbf) || (0xf1 ≤ b && b ≤ 0xf3 && cont c) || (b == 0xf4 && 0x80 ≤ c && c ≤ 0x8f)

/-- how many bytes `to_string_lossy` replaces at once where no character begins (library code) -/
def badLen : Bytes → Nat
  | b :: c :: d :: _ => if twoOf b c then (if 0xf0 ≤ b && cont d then 3 else 2) else 1
  | [b, c] => if twoOf b c then 2 else 1
  | _ => 1

/-- the length of the character at the start -/
def charLen (b : Bytes) : Option Nat := [1, 2, 3, 4].find? fun n => n ≤ b.length && (strOfBytes (b.take n)).isSome

/-- `to_string_lossy` of a name that is not UTF-8 (library code); the first argument is at least the length -/
def lossyF : Nat → Bytes → Bytes
  | _, [] => []
  | 0, _ => []
  | n + 1, b =>
    match charLen b with
    | some k => b.take k ++ lossyF n (b.drop k)
    | none => [0xef, 0xbf, 0xbd] ++ lossyF n (b.drop (badLen b))

/-- `to_string_lossy` -/
def lossy (b : Bytes) : Bytes := if (strOfBytes b).isSome then b else lossyF b.length b

/-! ## The entries -/

/-- an entry of a hash folder: its name, whether it is a folder (not looked at), and `modified` and `len` of its metadata if they are there -/
structure FEntry where
  name : Bytes
  isDir : Bool
  stat : Option (Time × Nat)

/-- an entry of the save folder: its name, `file_type` (`none`: an error; a link is not followed), and what `read_dir` returns for it -/
structure PEntry where
  name : Bytes
  isDir : Option Bool
  opened : Option (List (Option FEntry))

/-- file_data.rs:11-16 `FileData` -/
structure FileData where
  hash : Nat
  modified : Time
  len : Nat
  name : Bytes
  deriving DecidableEq

/-- file_data.rs:25-31 `FileData::from` -/
def FileData.of (hash : Nat) (e : FEntry) : Res FileData :=
  match e.stat with
  | some (t, n) => .ok ⟨hash, t, n, lossy e.name⟩
  | none => .err

/-- file_data.rs:46-50 `calc_path`: the name of the folder and that of the file -/
def FileData.calcPath (d : FileData) : Bytes × Bytes := (hashToFolderName d.hash, d.name)

/-- find_next_dir.rs:5-20 `find_next_dir`, with what is left of the iterator -/
def findNextDir (checked : Bool) : List (Option PEntry) → Res (Option (List (Option FEntry) × Nat)) × List (Option PEntry)
  | [] => (.ok none, [])
  | none :: r => (.err, r)
  | some e :: r =>
    match e.isDir with
    | none => (.err, r)
    | some false => findNextDir checked r
    | some true =>
      match folderNameToHash checked (lossy e.name) with
      | .ok none => findNextDir checked r
      | .ok (some hex) =>
        match e.opened with
        | some d => (.ok (some (d, hex)), r)
        | none => (.err, r)
      | .err => (.err, r)
      | .panic => (.panic, r)

/-- list_files_iterator.rs:10-14 `InnerIterator` -/
structure Inner where
  proj : List (Option PEntry)
  dir : List (Option FEntry)
  hex : Nat

/-- list_files_iterator.rs:78-85 `find_next_file`, with what is left of the iterator -/
def findNextFile : List (Option FEntry) → Res (Option FEntry) × List (Option FEntry)
  | [] => (.ok none, [])
  | none :: r => (.err, r)
  | some e :: r => (.ok (some e), r)

/-- list_files_iterator.rs:40-74 `InnerIterator::next`, at most `n` rounds of the loop -/
def nextF (checked : Bool) : Nat → Inner → Option (Res FileData) × Inner
  | 0, s => (none, s)
  | n + 1, s =>
    match findNextFile s.dir with
    | (.ok (some e), r) => (some (FileData.of s.hex e), { s with dir := r })
    | (.err, r) => (some .err, { s with dir := r })
    | (.panic, r) => (some .panic, { s with dir := r })
    | (.ok none, r) =>
      match findNextDir checked s.proj with
      | (.ok (some (d, hex)), p) => nextF checked n ⟨p, d, hex⟩
      | (.ok none, p) => (none, { s with proj := p, dir := r })
      | (.err, p) => (some .err, { s with proj := p, dir := r })
      | (.panic, p) => (some .panic, { s with proj := p, dir := r })

/-- `next`: every round takes an entry of the save folder, but the last -/
def Inner.next (checked : Bool) (s : Inner) : Option (Res FileData) × Inner := nextF checked (s.proj.length + 1) s

/-- list_files.rs:14-21: the loop, at most `n` rounds; `none` if that is not enough -/
def loopF (checked : Bool) : Nat → Inner → Option (Res (List FileData))
  | 0, _ => none
  | n + 1, s =>
    match s.next checked with
    | (none, _) => some (.ok [])
    | (some .err, s) => loopF checked n s
    | (some .panic, _) => some .panic
    | (some (.ok d), s) => (loopF checked n s).map fun r => if isReserved d.name then r else r.map fun l => d :: l

/-- list_files.rs:9-34 `list_files` and `iterate_files` (list_files_iterator.rs:17-37: nothing is returned where no folder was found);
`proj` is what `read_dir` returns for the save folder -/
def listFiles (checked : Bool) (n : Nat) (proj : Option (List (Option PEntry))) : Option (Res (List FileData)) :=
  match proj with
  | none => some .err
  | some proj =>
    match findNextDir checked proj with
    | (.err, _) => some .err
    | (.panic, _) => some .panic
    | (.ok none, _) => some (.ok [])
    | (.ok (some (d, hex)), p) => (loopF checked n ⟨p, d, hex⟩).map fun r => r.map fun l => l.mergeSort fun a b => a.modified.le b.modified

end Verif.ListFiles
