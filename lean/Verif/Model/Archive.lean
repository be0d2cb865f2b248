import Verif.Model.Compaction
/-!
# Source archives

Model of `dochy_archiver2/src/imp/{write_archive,write_items,read_archive,read_archive_data_from_directory}.rs` and
`dochy_archiver2/src/imp/structs/{archiver,archive_data,archive_options,hash_thread}.rs`.

The compression (`snap`), the hash function (MetroHash128), and the converter that the caller passes are the fields of `Fns`; nothing
is assumed about them here. A `BTreeMap` is the list of its entries in the order of the keys. The threads are in `ArchivePipe.lean`;
this file has the functions with the threads replaced by their results, in the order in which they are awaited.
-/
namespace Verif.Archive
open Codec VarInt Compaction

/-- `T` is the type of converted data, `H` that of hashes. -/
structure Fns (T H : Type) where
  /-- `snap::raw::Encoder::compress_vec` -/
  compress : Bytes → Option Bytes
  /-- `snap::raw::Decoder::decompress_vec` -/
  decompress : Bytes → Option Bytes
  converter : String → Bytes → T
  /-- the hash of all the bytes that were written to the hasher -/
  hash : Bytes → H

/-! ## Sorted maps -/

/-- the order of Rust's `String` -/
def pathLt (a b : String) : Bool := decide (strBytes a < strBytes b)

/-- `BTreeMap::insert` -/
def insert {V : Type} (k : String) (v : V) : List (String × V) → List (String × V)
  | [] => [(k, v)]
  | e :: r => if k = e.1 then (k, v) :: r else if pathLt k e.1 then (k, v) :: e :: r else e :: insert k v r

/-! ## Data of an archive -/

/-- archive_data.rs:4-12 `ArchiveData` -/
structure Data (T H : Type) where
  btree : List (String × (T × Bytes))
  hash : H

/-- hash_thread.rs:19-25: the bytes that are written to the hasher -/
def hashInput (files : List (String × Bytes)) : Bytes := files.flatMap fun f => strBytes f.1 ++ f.2

/-- archiver.rs:35-68: `archive` called for each file, then `finish` -/
def archiveAll {T H : Type} (F : Fns T H) (files : List (String × Bytes)) : Data T H :=
  ⟨files.foldl (fun m f => insert f.1 (F.converter f.1 f.2, f.2) m) [], F.hash (hashInput files)⟩

/-! ## Writing -/

/-- write_archive.rs:30-33: the loop over the messages of the workers, in the order of their arrival -/
def receive : List (String × Option Bytes) → List (String × Bytes) → Res (List (String × Bytes))
  | [], items => .ok items
  | (p, some c) :: r, items => receive r (insert p c items)
  | (_, none) :: _, _ => .err

/-- write_items.rs:11-16: the values of the header -/
def header (items : List (String × Bytes)) : List KVal :=
  compInt items.length :: items.flatMap fun e => [compStr e.1, compInt e.2.length]

/-- write_items.rs:7-25 `write_items` -/
def writeItems (items : List (String × Bytes)) : Res Bytes :=
  (encodeVals (header items)).map fun out => out ++ items.flatMap fun e => e.2

/-- write_archive.rs:17-27: what the workers send -/
def messages {T H : Type} (F : Fns T H) (data : Data T H) : List (String × Option Bytes) :=
  data.btree.map fun e => (e.1, F.compress e.2.2)

/-- write_archive.rs:8-36 `write_archive`, with the messages in the order of their arrival -/
def writeArchive (arrival : List (String × Option Bytes)) : Res Bytes := (receive arrival []).bind writeItems

/-! ## Reading -/

/-- read_archive.rs:18-25 -/
def parseEntries : Nat → List KVal → Res (List (String × Nat))
  | 0, _ => .ok []
  | n + 1, a :: b :: r =>
    (Res.ofOption (asString a)).bind fun p => (Res.ofOption (asI64 b)).bind fun l =>
    (parseEntries n r).map fun es => (p, asUsize l) :: es
  | _ + 1, _ => .err

/-- read_archive.rs:11-25 -/
def readHeader : Rd UInt8 (List (String × Nat)) :=
  Rd.bind decodeVals fun kvals =>
  match kvals with
  | [] => Rd.fail
  | k :: r => Rd.lift ((Res.ofOption (asI64 k)).bind fun len => parseEntries (asUsize len) r)

/-- read_archive.rs:46-50 -/
def readBufs : List Nat → Rd UInt8 (List Bytes)
  | [] => Rd.pure []
  | n :: r => Rd.bind (readN n) fun b => Rd.bind (readBufs r) fun bs => Rd.pure (b :: bs)

/-- read_archive.rs:31-43, 52-56: the data in the order in which the archiving thread gets it -/
def decompressAll {T H : Type} (F : Fns T H) : List (String × Bytes) → Res (List (String × Bytes))
  | [] => .ok []
  | (p, c) :: r => (Res.ofOption (F.decompress c)).bind fun d => (decompressAll F r).map fun l => (p, d) :: l

/-- read_archive.rs:10-62 `read_archive` -/
def readArchive {T H : Type} (F : Fns T H) : Rd UInt8 (Data T H) :=
  Rd.bind readHeader fun es =>
  Rd.bind (readBufs (es.map fun e => e.2)) fun bufs =>
  Rd.lift ((decompressAll F ((es.map fun e => e.1).zip bufs)).map (archiveAll F))

/-! ## Directories -/

/-- What `read_dir` lists: a file, a folder with what it holds, or something else (a link is not followed). -/
inductive Node where
  | file (name : String) (data : Bytes)
  | dir (name : String) (entries : List Node)
  | other (name : String)

/-- archive_options.rs:6-9 `ArchiveOptions` -/
structure Opts where
  extensions : List String
  subfolders : Bool

/-- archive_options.rs:14-20 `is_archived` -/
def isArchived (opt : Opts) (ext : String) : Bool := if opt.extensions.length = 0 then true else opt.extensions.contains ext

/-- `Path::extension`, `""` if there is none (read_archive_data_from_directory.rs:32) -/
def extension (name : String) : String :=
  let (after, rest) := name.toList.reverse.span fun c => c != '.'
  match rest with
  | _ :: _ :: _ => String.ofList after.reverse
  | _ => ""

/-- `Path::join` with the name of an entry -/
def join (dir name : String) : String := if dir = "" ∨ dir.toList.getLast? = some '/' then dir ++ name else dir ++ "/" ++ name

mutual
/-- read_archive_data_from_directory.rs:30-40 -/
def nodePaths (opt : Opts) (cur : String) : Node → List (String × Unit) → List (String × Unit)
  | .file name _, set => if isArchived opt (extension name) then insert (join cur name) () set else set
  | .dir name es, set => if opt.subfolders then dirPaths opt (join cur name) es set else set
  | .other _, set => set
/-- read_archive_data_from_directory.rs:23-43 `get_paths_from_dir`; the set is a map to nothing -/
def dirPaths (opt : Opts) (cur : String) : List Node → List (String × Unit) → List (String × Unit)
  | [], set => set
  | e :: r, set => dirPaths opt cur r (nodePaths opt cur e set)
end

/-- read_archive_data_from_directory.rs:15-18: `read` is `std::fs::read` -/
def readAll (read : String → Option Bytes) : List (String × Unit) → Res (List (String × Bytes))
  | [] => .ok []
  | e :: r => (Res.ofOption (read e.1)).bind fun d => (readAll read r).map fun l => (e.1, d) :: l

/-- read_archive_data_from_directory.rs:7-21 of a directory that can be listed -/
def readDirectory {T H : Type} (F : Fns T H) (opt : Opts) (read : String → Option Bytes) (path : String) (entries : List Node) :
    Res (Data T H) :=
  (readAll read (dirPaths opt path entries [])).map (archiveAll F)

end Verif.Archive
