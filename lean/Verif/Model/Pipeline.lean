import Verif.Model.Archive
import Verif.Model.Source
import Verif.Model.Json5
import Verif.Model.Adjust
import Verif.Model.DiffNamed
import Verif.Model.Filesys
/-!
# From the bytes of the source to the object, and to save files

The models of the single crates put together: `dochy_core/src/imp/json_to_rust/roots/*.rs` on files of bytes,
`dochy_fs/src/imp/common/current_src/{current_src,current_src_map}.rs`, and the functions that
`dochy_fs/src/imp/filesys/{save_dochy_file,load_dochy_file}.rs` call.

Simplified: the threads are replaced by their results (C46); a panic in a thread is a panic of the whole.
-/
namespace Verif.Pipeline
open Codec VarInt Source Core

/-- library code: the order of iteration of hash maps, the classes of characters, floats, compression and the hash function -/
structure Lib where
  env : Env
  uni : Json5.Uni
  /-- `f64::from_str` -/
  pf : List Char → Option UInt64
  /-- `u32 as f64` -/
  fromU32 : Nat → UInt64
  float : Compaction.FloatOps
  compress : Bytes → Option Bytes
  decompress : Bytes → Option Bytes
  /-- MetroHash128 of all the bytes -/
  hash : Bytes → Nat
  /-- whether two members share their memory (diff_value.rs), which the code asks before it compares -/
  ptr : Diff.Ptr

/-! ## Files -/

/-- the parts between slashes -/
def parts : List Char → List Char → List (List Char)
  | acc, [] => [acc.reverse]
  | acc, c :: r => if c = '/' then acc.reverse :: parts [] r else parts (c :: acc) r

/-- `Path::file_name`: the last component; `.` is not one, and `..` is no name -/
def fileName (path : String) : Option (List Char) :=
  match ((parts [] path.toList).filter fun p => p ≠ [] ∧ p ≠ ['.']).getLast? with
  | some ['.', '.'] => none
  | x => x

/-- the stem of a name: what comes before the last dot, unless nothing does -/
def stemOf (name : List Char) : List Char :=
  match (name.reverse.dropWhile fun c => c ≠ '.') with
  | _ :: x :: r => (x :: r).reverse
  | _ => name

/-- `Path::file_stem` -/
def fileStem (path : String) : Option String := (fileName path).map fun n => String.ofList (stemOf n)

/-- json_file_to_rust.rs:9-32 `json_file_to_rust` with mod.rs:24-42, from the bytes of the file -/
def converter (L : Lib) (path : String) (dat : Bytes) : Res FileItem :=
  match strOfBytes dat, fileStem path with
  | some s, some stem =>
    if stem = "root" then (Json5.fromStr L.uni L.pf L.fromU32 s.toList).bind fun v => fileItem L.env stem v
    else
      match nameOf stem with
      | some (.name _ _) => (Json5.fromStr L.uni L.pf L.fromU32 s.toList).bind fun v => fileItem L.env stem v
      | _ => .err
  | _, _ => .err

def Lib.fns (L : Lib) : Archive.Fns (Res FileItem) Nat := ⟨L.compress, L.decompress, converter L, L.hash⟩

/-! ## The root object of an archive -/

/-- what the files were converted to, in the order of their paths -/
abbrev Tree := List (String × (Res FileItem × Bytes))

/-- archive_data_to_root.rs:20-42: the first root is taken out -/
def takeRootR : List (Res FileItem) → Option (Root × List (Res FileItem))
  | [] => none
  | .ok (.root r) :: l => some (r, l)
  | x :: l => (takeRootR l).map fun p => (p.1, x :: p.2)

/-- archive_data_to_root.rs:45-55: the others are members -/
def membersR : List (Res FileItem) → Res (List Member)
  | [] => .ok []
  | .ok (.member n v s) :: r => (membersR r).map ((n, v, s) :: ·)
  | .ok (.root _) :: _ => .err
  | .err :: _ => .err
  | .panic :: _ => .panic

/-- archive_data_to_root.rs:16-59 `archive_data_to_root_with_hash`, without the hash -/
def treeToRoot (L : Lib) (t : Tree) : Res Root :=
  match takeRootR (t.map fun e => e.2.1) with
  | none => .err
  | some (root, rest) => (membersR rest).bind fun ms => constructRoot L.env root ms

/-- archive_file_to_root.rs:10-17 `read_archive_to_root_with_hash` without validation -/
def archiveRoot (L : Lib) (b : Bytes) : Res (Root × Nat) :=
  (Archive.readArchive L.fns b).bind fun d => (treeToRoot L d.1.btree).map fun r => (r, d.1.hash)

/-- lib.rs:10-15 `JSON_ARC_OPT` -/
def jsonOpts : Archive.Opts := ⟨["json5"], false⟩

/-- `std::fs::read` of a file in the folder `path` -/
def readIn (path : String) (es : List Archive.Node) (p : String) : Option Bytes :=
  es.findSome? fun e =>
    match e with
    | .file n d => if Archive.join path n = p then some d else none
    | _ => none

/-- json_dir_to_root.rs:28-36 `json_dir_to_archive`: the first error is an error of the whole -/
def checkTree (t : Tree) : Res Unit := t.foldr (fun e r => (e.2.1.map fun _ => ()).bind fun _ => r) (.ok ())

/-- json_dir_to_root.rs:13-20 `json_dir_to_root_with_hash` without validation, of the folder `path` with these entries -/
def dirRoot (L : Lib) (path : String) (es : List Archive.Node) : Res (Root × Nat) :=
  (Archive.readDirectory L.fns jsonOpts (readIn path es) path es).bind fun d =>
  (checkTree d.btree).bind fun _ => (treeToRoot L d.btree).map fun r => (r, d.hash)

/-- archive_src_dir.rs:7-14 `archive_src_dir` -/
def archiveDir (L : Lib) (path : String) (es : List Archive.Node) : Res Bytes :=
  (Archive.readDirectory L.fns jsonOpts (readIn path es) path es).bind fun d => Archive.writeArchive (Archive.messages L.fns d)

/-! ## Save files -/

/-- current_src.rs:10-14 `CurrentSrc`, with what is on the disk -/
inductive Src where
  | dir (path : String) (es : List Archive.Node)
  | archive (b : Bytes)

/-- current_src_map.rs:26-36 `create_root_and_hash` -/
def Src.root (L : Lib) : Src → Res (Root × Nat)
  | .dir p es => dirRoot L p es
  | .archive b => archiveRoot L b

/-- current_src.rs:25-37 `create_archive` -/
def Src.toArchive (L : Lib) : Src → Res Bytes
  | .dir p es => archiveDir L p es
  | .archive b => .ok b

/-- get_diff.rs:30-34 `get_kvals`; the writer follows the definitions as deep as they go, `n` is that depth -/
def kvals (L : Lib) (n : Nat) (from' to' : Root) : Res (List KVal) :=
  (Named.nRootDiff n L.ptr from'.defs from'.table from'.sabun to'.sabun).bind fun d => Diff.writeRoot L.float n (Named.rootL n from'.table) d

/-- apply_diff.rs:12-18 `apply_diff`, after `decode` -/
def applyVals (L : Lib) (n : Nat) (r : Root) (v : List KVal) : Res Root :=
  (Diff.readRoot L.float n (Named.rootL n r.table) v).bind fun q => (Named.nApplyRoot n r.table r.sabun q.1).map fun s => { r with sabun := s }

/-- version_adjuster.rs:18-84 `adjust_versions` on objects with ids: definitions and table are those of the new version -/
def adjust (new old : Root) (validation : Bool) : Res Root :=
  (adjustVersions new.erase old.erase validation).map fun r => { new with sabun := r.sabun }

mutual
/-- how deep the tables of a member are nested -/
def metaDepth : Meta → Nat
  | .param _ _ => 0
  | .mlist i _ => tableDepth i + 1
  | .optMil i _ => tableDepth i + 1
/-- how deep the tables are nested -/
def tableDepth : List (Option (String × Meta)) → Nat
  | [] => 0
  | none :: r => tableDepth r
  | some (_, m) :: r => max (metaDepth m) (tableDepth r)
end

/-- what `save_dochy_file` and `load_dochy_file` call -/
def ops (L : Lib) : Filesys.FsOps Src Root where
  root := Src.root L
  archive := Src.toArchive L
  read := archiveRoot L
  check r := validateRoot r.erase false
  diff a b := kvals L (tableDepth a.table) a b
  app a v := applyVals L (tableDepth a.table) a v
  adjust := adjust

end Verif.Pipeline
