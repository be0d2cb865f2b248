import Verif.Model.HashDir
/-!
# Save files and the archive of their source

Model of `dochy_fs/src/imp/filesys/{save_dochy_file,load_dochy_file,remove_dochy_file,save_dir_info,save_cache_map}.rs`,
`dochy_fs/src/imp/common/path/{prepare_hash_dir,remove_hash_dir,reserved_filename}.rs` and
`dochy_fs/src/imp/common/current_src/{current_src,current_src_map}.rs`.

The disk holds the source (a value of type `V`) and the folders of the save directory. What a save writes is a list of actions,
so that a crash is: some actions are done, the next one in part. `File::create` empties the file, the bytes are written in order
from the start.

Simplified: one save directory, which exists; no failure of the operating system but the ones that the functions of `FsOps`
return; a name of a file is a single component of a path. The mutex of the directory (save_cache_map.rs:57-60) makes the saves of
one process follow each other, so a save is one step.
-/
namespace Verif.Filesys
open Codec VarInt HashDir

section
variable {V S : Type}

/-- The functions of other crates. `V` is the type of the source on the disk, `S` that of root objects. -/
structure FsOps (V S : Type) where
  /-- json_dir_to_root.rs:16-23 or archive_file_to_root.rs:23-26, both without validation (current_src_map.rs:26-36) -/
  root : V → Res (S × Nat)
  /-- current_src.rs:25-37 `create_archive`: what is written -/
  archive : V → Res Bytes
  /-- archive_file_to_root.rs:10-12 -/
  read : Bytes → Res (S × Nat)
  /-- `validate_root(&root, false)` -/
  check : S → Res Unit
  /-- get_diff.rs:31-35 `get_kvals` -/
  diff : S → S → Res (List KVal)
  /-- apply_diff.rs:14-16 -/
  app : S → List KVal → Res S
  /-- `adjust_versions(new, old, validation)` -/
  adjust : S → S → Bool → Res S

/-- reserved_filename.rs:4 -/
def archiveName : Bytes := strBytes "src.archive"

/-- reserved_filename.rs:7 -/
def timeName : Bytes := strBytes "created_time.dat"

/-- reserved_filename.rs:9-11 `is_reserved_filename` -/
def isReserved (name : Bytes) : Bool := name == archiveName || name == timeName

/-- A folder: the contents of its files. -/
abbrev Folder := Bytes → Option Bytes

/-- The source, and the folders of the save directory by their names. -/
structure Disk (V : Type) where
  src : V
  dirs : Bytes → Option Folder

/-- the contents of a file -/
def Disk.read (d : Disk V) (folder name : Bytes) : Option Bytes := (d.dirs folder).bind fun f => f name

/-! ## Writing -/

/-- `create_dir`, or `File::create` and `write_all` -/
inductive Act where
  | mkdir (folder : Bytes)
  | put (folder name bytes : Bytes)

def Act.run (d : Disk V) : Act → Disk V
  | .mkdir folder => ⟨d.src, fun x => if x = folder then some fun _ => none else d.dirs x⟩
  | .put folder name bytes => ⟨d.src, fun x => if x = folder then (d.dirs x).map fun f y => if y = name then some bytes else f y
      else d.dirs x⟩

def runAll (d : Disk V) (acts : List Act) : Disk V := acts.foldl Act.run d

/-- What is done of the actions if the process dies: `k` of them, and of the next one, if it writes a file, `n` bytes. -/
def cut (acts : List Act) (k n : Nat) : List Act :=
  acts.take k ++ match acts[k]? with
    | some (.put folder name bytes) => [.put folder name (bytes.take n)]
    | _ => []

/-- prepare_hash_dir.rs:21-31 `get_or_make_hash_dir_path`: the actions, and whether it succeeds -/
def makeDir (now : Time) (folder : Bytes) (d : Disk V) : List Act × Res Unit :=
  match d.dirs folder with
  | some _ => ([], .ok ())
  | none =>
    match createTimeDat now with
    | .ok b => ([.mkdir folder, .put folder timeName b], .ok ())
    | e => ([.mkdir folder, .put folder timeName []], e.map fun _ => ())

/-- prepare_hash_dir.rs:14-17: `File::create` comes before `create_archive`, so an error of the latter leaves an empty file -/
def makeArchive (o : FsOps V S) (folder : Bytes) (d : Disk V) : List Act × Res Unit :=
  match d.read folder archiveName with
  | some _ => ([], .ok ())
  | none =>
    match o.archive d.src with
    | .ok b => ([.put folder archiveName b], .ok ())
    | e => ([.put folder archiveName []], e.map fun _ => ())

/-- prepare_hash_dir.rs:11-19 `prepare_hash_dir` -/
def prepare (o : FsOps V S) (now : Time) (folder : Bytes) (d : Disk V) : List Act × Res Unit :=
  let (a, r) := makeDir now folder d
  match r with
  | .ok _ => let (b, r) := makeArchive o folder (runAll d a); (a ++ b, r)
  | e => (a, e)

/-- save_dochy_file.rs:12-30 `save_dochy_file`; `info` is the hash and the root object that `SaveDirInfo` took from the source -/
def save (o : FsOps V S) (info : Nat × S) (now : Time) (name : Bytes) (root : S) (overwrite : Bool) (d : Disk V) :
    List Act × Res Unit :=
  let folder := hashToFolderName info.1
  let (a, r) := prepare o now folder d
  match r with
  | .ok _ =>
    if ((runAll d a).read folder name).isSome && overwrite == false then (a, .err)
    else
      match (o.diff info.2 root).bind encodeVals with
      | .ok b => (a ++ [.put folder name b], .ok ())
      | e => (a, e.map fun _ => ())
  | e => (a, e)

/-! ## Loading and removing -/

/-- load_dochy_file.rs:20-29: the object that the diff is applied to -/
def loadBase (o : FsOps V S) (info : Nat × S) (folder : Bytes) (hash : Nat) (validation : Bool) (d : Disk V) : Res S :=
  if info.1 = hash then .ok info.2
  else
    match d.read folder archiveName with
    | none => .err
    | some b => (o.read b).bind fun r => if validation then (o.check r.1).map fun _ => r.1 else .ok r.1

/-- load_dochy_file.rs:11-39 `load_dochy_file`, of a path given as folder and name -/
def load (checked : Bool) (o : FsOps V S) (info : Nat × S) (folder name : Bytes) (validation : Bool) (d : Disk V) : Res S :=
  (folderNameToHash checked folder).bind fun hash =>
  match hash with
  | none => .err
  | some hash =>
    (loadBase o info folder hash validation d).bind fun root =>
    match d.read folder name with
    | none => .err
    | some c =>
      (decodeVals c).bind fun r =>
      (o.app root r.1).bind fun x =>
      if info.1 ≠ hash then o.adjust info.2 x validation else .ok x

/-- remove_dochy_file.rs:7-15 `remove_dochy_file` -/
def remove (hash : Nat) (name : Bytes) (d : Disk V) : Res (Disk V) :=
  if isReserved name = false then
    match d.read (hashToFolderName hash) name with
    | none => .err
    | some _ => .ok ⟨d.src, fun x => if x = hashToFolderName hash then (d.dirs x).map fun f y => if y = name then none else f y
        else d.dirs x⟩
  else .err

/-- The folder of `hash` with only the files for which `gone` is false -/
def removeSome (hash : Nat) (gone : Bytes → Bool) (d : Disk V) : Disk V :=
  ⟨d.src, fun x => if x = hashToFolderName hash then (d.dirs x).map fun f y => if gone y then none else f y else d.dirs x⟩

/-- remove_hash_dir.rs:6-8 `remove_hash_dir`. `remove_dir_all` removes the files in any order and then the folder; if it is
interrupted, what remains is a `removeSome`. -/
def removeDir (hash : Nat) (d : Disk V) : Res (Disk V) :=
  match d.dirs (hashToFolderName hash) with
  | none => .err
  | some _ => .ok ⟨d.src, fun x => if x = hashToFolderName hash then none else d.dirs x⟩

end
end Verif.Filesys
