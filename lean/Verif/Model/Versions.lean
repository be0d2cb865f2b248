import Verif.Model.History
/-!
# History files of several source versions

Model of `dochy_fs/src/imp/history/pub_fn/{list_histories,load_history_file}.rs`, `file_hist/file_histories.rs:11-36` and
`file_hist/history_file_data.rs`: a history directory with one folder for each source version.

* The folders are listed in the order of their times (`get_hash_times`, `Model/HashDir.lean`).
* The cache is left out: that it does not change results is C36.
* The source objects of other versions come from the archives in their folders (`archived`); the objects of all versions are of one
  type, and diffs are applied to them in the same way.
-/
namespace Verif.History
open VarInt FileName FileHistory Phase

/-- A history directory, and the program that uses it. -/
structure Project (S : Type) where
  /-- the hash of the current source: history_cache_item.rs:30 and dochy_cache.rs:17 (history_cache_map.rs:50 takes the one from the
  other) -/
  cur : Nat
  /-- dochy_cache.rs:16 `src_root` is `ops.src` -/
  ops : Ops S
  /-- the folders -/
  dirs : List (Nat × Dir)
  /-- dochy_cache.rs:26 `archive_file_to_root(get_archive_path2(history_dir, hash))` -/
  archived : Nat → Res S
  /-- `adjust_versions` -/
  adjust : S → S → Bool → Res S

section
variable {S : Type}

/-- hash_dir_path.rs:7-10; there are no files in a folder that does not exist. -/
def dirOf : List (Nat × Dir) → Nat → Dir
  | [], _ => []
  | (h, d) :: r, hash => if h = hash then d else dirOf r hash

/-- `HistoryFileData` (history_file_data.rs:8-12) -/
structure FileData where
  hash : Nat
  history : FileHistory.History
  props : Props

/-- list_histories.rs:12-17: folders that give an error are left out -/
def histories : List (Nat × Dir) → Res (List (Nat × FileHistory.History))
  | [] => .ok []
  | (hash, d) :: r =>
    match createHistory (d.map (·.1)) .empty with
    | .ok h => (histories r).map ((hash, h) :: ·)
    | .err => histories r
    | .panic => .panic

/-- file_histories.rs:19-25 `list_files` -/
def listData (l : List (Nat × FileHistory.History)) : List FileData :=
  l.flatMap fun x => x.2.listFiles.map fun p => ⟨x.1, x.2, p⟩

/-- file_histories.rs:28-32 `get_newest_file_data` -/
def newestData (l : List (Nat × FileHistory.History)) : Option FileData :=
  match l.getLast? with
  | some x => x.2.newest.map fun p => ⟨x.1, x.2, p⟩
  | none => none

/-- dochy_cache.rs:24-30 `get_or_create_hash_root` -/
def hashRoot (P : Project S) (hash : Nat) : Res S := if P.cur ≠ hash then P.archived hash else .ok P.ops.src

/-- load_history_file.rs:36-57 `load_impl` -/
def loadImpl (o : Opts) (P : Project S) (hash : Nat) (p : Props) (h : FileHistory.History) (validation : Bool) : Res S :=
  if P.cur ≠ hash then
    (hashRoot P hash).bind fun root =>
    (load o { P.ops with src := root } (dirOf P.dirs hash) h p).bind fun loaded =>
    P.adjust P.ops.src loaded validation
  else load o P.ops (dirOf P.dirs hash) h p

/-- load_history_file.rs:16-34 `load_history_file`: the hash is the one of the current source -/
def loadHistoryFile (o : Opts) (P : Project S) (p : Props) (h : FileHistory.History) (validation : Bool) : Res S :=
  loadImpl o P P.cur p h validation

/-- load_history_file.rs:59-63 `load_history_file_data` -/
def loadData (o : Opts) (P : Project S) (d : FileData) (validation : Bool) : Res S :=
  loadHistoryFile o P d.props d.history validation

end
end Verif.History
