import Verif.Model.History
import Verif.Model.ApplyItems
/-!
# History files as bytes, and interrupted writes

The functions of `Model/History.lean` once more, on a directory of which the files are byte strings: the statistics are encoded
at the head of the file (`Model/Phase.lean`) and the diff is an encoded sequence of values (`Model/Codec.lean`).

`plan` is what a save does before it writes its file; what it reads goes through two functions, `stat` (the statistics of a file)
and `comp` (the object composed of a list of files). A file is written in order, from the start, into a new or emptied file, so a
write that is interrupted (the process dies, the disk is full) leaves a prefix.
-/
namespace Verif.History
open VarInt FileName FileHistory Phase Codec

section
variable {S : Type}

/-- The source object, the diff as values (get_diff.rs:31-35 `get_kvals`), and reading and applying values
(apply_diff.rs:14-16). -/
structure KOps (S : Type) where
  src : S
  diff : S → S → Res (List KVal)
  app : S → List KVal → Res S

/-- get_diff.rs:26-29 `get_diff` encodes the values; apply_diff.rs:12-18 and dochy_diff.rs:34-37 `prepare` decode all of what
dochy_diff.rs:28-32 `read_value` (`read_to_end`) gave. -/
def KOps.ops (k : KOps S) : Ops S where
  src := k.src
  diff a b := (k.diff a b).bind encodeVals
  app s d := (decodeVals d).bind fun r => k.app s r.1

/-! ## What a save does before it writes -/

/-- derive_impl.rs:27-57 `derive_impl`: name and contents of the new file, and the result -/
def planDerive (o : Opts) (shift : Shift) (ops : Ops S) (tag : Option Bytes) (s : S) (h : FileHistory.History)
    (stat : Bytes → Res Data) (comp : List Props → Res S) (from_ : Props) : Res (Bytes × File × Res Props) :=
  match h.newest with
  | none => .err
  | some np =>
    let ctl := if np = from_ then np.control else np.control + 1
    (stat from_.filename).bind fun data =>
    (calcNextPhase o shift data).bind fun next =>
    (ancestorsRev h from_ o.maxPhase o.cumulative.isSome).bind fun rev =>
    (createDependencies rev.reverse next ctl tag o.maxPhase o.cumulative.isSome).bind fun dp =>
    (comp dp.1).bind fun composed =>
    (ops.diff composed s).bind fun d =>
    .ok (dp.2.filename, (data.popAndPush next d.length, d), .ok dp.2)

/-- write_phase_0.rs:20-34 `write_phase_0` -/
def planNew (ops : Ops S) (tag : Option Bytes) (control : Nat) (s : S) (comp : List Props → Res S) :
    Res (Bytes × File × Res Props) :=
  let name := calcFilename tag control none [0]
  (comp []).bind fun initial =>
  (ops.diff initial s).bind fun d =>
  .ok (name, (Data.new d.length, d), (analyze name).bind fun | some p => .ok p | none => .err)

/-- save_history_file.rs:92-93 -/
def baseFor (base : Option (Nat × Props)) (rid : Nat) : Option Props :=
  match base with
  | some (r, p) => if r = rid then some p else none
  | none => none

/-- save_history_file.rs:78-116 `save_history_file_impl` -/
def plan (o : Opts) (shift : Shift) (ops : Ops S) (names : List Bytes) (base : Option (Nat × Props))
    (stat : Bytes → Res Data) (comp : List Props → Res S) (rid : Nat) (tag : Option Bytes) (s : S) :
    Res (Bytes × File × Res Props) :=
  (createHistory names .empty).bind fun h =>
  match baseFor base rid, h.newest with
  | some b, some newest =>
    match fromFile o h b newest with
    | none => .err
    | some f => planDerive o shift ops tag s h stat comp f
  | _, _ => planNew ops tag (newControl h) s comp

/-! ## Directories of byte strings -/

/-- The files of the hash directory and their contents, in the order in which `read_dir` lists them. -/
abbrev BDir := List (Bytes × Bytes)

/-- `File::open` -/
def BDir.read : BDir → Bytes → Option Bytes
  | [], _ => none
  | (n, c) :: d, name => if n = name then some c else BDir.read d name

/-- `File::create` and writing -/
def BDir.write : BDir → Bytes → Bytes → BDir
  | [], name, c => [(name, c)]
  | (n, b) :: d, name, c => if n = name then (n, c) :: d else (n, b) :: BDir.write d name c

/-- derive_impl.rs:36-40 -/
def bstat (dir : BDir) (name : Bytes) : Res Data :=
  match dir.read name with
  | none => .err
  | some c => (readPhaseFile c).map (·.1)

/-- common/apply_items.rs:10-20 with open_diff_file_without_metadata.rs:6-12: the statistics at the head are decoded and
dropped. -/
def bcompose (ops : Ops S) (dir : BDir) : List Props → S → Res S
  | [], s => .ok s
  | p :: rest, s =>
    match dir.read p.filename with
    | none => .err
    | some c => (decodeVals c).bind fun r => (ops.app s r.2).bind (bcompose ops dir rest)

/-- The directory, and the identity and file of `CurrentRootObjInfo`. -/
structure BSt where
  dir : BDir
  base : Option (Nat × Props)

/-- create_file_history.rs:7-20: only the names are read. -/
def BSt.history (st : BSt) : Res FileHistory.History := createHistory (st.dir.map (·.1)) .empty

/-- save_history_file.rs:78-116 up to the writing -/
def bplan (o : Opts) (shift : Shift) (ops : Ops S) (st : BSt) (rid : Nat) (tag : Option Bytes) (s : S) :
    Res (Bytes × File × Res Props) :=
  plan o shift ops (st.dir.map (·.1)) st.base (bstat st.dir) (fun l => bcompose ops st.dir l ops.src) rid tag s

/-- save_history_file.rs:78-116 with write_phase_file.rs:6-13 -/
def bsave (o : Opts) (shift : Shift) (ops : Ops S) (st : BSt) (rid : Nat) (tag : Option Bytes) (s : S) : BSt × Res Props :=
  match (bplan o shift ops st rid tag s).bind fun x => (phaseFile x.2.1.1 x.2.1.2).map fun c => (x.1, c, x.2.2) with
  | .ok (name, c, r) => (⟨st.dir.write name c, match r with | .ok p => some (rid, p) | _ => st.base⟩, r)
  | .err => (st, .err)
  | .panic => (st, .panic)

/-- What is left when the writing of the contents `c` of the file `name` ends after `n` bytes, by an error (then the current
object is not changed). If the process died, the current object is forgotten too. -/
def interrupted (st : BSt) (name c : Bytes) (n : Nat) : BSt := ⟨st.dir.write name (c.take n), st.base⟩

/-- load.rs:12-32 `load` and load_history_file.rs:37-58, with one thread -/
def bload (o : Opts) (ops : Ops S) (dir : BDir) (h : FileHistory.History) (p : Props) : Res S :=
  (analyze p.filename).bind fun
  | none => .err
  | some q =>
    (ancestorsRev h q o.maxPhase o.cumulative.isSome).bind fun rev => bcompose ops dir rev.reverse ops.src

/-- load_history_file.rs:16-35 `load_history_file` -/
def bloadFile (o : Opts) (ops : Ops S) (st : BSt) (h : FileHistory.History) (p : Props) (rid : Nat) : BSt × Res S :=
  match bload o ops st.dir h p with
  | .ok s => (⟨st.dir, some (rid, p)⟩, .ok s)
  | .err => (st, .err)
  | .panic => (st, .panic)

/-! ## Loading with worker threads -/

/-- open_diff_file_without_metadata.rs:6-12 and dochy_diff.rs:24-28 `read_value`, as called by the reading thread; `none`: an
`unwrap` of apply_items.rs:34-35 fails -/
def openOne (dir : BDir) (p : Props) : Option Bytes :=
  match dir.read p.filename with
  | none => none
  | some c => match decodeVals c with
    | .ok r => some r.2
    | _ => none

/-- apply_items.rs:32-42: what the reading thread gets from the files of a chain -/
def openAll (dir : BDir) (l : List Props) : List (Option Bytes) := l.map (openOne dir)

/-- Reading values and applying what was read: the two halves of `app` (apply_diff.rs:20-27). -/
structure Halves (S R : Type) where
  read : List KVal → Res R
  app : S → R → Res S

/-- The functions that `apply_items` calls: dochy_diff.rs:34-37 `prepare`, and `apply_root_diff_r`. -/
def Halves.fns {R : Type} (x : Halves S R) : ApplyItems.Fns S Bytes R where
  prep d := (decodeVals d).bind fun r => x.read r.1
  app := x.app

end
end Verif.History
