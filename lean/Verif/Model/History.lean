import Verif.Model.FileHistory
import Verif.Model.Phase
/-!
# Saving and loading history files

Model of `dochy_fs/src/imp/history/{fs,pub_fn}/*` and `file_hist/ancestors.rs`, for one hash directory and without the
cache (the cache is the subject of `Model/Cache.lean`).

* The objects and their diffs are abstract (`Ops`); the diff is a byte string.
* A file holds the statistics and the diff. Their serialisation is the subject of `Model/Phase.lean`.
* The identity of a root object (`root.id()`, compared with `Weak::ptr_eq`) is a number chosen by the caller.
* `prepare_hash_dir` (which creates the directory and `src.archive`) is not modelled here.
-/
namespace Verif.History
open VarInt FileName FileHistory Phase

/-- The operations of `DiffSrc`/`DiffValue` (diff_and_cache/*): the source object, making and writing a diff of the second
object against the first one, reading and applying a diff. -/
structure Ops (S : Type) where
  src : S
  diff : S → S → Res Bytes
  app : S → Bytes → Res S

/-- A history file: statistics and diff. -/
abbrev File := Data × Bytes

/-- The files of the hash directory, in the order in which `read_dir` lists them. -/
abbrev Dir := List (Bytes × File)

/-- `File::open` -/
def Dir.read : Dir → Bytes → Option File
  | [], _ => none
  | (n, f) :: d, name => if n = name then some f else Dir.read d name

/-- `File::create` and writing: an existing file is replaced. -/
def Dir.write : Dir → Bytes → File → Dir
  | [], name, f => [(name, f)]
  | (n, g) :: d, name, f => if n = name then (n, f) :: d else (n, g) :: Dir.write d name f

/-! ## ancestors.rs -/

/-- ancestors.rs:106-125, the siblings `ind = k - 1, …, 0` of a cumulative phase -/
def siblings (h : FileHistory.History) (base : List Nat) : Nat → Props → Res (List Props)
  | 0, _ => .ok []
  | k + 1, p =>
    match h.getProps p.prevCtl (base ++ [k]) with
    | some q => (siblings h base k q).map (q :: ·)
    | none => .err

/-- ancestors.rs:127-139, the loop over the parents. Every parent has a shorter order, so the length of the order
bounds the number of rounds. -/
def parents (h : FileHistory.History) : Nat → Props → Res (List Props)
  | 0, _ => .ok []
  | fuel + 1, p =>
    if 2 ≤ p.order.length then
      match h.getParent p with
      | some q => (parents h fuel q).map (q :: ·)
      | none => .err
    else .ok []

/-- ancestors.rs:94-141 `create_ancestors_rev` -/
def ancestorsRev (h : FileHistory.History) (p : Props) (maxPhase : Nat) (cumulative : Bool) : Res (List Props) :=
  if p.order.length = 0 then .ok [p]
  else
    (if p.order.length - 1 = maxPhase ∧ cumulative = true then siblings h (orderBase p) (orderLast p) p
      else .ok []).bind fun sib =>
    (parents h p.order.length (sib.getLastD p)).bind fun par => .ok (p :: (sib ++ par))

/-- `*order.last_mut().unwrap() += 1` -/
def incLast (o : List Nat) : List Nat := o.dropLast ++ [o.getLastD 0 + 1]

/-- ancestors.rs:66-79: order and `prev_ctl` of the next file (out of range slices and indices panic) -/
def nextOrder (anc : List Props) (last : Props) (next maxPhase : Nat) : Res (List Nat × Nat) :=
  if last.order.length - 1 < maxPhase then .ok (last.order ++ [0], last.control)
  else if next = maxPhase then .ok (incLast last.order, last.control)
  else if last.order.length < next + 1 then .panic
  else
    match anc[next]? with
    | some a => .ok (incLast (last.order.take (next + 1)), a.prevCtl)
    | none => .panic

/-- ancestors.rs:54-91 `create_dependencies` -/
def createDependencies (anc : List Props) (next ctl : Nat) (tag : Option Bytes) (maxPhase : Nat) (cumulative : Bool) :
    Res (List Props × Props) :=
  match anc.getLast? with
  | none => .err
  | some last =>
    (nextOrder anc last next maxPhase).bind fun op =>
    let props : Props := ⟨ctl, op.2, op.1, tag⟩
    if next = maxPhase ∧ cumulative = true then .ok (anc, props)
    else if next ≤ anc.length then .ok (anc.take next, props)
    else .err

/-! ## Reading and writing -/

section
variable {S : Type}

/-- common/apply_items.rs:10-20 with open_diff_file_without_metadata.rs: open the files one by one and apply them. -/
def compose (ops : Ops S) (dir : Dir) : List Props → S → Res S
  | [], s => .ok s
  | p :: rest, s =>
    match dir.read p.filename with
    | none => .err
    | some f => (ops.app s f.2).bind (compose ops dir rest)

/-- fs/derive_impl.rs:15-64 `derive_impl`: the new contents of the directory and the new file. -/
def deriveImpl (o : Opts) (shift : Shift) (ops : Ops S) (tag : Option Bytes) (s : S) (h : FileHistory.History) (dir : Dir)
    (from_ : Props) : Res (Dir × Props) :=
  match h.newest with
  | none => .err
  | some np =>
    let ctl := if np = from_ then np.control else np.control + 1
    match dir.read from_.filename with
    | none => .err
    | some f =>
      (calcNextPhase o shift f.1).bind fun next =>
      (ancestorsRev h from_ o.maxPhase o.cumulative.isSome).bind fun rev =>
      (createDependencies rev.reverse next ctl tag o.maxPhase o.cumulative.isSome).bind fun dp =>
      (compose ops dir dp.1 ops.src).bind fun composed =>
      (ops.diff composed s).bind fun d =>
      .ok (dir.write dp.2.filename (f.1.popAndPush next d.length, d), dp.2)

/-- fs/write_phase_0.rs:12-35 `write_phase_0`: the file is written before its name is parsed. -/
def writePhase0 (ops : Ops S) (tag : Option Bytes) (control : Nat) (s : S) (dir : Dir) : Dir × Res Props :=
  let name := calcFilename tag control none [0]
  match ops.diff ops.src s with
  | .ok d =>
    (dir.write name (Data.new d.length, d),
      (analyze name).bind fun | some p => .ok p | none => .err)
  | .err => (dir, .err)
  | .panic => (dir, .panic)

/-- The directory, and the identity and file of `CurrentRootObjInfo`. -/
structure St where
  dir : Dir
  base : Option (Nat × Props)

/-- create_file_history.rs:7-20 -/
def St.history (st : St) : Res FileHistory.History := createHistory (st.dir.map (·.1)) .empty

/-- save_history_file.rs:92-93: the base file, if the object saved is the current one -/
def St.baseFor (st : St) (rid : Nat) : Option Props :=
  match st.base with
  | some (r, p) => if r = rid then some p else none
  | none => none

/-- save_history_file.rs:96-101: the file to derive from -/
def fromFile (o : Opts) (h : FileHistory.History) (b newest : Props) : Option Props :=
  if phase b = o.maxPhase ∧ b ≠ newest then h.getParent b else some b

/-- start_new.rs:27-40, first.rs:10-14 -/
def newControl (h : FileHistory.History) : Nat :=
  match h.newest with
  | some n => n.control + 1
  | none => 0

/-- save_history_file.rs:103-106 -/
def saveDerived (o : Opts) (shift : Shift) (ops : Ops S) (st : St) (h : FileHistory.History) (rid : Nat)
    (tag : Option Bytes) (s : S) (b newest : Props) : St × Res Props :=
  match fromFile o h b newest with
  | none => (st, .err)
  | some f =>
    match deriveImpl o shift ops tag s h st.dir f with
    | .ok (dir, p) => (⟨dir, some (rid, p)⟩, .ok p)
    | .err => (st, .err)
    | .panic => (st, .panic)

/-- save_history_file.rs:112-114 -/
def saveNew (ops : Ops S) (st : St) (h : FileHistory.History) (rid : Nat) (tag : Option Bytes) (s : S) : St × Res Props :=
  match writePhase0 ops tag (newControl h) s st.dir with
  | (dir, .ok p) => (⟨dir, some (rid, p)⟩, .ok p)
  | (dir, .err) => (⟨dir, st.base⟩, .err)
  | (dir, .panic) => (⟨dir, st.base⟩, .panic)

/-- save_history_file.rs:78-116 `save_history_file_impl` -/
def save (o : Opts) (shift : Shift) (ops : Ops S) (st : St) (rid : Nat) (tag : Option Bytes) (s : S) : St × Res Props :=
  match st.history with
  | .err => (st, .err)
  | .panic => (st, .panic)
  | .ok h =>
    match st.baseFor rid, h.newest with
    | some b, some newest => saveDerived o shift ops st h rid tag s b newest
    | _, _ => saveNew ops st h rid tag s

/-- load.rs:12-32 `load` and load_history_file.rs:37-58 -/
def load (o : Opts) (ops : Ops S) (dir : Dir) (h : FileHistory.History) (p : Props) : Res S :=
  (analyze p.filename).bind fun
  | none => .err
  | some q =>
    (ancestorsRev h q o.maxPhase o.cumulative.isSome).bind fun rev => compose ops dir rev.reverse ops.src

/-- load_history_file.rs:16-35 `load_history_file`; `rid` is the identity of the new object. -/
def loadFile (o : Opts) (ops : Ops S) (st : St) (h : FileHistory.History) (p : Props) (rid : Nat) : St × Res S :=
  match load o ops st.dir h p with
  | .ok s => (⟨st.dir, some (rid, p)⟩, .ok s)
  | .err => (st, .err)
  | .panic => (st, .panic)

end
end Verif.History
