import Verif.Model.History
/-!
# Saving and loading with the phase cache

Model of `dochy_fs/src/imp/history/diff_and_cache/dochy_cache.rs` and of the functions of `Model/History.lean` that use it.

* The paths are `history_hash_dir.join(name)` for one directory: a path is a file name.
* `mt_save`/`mt_load` only choose between `apply_items_st` and `apply_items_mt`; that both do the same is C37
  (`Model/ApplyItems.lean`). Here the files are read one by one.
* The cache is a `&mut` argument: it keeps its changes when an operation fails.
-/
namespace Verif.History
open VarInt FileName FileHistory Phase

section
variable {S : Type}

/-- dochy_cache.rs:19 `phase_cache` -/
abbrev Cache (S : Type) := BMap (Bytes × S)

/-- dochy_cache.rs:100-113 `remove_upper_phase_cache`: entries are removed from the end while their key is at least `phase`. -/
def removeUpper (c : Cache S) (phase : Nat) : Cache S := (c.reverse.dropWhile fun e => decide (phase ≤ e.1)).reverse

/-- dochy_cache.rs:142-148, `for i in (0..max_phase).rev()` -/
def scan (c : Cache S) (paths : List Props) : Nat → Option Nat
  | 0 => none
  | i + 1 =>
    match BMap.get c i, paths[i]? with
    | some e, some p => if e.1 = p.filename then some i else scan c paths i
    | _, _ => scan c paths i

/-- dochy_cache.rs:133-150 `get_phase_cache` -/
def getPhaseCache (c : Cache S) (paths : List Props) (maxPhase : Nat) : Option Nat :=
  match c.getLast?, paths.getLast? with
  | some e, some p => if e.2.1 = p.filename then some e.1 else scan c paths maxPhase
  | _, _ => none

/-- dochy_cache.rs:115-131 `get_cached_item` -/
def getCachedItem (root : S) (c : Cache S) (paths : List Props) (maxPhase : Nat) : Res (S × List Props) :=
  match getPhaseCache c paths maxPhase with
  | none => .ok (root, paths)
  | some i =>
    match BMap.get c i with
    | none => .panic
    | some e => if i = maxPhase then .ok (e.2, []) else .ok (e.2, paths.drop (i + 1))

/-- `apply_items_st` (apply_items.rs:10-20) with the callback of dochy_cache.rs:63-69; `cur` is `current_index`. -/
def applyCaching (ops : Ops S) (dir : Dir) (maxPhase : Nat) : List Props → Nat → S → Cache S → Cache S × Res S
  | [], _, s, c => (c, .ok s)
  | p :: rest, cur, s, c =>
    match dir.read p.filename with
    | none => (c, .err)
    | some f =>
      match ops.app s f.2 with
      | .ok s' =>
        if cur < maxPhase then applyCaching ops dir maxPhase rest (cur + 1) s' (BMap.insert c cur (p.filename, s'))
        else applyCaching ops dir maxPhase rest cur s' c
      | .err => (c, .err)
      | .panic => (c, .panic)

/-- dochy_cache.rs:50-78 `apply_items_for_save` -/
def applyForSave (o : Opts) (ops : Ops S) (dir : Dir) (paths : List Props) (c : Cache S) : Cache S × Res S :=
  match getCachedItem ops.src c paths o.maxPhase with
  | .ok (root, rest) =>
    let num := paths.length - rest.length
    applyCaching ops dir o.maxPhase rest num root (removeUpper c num)
  | .err => (c, .err)
  | .panic => (c, .panic)

/-- dochy_cache.rs:80-92 `apply_items_for_load` -/
def applyForLoad (o : Opts) (ops : Ops S) (dir : Dir) (paths : List Props) (c : Cache S) : Res S :=
  (getCachedItem ops.src c paths o.maxPhase).bind fun r => compose ops dir r.2 r.1

/-- dochy_cache.rs:94-97 `set_cache` -/
def setCache (c : Cache S) (path : Bytes) (s : S) (phase : Nat) : Cache S := BMap.insert (removeUpper c phase) phase (path, s)

/-- fs/derive_impl.rs:15-64 `derive_impl` -/
def deriveImplC (o : Opts) (shift : Shift) (ops : Ops S) (tag : Option Bytes) (s : S) (h : FileHistory.History) (dir : Dir)
    (c : Cache S) (from_ : Props) : Cache S × Res (Dir × Props) :=
  match h.newest with
  | none => (c, .err)
  | some np =>
    let ctl := if np = from_ then np.control else np.control + 1
    match dir.read from_.filename with
    | none => (c, .err)
    | some f =>
      match (calcNextPhase o shift f.1).bind fun next =>
          (ancestorsRev h from_ o.maxPhase o.cumulative.isSome).bind fun rev =>
          (createDependencies rev.reverse next ctl tag o.maxPhase o.cumulative.isSome).bind fun dp => .ok (next, dp) with
      | .err => (c, .err)
      | .panic => (c, .panic)
      | .ok (next, deps, props) =>
        match applyForSave o ops dir deps c with
        | (c', .ok composed) =>
          match ops.diff composed s with
          | .ok d => (setCache c' props.filename s next,
              .ok (dir.write props.filename (f.1.popAndPush next d.length, d), props))
          | .err => (c', .err)
          | .panic => (c', .panic)
        | (c', .err) => (c', .err)
        | (c', .panic) => (c', .panic)

/-- fs/write_phase_0.rs:12-35 `write_phase_0` -/
def writePhase0C (o : Opts) (ops : Ops S) (tag : Option Bytes) (control : Nat) (s : S) (dir : Dir) (c : Cache S) :
    Cache S × Dir × Res Props :=
  let name := calcFilename tag control none [0]
  match applyForSave o ops dir [] c with
  | (c', .ok initial) =>
    match ops.diff initial s with
    | .ok d =>
      (setCache c' name s 0, dir.write name (Data.new d.length, d),
        (analyze name).bind fun | some p => .ok p | none => .err)
    | .err => (c', dir, .err)
    | .panic => (c', dir, .panic)
  | (c', .err) => (c', dir, .err)
  | (c', .panic) => (c', dir, .panic)

/-- save_history_file.rs:103-106 -/
def saveDerivedC (o : Opts) (shift : Shift) (ops : Ops S) (st : St) (c : Cache S) (h : FileHistory.History) (rid : Nat)
    (tag : Option Bytes) (s : S) (b newest : Props) : Cache S × St × Res Props :=
  match fromFile o h b newest with
  | none => (c, st, .err)
  | some f =>
    match deriveImplC o shift ops tag s h st.dir c f with
    | (c', .ok (dir, p)) => (c', ⟨dir, some (rid, p)⟩, .ok p)
    | (c', .err) => (c', st, .err)
    | (c', .panic) => (c', st, .panic)

/-- save_history_file.rs:112-114 -/
def saveNewC (o : Opts) (ops : Ops S) (st : St) (c : Cache S) (h : FileHistory.History) (rid : Nat) (tag : Option Bytes) (s : S) :
    Cache S × St × Res Props :=
  match writePhase0C o ops tag (newControl h) s st.dir c with
  | (c', dir, .ok p) => (c', ⟨dir, some (rid, p)⟩, .ok p)
  | (c', dir, .err) => (c', ⟨dir, st.base⟩, .err)
  | (c', dir, .panic) => (c', ⟨dir, st.base⟩, .panic)

/-- save_history_file.rs:78-116 `save_history_file_impl` -/
def saveC (o : Opts) (shift : Shift) (ops : Ops S) (st : St) (c : Cache S) (rid : Nat) (tag : Option Bytes) (s : S) :
    Cache S × St × Res Props :=
  match st.history with
  | .err => (c, st, .err)
  | .panic => (c, st, .panic)
  | .ok h =>
    match st.baseFor rid, h.newest with
    | some b, some newest => saveDerivedC o shift ops st c h rid tag s b newest
    | _, _ => saveNewC o ops st c h rid tag s

/-- load.rs:12-32 `load` and load_history_file.rs:37-58 -/
def loadC (o : Opts) (ops : Ops S) (dir : Dir) (c : Cache S) (h : FileHistory.History) (p : Props) : Res S :=
  (analyze p.filename).bind fun
  | none => .err
  | some q =>
    (ancestorsRev h q o.maxPhase o.cumulative.isSome).bind fun rev => applyForLoad o ops dir rev.reverse c

/-- load_history_file.rs:16-35 `load_history_file` -/
def loadFileC (o : Opts) (ops : Ops S) (st : St) (c : Cache S) (h : FileHistory.History) (p : Props) (rid : Nat) : St × Res S :=
  match loadC o ops st.dir c h p with
  | .ok s => (⟨st.dir, some (rid, p)⟩, .ok s)
  | .err => (st, .err)
  | .panic => (st, .panic)

end
end Verif.History
