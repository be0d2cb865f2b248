import Verif.Model.Cache
import Verif.Model.Crash
/-!
# History files as bytes, with the phase cache

The functions of `Model/Cache.lean` on the directories of `Model/Crash.lean`: what a program does with a history, with the cache that the
program keeps (`dochy_cache.rs`) and with the bytes of the files.

* The paths are names of files, as in `Model/Cache.lean`; files are read one by one, as there.
* The cache is a `&mut` argument: it keeps its changes when an operation fails. `set_cache` comes after the file is written
  (derive_impl.rs:58-62, write_phase_0.rs:28-32), so an interrupted write leaves the cache as `apply_items_for_save` left it.
* What `diff` finds equal by comparing pointers is a matter of what objects share in memory, and so of the cache. Each save gets its own
  functions (`ops`), of which only `diff` may differ.
-/
namespace Verif.History
open VarInt FileName FileHistory Phase Codec

section
variable {S : Type}

/-- apply_items.rs:12-17 for one file: open it, drop the statistics, apply the diff -/
def bapplyOne (ops : Ops S) (dir : BDir) (p : Props) (s : S) : Res S :=
  match dir.read p.filename with
  | none => .err
  | some c => (decodeVals c).bind fun r => ops.app s r.2

/-- `apply_items_st` (apply_items.rs:10-20) with the callback of dochy_cache.rs:63-69; `cur` is `current_index`. -/
def bapplyCaching (ops : Ops S) (dir : BDir) (maxPhase : Nat) : List Props → Nat → S → Cache S → Cache S × Res S
  | [], _, s, c => (c, .ok s)
  | p :: rest, cur, s, c =>
    match bapplyOne ops dir p s with
    | .ok s' =>
      if cur < maxPhase then bapplyCaching ops dir maxPhase rest (cur + 1) s' (BMap.insert c cur (p.filename, s'))
      else bapplyCaching ops dir maxPhase rest cur s' c
    | .err => (c, .err)
    | .panic => (c, .panic)

/-- dochy_cache.rs:50-78 `apply_items_for_save` -/
def bapplyForSave (o : Opts) (ops : Ops S) (dir : BDir) (paths : List Props) (c : Cache S) : Cache S × Res S :=
  match getCachedItem ops.src c paths o.maxPhase with
  | .ok (root, rest) =>
    let num := paths.length - rest.length
    bapplyCaching ops dir o.maxPhase rest num root (removeUpper c num)
  | .err => (c, .err)
  | .panic => (c, .panic)

/-- dochy_cache.rs:80-92 `apply_items_for_load` -/
def bapplyForLoad (o : Opts) (ops : Ops S) (dir : BDir) (paths : List Props) (c : Cache S) : Res S :=
  (getCachedItem ops.src c paths o.maxPhase).bind fun r => bcompose ops dir r.2 r.1

/-- derive_impl.rs:27-57 `derive_impl` up to the writing: name and contents of the new file, the result, and the phase for `set_cache` -/
def planDeriveC (o : Opts) (shift : Shift) (ops : Ops S) (tag : Option Bytes) (s : S) (h : FileHistory.History) (dir : BDir) (c : Cache S)
    (from_ : Props) : Cache S × Res ((Bytes × File × Res Props) × Nat) :=
  match h.newest with
  | none => (c, .err)
  | some np =>
    let ctl := if np = from_ then np.control else np.control + 1
    match (bstat dir from_.filename).bind fun data =>
        (calcNextPhase o shift data).bind fun next =>
        (ancestorsRev h from_ o.maxPhase o.cumulative.isSome).bind fun rev =>
        (createDependencies rev.reverse next ctl tag o.maxPhase o.cumulative.isSome).bind fun dp => .ok (data, next, dp) with
    | .err => (c, .err)
    | .panic => (c, .panic)
    | .ok (data, next, dp) =>
      let x := bapplyForSave o ops dir dp.1 c
      (x.1, x.2.bind fun composed => (ops.diff composed s).bind fun d =>
        .ok ((dp.2.filename, (data.popAndPush next d.length, d), .ok dp.2), next))

/-- write_phase_0.rs:20-34 `write_phase_0` up to the writing -/
def planNewC (o : Opts) (ops : Ops S) (tag : Option Bytes) (control : Nat) (s : S) (dir : BDir) (c : Cache S) :
    Cache S × Res ((Bytes × File × Res Props) × Nat) :=
  let name := calcFilename tag control none [0]
  let x := bapplyForSave o ops dir [] c
  (x.1, x.2.bind fun initial => (ops.diff initial s).bind fun d =>
    .ok ((name, (Data.new d.length, d), (analyze name).bind fun | some p => .ok p | none => .err), 0))

/-- save_history_file.rs:78-116 `save_history_file_impl` up to the writing -/
def bplanC (o : Opts) (shift : Shift) (ops : Ops S) (st : BSt) (c : Cache S) (rid : Nat) (tag : Option Bytes) (s : S) :
    Cache S × Res ((Bytes × File × Res Props) × Nat) :=
  match st.history with
  | .err => (c, .err)
  | .panic => (c, .panic)
  | .ok h =>
    match baseFor st.base rid, h.newest with
    | some b, some newest =>
      match fromFile o h b newest with
      | none => (c, .err)
      | some f => planDeriveC o shift ops tag s h st.dir c f
    | _, _ => planNewC o ops tag (newControl h) s st.dir c

/-- save_history_file.rs:78-116 with write_phase_file.rs:6-13 and `set_cache` -/
def bsaveC (o : Opts) (shift : Shift) (ops : Ops S) (st : BSt) (c : Cache S) (rid : Nat) (tag : Option Bytes) (s : S) :
    Cache S × BSt × Res Props :=
  let x := bplanC o shift ops st c rid tag s
  match x.2.bind fun y => (phaseFile y.1.2.1.1 y.1.2.1.2).map fun b => (y.1.1, b, y.1.2.2, y.2) with
  | .ok (name, b, r, n) => (setCache x.1 name s n, ⟨st.dir.write name b, match r with | .ok p => some (rid, p) | _ => st.base⟩, r)
  | .err => (x.1, st, .err)
  | .panic => (x.1, st, .panic)

/-- load.rs:12-32 `load` and load_history_file.rs:37-58 -/
def bloadC (o : Opts) (ops : Ops S) (dir : BDir) (c : Cache S) (h : FileHistory.History) (p : Props) : Res S :=
  (analyze p.filename).bind fun
  | none => .err
  | some q =>
    (ancestorsRev h q o.maxPhase o.cumulative.isSome).bind fun rev => bapplyForLoad o ops dir rev.reverse c

/-- load_history_file.rs:16-35 `load_history_file` -/
def bloadFileC (o : Opts) (ops : Ops S) (st : BSt) (c : Cache S) (h : FileHistory.History) (p : Props) (rid : Nat) : BSt × Res S :=
  match bloadC o ops st.dir c h p with
  | .ok s => (⟨st.dir, some (rid, p)⟩, .ok s)
  | .err => (st, .err)
  | .panic => (st, .panic)

end
end Verif.History
