import Verif.Model.CacheFiles
import Verif.Model.Shift
import Verif.Model.Compaction
/-!
# The tests of the simple history, run on the model

dochy_fs/src/test_simple_history. The data are bytes, a diff is a list of changed bytes. The tests choose random changes; here they are chosen by a
fixed sequence. Most of these tests are commented out in the project, as what they print is to be inspected. These are tests of the model; they
are not proofs.
-/
namespace Verif.Tests.SimpleHistory
open Codec VarInt Compaction

/-- sd_data.rs:8-10 `SdData` -/
abbrev SdData := Array UInt8

/-- create_sd_diff.rs:4-14 and sd_diff.rs:29-39 `encode` -/
def sdDiff (a b : SdData) : Res Bytes :=
  let items := (List.range a.size).filter fun i => a[i]! ≠ b[i]!
  encodeVals (compInt items.length :: items.flatMap fun (i : Nat) => [compInt (i : Int), compInt (b[i]!).toNat])

/-- sd_diff.rs:46-57 `decode_kvals` and sd_data.rs:52-72 `apply_diff` -/
def sdApply : SdData → List KVal → Res SdData
  | a, [] => .ok a
  | a, i :: v :: r =>
    match asI64 i, asI64 v with
    | some i, some v => if i.toNat < a.size then sdApply (a.set! i.toNat (UInt8.ofNat v.toNat)) r else .err
    | _, _ => .err
  | _, [_] => .err

def sdOps (size : Nat) : History.Ops SdData where
  src := Array.replicate size 0
  diff := sdDiff
  app a d := (decodeVals d).bind fun v => sdApply a v.1.tail

/-- data, cache and folder -/
structure Run where
  data : SdData
  cache : History.Cache SdData
  st : History.BSt

def start (size : Nat) : Run := ⟨Array.replicate size 0, [], ⟨[], none⟩⟩

/-- `_next` -/
def save (o : Phase.Opts) (x : Run) : Option Run :=
  let s := History.bsaveC o Phase.shouldShift (sdOps x.data.size) x.st x.cache 0 none x.data
  match s.2.2 with
  | .ok _ => some ⟨x.data, s.1, s.2.1⟩
  | _ => none

/-- sd_data.rs:25-36 `mutate(1)`: the first byte that is 0 becomes 1 -/
def mutate (d : SdData) : SdData := d.set! (d.toList.takeWhile (· ≠ 0)).length 1

/-- instead of sd_data.rs:18-23 `mutate_randomly`, the k-th change -/
def mutateBy (d : SdData) (k : Nat) : SdData := d.set! (k * 7919 % 104729 % d.size) (UInt8.ofNat (k * 104651 % 255))

/-- the newest file is loaded, and gives the data -/
def newestLoads (o : Phase.Opts) (x : Run) : Bool :=
  match x.st.history.bind fun h => match h.newest with
    | some p => History.bloadC o (sdOps x.data.size) x.st.dir x.cache h p
    | none => .err with
  | .ok d => d = x.data
  | _ => false

/-- changes and a save, `n` times; every time the newest file is loaded -/
def saveAll (o : Phase.Opts) : Nat → Run → Option Run
  | 0, x => some x
  | n + 1, x => (saveAll o n x).bind fun x =>
    let d := (List.range (n % 3 + 1)).foldl (fun d k => mutateBy d (3 * n + k)) x.data
    (save o { x with data := d }).bind fun y => if newestLoads o y then some y else none

-- test_simple_diff_files.rs:12-51
#guard (saveAll ⟨2, true, some ⟨some 2, some 100⟩⟩ 100 (start 300)).isSome
-- test_max_phase0.rs:13-48
#guard (saveAll ⟨0, true, none⟩ 100 (start 200)).isSome
-- test_max_phase0_with_cumu.rs:14-47
#guard (saveAll ⟨0, true, some ⟨none, none⟩⟩ 100 (start 300)).isSome

/-- test_load_and_save.rs:14-70: five saves, the file before the newest is loaded and continued by 30 saves -/
def loadAndSave (o : Phase.Opts) : Bool :=
  match saveAll o 5 (start 300) with
  | none => false
  | some x =>
    match x.st.history with
    | .ok h =>
      match h.listFiles.reverse with
      | _ :: prev :: _ =>
        let l := History.bloadFileC o (sdOps 300) x.st x.cache h prev 0
        match l.2 with
        | .ok d => prev.order.length = 4 && (saveAll o 30 ⟨d, x.cache, l.1⟩).isSome
        | _ => false
      | _ => false
    | _ => false

#guard loadAndSave ⟨4, true, some ⟨some 1, some 100⟩⟩

/-! ## test_cumulative_limit_nth.rs, test_cumulative_limit_count.rs -/

/-- 100 saves of `mutate(1)` -/
def saves (o : Phase.Opts) : Nat → Option Run
  | 0 => some (start 300)
  | n + 1 => (saves o n).bind fun x => save o { x with data := mutate x.data }

/-- create_file_history2.rs:8-25: the files with the sizes of their diffs -/
def sizes (x : Run) : List (FileName.Props × Nat) :=
  match x.st.history with
  | .ok h => h.listFiles.filterMap fun p => (x.st.dir.find? fun f => f.1 = p.filename).bind fun f =>
    match decodeVals f.2 with
    | .ok (_, rest) => some (p, rest.length)
    | _ => none
  | _ => []

/-- the files of the last phase that continue the same file, and the sizes of the files they continue -/
def groups (l : List (FileName.Props × Nat)) : List (List Nat × List Nat) :=
  (l.filter fun e => e.1.order.length = 2).filterMap fun e =>
    match l.filter fun c => c.1.control = e.1.control ∧ c.1.order.length = 3 ∧ c.1.order.take 2 = e.1.order with
    | [] => none
    | cs => some (cs.map (·.2),
        (e.2 :: (l.filter fun c => c.1.control = e.1.control ∧ c.1.order = e.1.order.take 1).map (·.2)))

/-- test_cumulative_limit_nth.rs:107-127 `check` -/
def checkNth (nth : Nat) (g : List Nat × List Nat) : Bool :=
  let total := ((g.2 ++ [0]).mergeSort)[3 - nth]!
  (List.range g.1.length).all fun i => !(decide (total < (g.1.take (i + 1)).sum)) || i + 1 = g.1.length || i = 0

/-- test_cumulative_limit_count.rs:109-114 `check` -/
def checkCount (count : Nat) (g : List Nat × List Nat) : Bool := !(decide (count < g.1.length))

#guard match saves ⟨2, true, some ⟨some 2, none⟩⟩ 100 with
  | some x => (sizes x).length = 100 && (groups (sizes x)).all (checkNth 2) && 3 < (groups (sizes x)).length
  | none => false
#guard match saves ⟨2, true, some ⟨none, some 3⟩⟩ 100 with
  | some x => (sizes x).length = 100 && (groups (sizes x)).all (checkCount 3) && 10 < (groups (sizes x)).length
  | none => false

end Verif.Tests.SimpleHistory
