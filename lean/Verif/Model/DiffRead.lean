import Verif.Model.DiffData
/-!
# Reading a diff

Model of `dochy_diff/src/imp/read/*.rs`.
-/
namespace Verif.Diff
open VarInt Codec Compaction LinkedMap

/-- get_null.rs:3-13 `get_null`. -/
def getNull : PType → Param
  | .bool => .bool .null
  | .int => .int .null
  | .float => .float .null
  | .string => .string .null
  | .intArray => .intArray .null
  | .floatArray => .floatArray .null
  | .binary => .binary .null

/-- get_undefined.rs:3-13 `get_undefined`. -/
def getUndefined : PType → Param
  | .bool => .bool .undef
  | .int => .int .undef
  | .float => .float .undef
  | .string => .string .undef
  | .intArray => .intArray .undef
  | .floatArray => .floatArray .undef
  | .binary => .binary .undef

/-- read_param.rs:55-75 `read_int_array`, `read_float_array` (the same memory seen as `i64` or `f64`). -/
def readBinary8 : Rd KVal (List (BitVec 64)) := Rd.bind readOne fun k =>
  match k with
  | .binary8 v => Rd.pure v
  | _ => Rd.fail

/-- read_param.rs:78-84 `read_binary`. -/
def readBinary : Rd KVal Bytes := Rd.bind readOne fun k =>
  match k with
  | .binary v => Rd.pure v
  | _ => Rd.fail

/-- read_param.rs:39-53 `read_param2`. -/
def readParam2 (F : FloatOps) : PType → Rd KVal Param
  | .bool => Rd.bind readBool fun b => Rd.pure (.bool (.val b))
  | .int => Rd.bind readI64 fun i => Rd.pure (.int (.val i))
  | .float => Rd.bind (Rd.bind readOne fun k => Rd.lift (Res.ofOption (asF64 F k))) fun f => Rd.pure (.float (.val f))
  | .string => Rd.bind readStr fun s => Rd.pure (.string (.val s))
  | .intArray => Rd.bind readBinary8 fun v => Rd.pure (.intArray (.val v))
  | .floatArray => Rd.bind readBinary8 fun v => Rd.pure (.floatArray (.val v))
  | .binary => Rd.bind readBinary fun v => Rd.pure (.binary (.val v))

/-- read_param.rs:8-37 `read_param` and read_refs.rs:59-88 `read_a_ref`, which treat the marker bits alike. -/
def readQv {α : Type} (vt : VType) (value : Rd KVal α) (null undef : α) : Rd KVal α :=
  match vt with
  | .normal => value
  | .nullable => Rd.bind readBool fun b => if b then value else Rd.pure null
  | .undefiable => Rd.bind readBool fun b => if b then value else Rd.pure undef
  | .undefNullable => Rd.bind readBool fun b =>
    if b then value else Rd.bind readBool fun c => if c then Rd.pure null else Rd.pure undef

/-- read_param.rs:8-37 `read_param`. -/
def readParam (F : FloatOps) (pt : PType) (vt : VType) : Rd KVal Param :=
  readQv vt (readParam2 F pt) (getNull pt) (getUndefined pt)

/-- read_refs.rs:59-92 `read_a_ref`, `read_val`. -/
def readARef (vt : VType) : Rd KVal (Qv String) :=
  readQv vt (Rd.bind readStr fun s => Rd.pure (.val s)) .null .undef

section
variable {S D : Type}

/-- read_params.rs:23-35 `read_a_param` for a flag that is set; read_root.rs:42-44. -/
def readAParam (F : FloatOps) (cols : List (Option (Col S))) (id : Nat) : Rd KVal (Option Param) :=
  match entry cols id with
  | some (.param pt vt) => Rd.bind (readParam F pt vt) fun p => Rd.pure (some p)
  | _ => Rd.pure none

/-- read_list.rs:88-92: for a list of numbers, a member that is no parameter is an error. -/
def readAParamStrict (F : FloatOps) (cols : List (Option (Col S))) (id : Nat) : Rd KVal (Option Param) :=
  match entry cols id with
  | some (.param pt vt) => Rd.bind (readParam F pt vt) fun p => Rd.pure (some p)
  | _ => Rd.fail

/-- read_lists.rs:29-48 `read_a_list`; a member without entry in the table is `unreachable!`. -/
def readAList (rl : S → Rd KVal D) (cols : List (Option (Col S))) (id : Nat) : Rd KVal (Option (Option D)) :=
  match entry cols id with
  | some (.mlist s) => Rd.bind (rl s) fun d => Rd.pure (some (some d))
  | some (.optMil s) => Rd.bind readBool fun b =>
    if b then Rd.bind (rl s) fun d => Rd.pure (some (some d)) else Rd.pure (some none)
  | some (.param ..) => Rd.pure none
  | none => fun _ => .panic

/-- read_lists_numbers.rs:10-24; a member without entry in the table is skipped. -/
def readAListNumber (rl : S → Rd KVal D) (cols : List (Option (Col S))) (id : Nat) : Rd KVal (Option (Option D)) :=
  match entry cols id with
  | some (.mlist s) => Rd.bind (rl s) fun d => Rd.pure (some (some d))
  | some (.optMil s) => Rd.bind readBool fun b =>
    if b then Rd.bind (rl s) fun d => Rd.pure (some (some d)) else Rd.pure (some none)
  | some (.param ..) => Rd.pure none
  | none => Rd.pure none

/-- read_refs.rs:43-50 and 26-31: a reference without entry in the table is a panic. -/
def readARefAt (metas : List VType) (id : Nat) : Rd KVal (Option (Qv String)) :=
  match metas[id]? with
  | some vt => Rd.bind (readARef vt) fun q => Rd.pure (some q)
  | none => fun _ => .panic

/-- read_refs.rs:7-36 `read_refs`. -/
def readRefs (metas : List VType) : Rd KVal (List (Nat × Qv String)) :=
  Rd.bind readStoredIds fun ids =>
    match ids with
    | .zero => Rd.pure []
    | .u64 b => readWord b 0 (readARefAt metas)
    | .bits bs => readWords64 (readARefAt metas) bs 0
    | .numbers n => readNumbers (readARefAt metas) n

/-- read_list.rs:46-99 `read_list_item2`. -/
def readListItem2 (F : FloatOps) (rl : S → Rd KVal D) (tb : Table S) : Rd KVal (RowDiff D) :=
  Rd.bind readStoredIds fun ids =>
    match ids with
    | .zero => Rd.bind (readRefs tb.refs) fun refs => Rd.pure ⟨[], refs, []⟩
    | .u64 b =>
      Rd.bind (readWord b 0 (readAParam F tb.items)) fun params =>
        Rd.bind (readWord b 0 (readAList rl tb.items)) fun lists =>
          Rd.bind (readRefs tb.refs) fun refs => Rd.pure ⟨params, refs, lists⟩
    | .bits bs =>
      Rd.bind (readWords64 (readAParam F tb.items) bs 0) fun params =>
        Rd.bind (readWords64 (readAList rl tb.items) bs 0) fun lists =>
          Rd.bind (readRefs tb.refs) fun refs => Rd.pure ⟨params, refs, lists⟩
    | .numbers n =>
      Rd.bind (readNumbers (readAParamStrict F tb.items) n) fun params =>
        Rd.bind (readNumbers (readAListNumber rl tb.items) n) fun lists =>
          Rd.bind (readRefs tb.refs) fun refs => Rd.pure ⟨params, refs, lists⟩

/-- read_list.rs:27-44 `read_list_item`, `read_cs`. -/
def readListItem (F : FloatOps) (rl : S → Rd KVal D) (tb : Table S) : Rd KVal (ItemDiff D) :=
  Rd.bind readBool fun b =>
    if b then Rd.bind (readListItem2 F rl tb) fun d => Rd.pure (.modify d)
    else Rd.bind readBool fun c =>
      if c then
        Rd.bind readBool fun hasPrev =>
          if hasPrev then
            Rd.bind readU64 fun p => Rd.bind (readListItem2 F rl tb) fun d => Rd.pure (.create (some p) d)
          else Rd.bind (readListItem2 F rl tb) fun d => Rd.pure (.create none d)
      else Rd.pure .delete

/-- read_list.rs:14-25 `read_list`. -/
def readList (F : FloatOps) (rl : S → Rd KVal D) (tb : Table S) : Rd KVal (ListDiff D) :=
  Rd.bind readU64 fun len =>
    Rd.bind readU64 fun next =>
      Rd.bind (readTimes (Rd.bind readU64 fun id => Rd.bind (readListItem F rl tb) fun d => Rd.pure (id, d)) len) fun items =>
        Rd.pure ⟨items, next⟩

end

/-- `read_list` of level `n`. -/
def readListN (F : FloatOps) : (n : Nat) → Sch n → Rd KVal (DiffT n)
  | 0 => fun s => nomatch s
  | n + 1 => fun s => readList F (readListN F n) s

/-- read_root.rs:12-50 `read_root`. -/
def readRoot (F : FloatOps) (n : Nat) (sch : RootSch n) : Rd KVal (RootDiff (DiffT n)) :=
  Rd.bind readStoredIds fun ids =>
    match ids with
    | .zero => Rd.pure ⟨[], []⟩
    | .u64 b =>
      Rd.bind (readWord b 0 (readAParam F sch)) fun params =>
        Rd.bind (readWord b 0 (readAList (readListN F n) sch)) fun lists => Rd.pure ⟨params, lists⟩
    | .bits bs =>
      Rd.bind (readWords64 (readAParam F sch) bs 0) fun params =>
        Rd.bind (readWords64 (readAList (readListN F n) sch) bs 0) fun lists => Rd.pure ⟨params, lists⟩
    | .numbers v =>
      Rd.bind (readNumbers (readAParam F sch) v) fun params =>
        Rd.bind (readNumbers (readAListNumber (readListN F n) sch) v) fun lists => Rd.pure ⟨params, lists⟩

end Verif.Diff
