import Verif.Model.DiffPrepare
/-!
# Writing a diff

Model of `dochy_diff/src/imp/write/*.rs` and `dochy_diff/src/imp/get_diff.rs`.
-/
namespace Verif.Diff
open VarInt Codec Compaction LinkedMap

/-- rust_param.rs:23-35 `qv_type`. -/
inductive QvType where
  | val | undef | null

def Qv.type {α : Type} : Qv α → QvType
  | .val _ => .val
  | .undef => .undef
  | .null => .null

def Param.qvType : Param → QvType
  | .bool q => q.type
  | .int q => q.type
  | .float q => q.type
  | .string q => q.type
  | .intArray q => q.type
  | .floatArray q => q.type
  | .binary q => q.type

/-- write_param.rs:68-92 `write_param2`, `write_int_array`, `write_float_array`, `write_binary`; `unwrap` panics without a
value. -/
def writeParam2 (F : FloatOps) : Param → Res (List KVal)
  | .bool (.val b) => .ok [.bit b]
  | .int (.val i) => .ok [compInt i]
  | .float (.val f) => .ok [compDouble F f]
  | .string (.val s) => .ok [compStr s]
  | .intArray (.val v) => .ok [.binary8 v]
  | .floatArray (.val v) => .ok [.binary8 v]
  | .binary (.val v) => .ok [.binaryArc v]
  | _ => .panic

/-- write_param.rs:6-66 `write_param`, and the same table in write_refs.rs:26-70 (where `write_val` of a non-value is an
error as well): what precedes the value, or `err`. -/
def writeQv (vt : VType) (q : QvType) (value : Res (List KVal)) : Res (List KVal) :=
  match vt, q with
  | .normal, .val => value
  | .normal, .null => .err
  | .normal, .undef => .err
  | .nullable, .val => value.map fun v => .bit true :: v
  | .nullable, .null => .ok [.bit false]
  | .nullable, .undef => .err
  | .undefiable, .val => value.map fun v => .bit true :: v
  | .undefiable, .undef => .ok [.bit false]
  | .undefiable, .null => .err
  | .undefNullable, .val => value.map fun v => .bit true :: v
  | .undefNullable, .null => .ok [.bit false, .bit true]
  | .undefNullable, .undef => .ok [.bit false, .bit false]

/-- write_param.rs:6-66 `write_param`. -/
def writeParam (F : FloatOps) (vt : VType) (p : Param) : Res (List KVal) := writeQv vt p.qvType (writeParam2 F p)

/-- write_refs.rs:75-82 `write_val`. -/
def writeVal : Qv String → Res (List KVal)
  | .val s => .ok [compStr s]
  | _ => .err

/-- A `for` loop that appends to the output. -/
def writeEach {α : Type} (w : α → Res (List KVal)) : List α → Res (List KVal)
  | [] => .ok []
  | a :: as => (w a).bind fun x => (writeEach w as).bind fun y => .ok (x ++ y)

section
variable {S D : Type}

/-- write_root.rs:45-54 `write_params`. -/
def writeParams (F : FloatOps) (cols : List (Option (Col S))) (ps : List (Nat × Param)) : Res (List KVal) :=
  writeEach (fun x =>
    match entry cols x.1 with
    | some (.param _ vt) => writeParam F vt x.2
    | _ => .panic) ps

/-- write_list.rs:74-99 `write_ld_lists`. -/
def writeLdLists (wl : S → D → Res (List KVal)) (cols : List (Option (Col S))) (ls : List (Nat × Option D)) : Res (List KVal) :=
  writeEach (fun x =>
    match entry cols x.1 with
    | some (.mlist s) =>
      match x.2 with
      | some d => wl s d
      | none => .err
    | some (.optMil s) =>
      match x.2 with
      | some d => (wl s d).map fun v => .bit true :: v
      | none => .ok [.bit false]
    | _ => .panic) ls

/-- write_refs.rs:9-73 `write_refs`, `write_refs2`. -/
def writeRefs (metas : List VType) (refs : List (Nat × Qv String)) : Res (List KVal) :=
  let ids := storeIdsRef (refs.map (·.1))
  match ids with
  | .zero => .ok (writeStoredIds ids)
  | _ =>
    (writeEach (fun x =>
      match metas[x.1]? with
      | some vt => writeQv vt x.2.type (writeVal x.2)
      | none => .panic) refs).map fun v => writeStoredIds ids ++ v

/-- write_list.rs:54-72 `write_list_item2`. -/
def writeListItem2 (F : FloatOps) (wl : S → D → Res (List KVal)) (tb : Table S) (d : RowDiff D) : Res (List KVal) :=
  let ids := storeIds (d.params.map (·.1)) (d.lists.map (·.1))
  match ids with
  | .zero => (writeRefs tb.refs d.refs).map fun v => writeStoredIds ids ++ v
  | _ =>
    (writeParams F tb.items d.params).bind fun p =>
      (writeLdLists wl tb.items d.lists).bind fun l =>
        (writeRefs tb.refs d.refs).map fun r => writeStoredIds ids ++ (p ++ (l ++ r))

/-- write_list.rs:25-52 `write_list_item`, `write_bs`. -/
def writeListItem (F : FloatOps) (wl : S → D → Res (List KVal)) (tb : Table S) : ItemDiff D → Res (List KVal)
  | .modify d => (writeListItem2 F wl tb d).map fun v => .bit true :: v
  | .create prev d =>
    (writeListItem2 F wl tb d).map fun v =>
      .bit false :: .bit true ::
        ((match prev with
          | some p => [.bit true, compU64 p]
          | none => [.bit false]) ++ v)
  | .delete => .ok [.bit false, .bit false]

/-- write_list.rs:13-23 `write_list`. -/
def writeList (F : FloatOps) (wl : S → D → Res (List KVal)) (tb : Table S) (d : ListDiff D) : Res (List KVal) :=
  (writeEach (fun x => (writeListItem F wl tb x.2).map fun v => compU64 x.1 :: v) d.items).map fun v =>
    compU64 d.items.length :: compU64 d.next :: v

end

/-- `write_list` of level `n`. -/
def writeListN (F : FloatOps) : (n : Nat) → Sch n → DiffT n → Res (List KVal)
  | 0 => fun s => nomatch s
  | n + 1 => fun s d => writeList F (writeListN F n) s d

/-- write_root.rs:24-43 `write_root`. -/
def writeRoot (F : FloatOps) (n : Nat) (sch : RootSch n) (d : RootDiff (DiffT n)) : Res (List KVal) :=
  let ids := storeIds (d.params.map (·.1)) (d.lists.map (·.1))
  match ids with
  | .zero => .ok (writeStoredIds ids)
  | _ =>
    (writeParams F sch d.params).bind fun p =>
      (writeLdLists (writeListN F n) sch d.lists).map fun l => writeStoredIds ids ++ (p ++ l)

/-- get_diff.rs:30-34 `get_kvals`. -/
def getKvals (F : FloatOps) (n : Nat) (ptr : Ptr) (sch : RootSch n) (f t : Root n) : Res (List KVal) :=
  (getRootDiff n ptr sch f t).bind (writeRoot F n sch)

/-- get_diff.rs:25-28 `get_diff`. -/
def getDiff (F : FloatOps) (n : Nat) (ptr : Ptr) (sch : RootSch n) (f t : Root n) : Res Bytes :=
  (getKvals F n ptr sch f t).bind encodeVals

end Verif.Diff
