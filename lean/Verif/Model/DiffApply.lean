import Verif.Model.DiffRead
/-!
# Applying a diff

Model of `dochy_diff/src/imp/apply/*.rs` and `dochy_diff/src/imp/apply_diff.rs`.

`MutListVal::list_mut` may clone the list first (`Arc::make_mut`), which can change its next id (C15); `apply_list_diff` sets
the next id before anything else, so that has no effect.
-/
namespace Verif.Diff
open VarInt Codec Compaction LinkedMap

section
variable {S X D : Type}

/-- apply_params.rs:5-15 `apply_params`. -/
def applyParams (cols : List (Option (Col S))) : List (Nat × Param) → List (Option (Cell X)) → Res (List (Option (Cell X)))
  | [], v => .ok v
  | (id, p) :: rest, v =>
    match entry cols id with
    | some _ => applyParams cols rest (v.set id (some (.param p)))
    | none => .err

/-- apply_lists.rs:16-31: the new entry of a member; `ad` is `apply_list_diff`, `dn` is `diff_to_new_list`. -/
def applyList (ad : S → X → D → Res X) (dn : S → D → Res X) (s : S) (cur : Option (Cell X)) (d : Option D) : Res (Cell X) :=
  match d with
  | some d =>
    match cur with
    | some (.mil (some m)) => (ad s m d).map fun l => .mil (some l)
    | _ => (dn s d).map fun l => .mil (some l)
  | none => .ok (.mil none)

/-- apply_lists.rs:8-35 `apply_lists`. -/
def applyLists (ad : S → X → D → Res X) (dn : S → D → Res X) (cols : List (Option (Col S))) :
    List (Nat × Option D) → List (Option (Cell X)) → Res (List (Option (Cell X)))
  | [], v => .ok v
  | (id, d) :: rest, v =>
    match (entry cols id).bind Col.tables with
    | some s => (applyList ad dn s (entry v id) d).bind fun c => applyLists ad dn cols rest (v.set id (some c))
    | none => .err

/-- apply_refs.rs:5-15 `apply_refs`. -/
def applyRefs (metas : List VType) : List (Nat × Qv String) → List (Option (Qv String)) → Res (List (Option (Qv String)))
  | [], v => .ok v
  | (id, q) :: rest, v =>
    match metas[id]? with
    | some _ => applyRefs metas rest (v.set id (some q))
    | none => .err

/-- modify_item_from_diff.rs:8-19 `modify_item_from_diff`. -/
def modifyItem (ad : S → X → D → Res X) (dn : S → D → Res X) (tb : Table S) (r : Row X) (d : RowDiff D) : Res (Row X) :=
  (applyParams tb.items d.params r.values).bind fun v =>
    (applyLists ad dn tb.items d.lists v).bind fun v =>
      (applyRefs tb.refs d.refs r.refs).map fun refs => ⟨v, refs⟩

/-- new_item_from_diff.rs:9-20 `new_item_from_diff`: starts with empty maps. -/
def newItemFromDiff (ad : S → X → D → Res X) (dn : S → D → Res X) (tb : Table S) (d : RowDiff D) : Res (Row X) :=
  modifyItem ad dn tb ⟨List.replicate tb.items.length none, List.replicate tb.refs.length none⟩ d

/-- apply_list_diff.rs:12-32: one element of the diff. -/
def applyItem (ad : S → X → D → Res X) (dn : S → D → Res X) (tb : Table S) (l : SList (Row X)) (x : Nat × ItemDiff D) :
    Res (SList (Row X)) :=
  match x.2 with
  | .create prev d =>
    (newItemFromDiff ad dn tb d).bind fun row =>
      match l.step (.insertFirstWithId x.1 row) with
      | (l, .bool true) =>
        match prev with
        | none => .ok l
        | some p =>
          match l.step (.moveToNext p x.1) with
          | (l, .bool true) => .ok l
          | _ => .err
      | _ => .err
  | .delete => .ok (l.step (.remove x.1)).1
  | .modify d =>
    match l.find x.1 with
    | some y => (modifyItem ad dn tb y.2 d).map fun row => (l.step (.setItem x.1 row)).1
    | none => .err

/-- apply_list_diff.rs:11-33, the loop. -/
def applyItems (ad : S → X → D → Res X) (dn : S → D → Res X) (tb : Table S) :
    List (Nat × ItemDiff D) → SList (Row X) → Res (SList (Row X))
  | [], l => .ok l
  | x :: rest, l => (applyItem ad dn tb l x).bind (applyItems ad dn tb rest)

/-- apply_list_diff.rs:7-35 `apply_list_diff`. -/
def applyListDiff (ad : S → X → D → Res X) (dn : S → D → Res X) (tb : Table S) (l : SList (Row X)) (d : ListDiff D) :
    Res (SList (Row X)) :=
  applyItems ad dn tb d.items (l.step (.setNextId d.next)).1

/-- diff_to_new_list.rs:6-12 `diff_to_new_list`; linked_m.rs `new` is the empty list with next id 0. -/
def diffToNewList (ad : S → X → D → Res X) (dn : S → D → Res X) (tb : Table S) (d : ListDiff D) : Res (SList (Row X)) :=
  applyListDiff ad dn tb ⟨[], 0⟩ d

end

/-- `diff_to_new_list` and `apply_list_diff` of level `n`. -/
def applyN : (n : Nat) → (Sch n → DiffT n → Res (Obj n)) × (Sch n → Obj n → DiffT n → Res (Obj n))
  | 0 => (fun s _ => Empty.elim s, fun s _ _ => Empty.elim s)
  | n + 1 =>
    (fun s d => diffToNewList (applyN n).2 (applyN n).1 s d, fun s l d => applyListDiff (applyN n).2 (applyN n).1 s l d)

/-- apply_root_diff.rs:12-17: the parameters. -/
def applyRootParams {S X : Type} (cols : List (Option (Col S))) :
    List (Nat × Param) → List (Option (Cell X)) → Res (List (Option (Cell X)))
  | [], v => .ok v
  | (id, p) :: rest, v =>
    match entry cols id with
    | some _ => applyRootParams cols rest (v.set id (some (.param p)))
    | none => .panic

/-- apply_root_diff.rs:25-49: the new entry of a list member. -/
def applyRootList {S X D : Type} (ad : S → X → D → Res X) (dn : S → D → Res X) (s : S) (cur : Option (Cell X))
    (d : Option D) : Res (Cell X) :=
  match cur with
  | some (.mil m) =>
    match m, d with
    | some m, some d => (ad s m d).map fun l => .mil (some l)
    | some _, none => .ok (.mil none)
    | none, some d => (dn s d).map fun l => .mil (some l)
    | none, none => .ok (.mil none)
  | _ => .panic

/-- apply_root_diff.rs:18-50: the lists. -/
def applyRootLists {S X D : Type} (ad : S → X → D → Res X) (dn : S → D → Res X) (cols : List (Option (Col S))) :
    List (Nat × Option D) → List (Option (Cell X)) → Res (List (Option (Cell X)))
  | [], v => .ok v
  | (id, d) :: rest, v =>
    match (entry cols id).bind Col.tables with
    | some s => (applyRootList ad dn s (entry v id) d).bind fun c => applyRootLists ad dn cols rest (v.set id (some c))
    | none => .panic

/-- apply_root_diff.rs:7-52 `apply_root_diff`. -/
def applyRootDiff (n : Nat) (sch : RootSch n) (root : Root n) (d : RootDiff (DiffT n)) : Res (Root n) :=
  (applyRootParams sch d.params root).bind (applyRootLists (applyN n).2 (applyN n).1 sch d.lists)

/-- apply_diff.rs:20-27 `get_root_diff_r`, `apply_root_diff_r`: the values of a diff, read and applied. -/
def applyKvals (F : FloatOps) (n : Nat) (sch : RootSch n) (root : Root n) (vals : List KVal) : Res (Root n) :=
  (readRoot F n sch vals).bind fun p => applyRootDiff n sch root p.1

/-- apply_diff.rs:12-18 `apply_diff`. -/
def applyDiff (F : FloatOps) (n : Nat) (sch : RootSch n) (root : Root n) (diff : Bytes) : Res (Root n) :=
  (decodeVals diff).bind fun p => applyKvals F n sch root p.1

end Verif.Diff
