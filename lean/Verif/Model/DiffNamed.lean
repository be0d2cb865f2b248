import Verif.Model.DiffApply
import Verif.Model.Source
/-!
# Computing and applying diffs by member name

Model of `dochy_diff/src/imp/prepare/*.rs` and `dochy_diff/src/imp/apply/*.rs` on objects as they are stored: maps from member names to
values, definitions with ids, and meta tables. `DiffPrepare` and `DiffApply` are the same functions on objects whose members are addressed
by id; C72 relates the two.

Simplifications.
* The loops over a hash map run over the entries of the association list in order; nothing is assumed about that order.
* A `BTreeMap` is the ascending list of its entries.
* The recursion is bounded by a level: a list at level 0 is a panic, which does not happen if the level is at least the depth of the
  definition. Diffs are those of the level.
* A mutable list is the ordered list it behaves like (C14).
-/
namespace Verif.Named
open VarInt Diff Core Source LinkedMap

/-- a mutable list -/
abbrev NList := SList Item

/-- meta_table.rs:42-46 `MetaTables` -/
abbrev Tables := MetaTable × MetaTable

/-- meta_table.rs:76-81 `get` -/
def metaGet (t : MetaTable) (id : Nat) : Option (String × Meta) := t[id]?.join

/-- the tables of a `MetaValue::MList` or `MetaValue::OptMil` -/
def metaTables : Meta → Option Tables
  | .param _ _ => none
  | .mlist i r => some (i, r)
  | .optMil i r => some (i, r)

/-- meta_table.rs:83-92 `get_tables` -/
def getTables (t : MetaTable) (id : Nat) : Option Tables := (metaGet t id).bind fun e => metaTables e.2

/-- `BTreeMap::insert` -/
def bput {β : Type} : List (Nat × β) → Nat → β → List (Nat × β)
  | [], k, v => [(k, v)]
  | (k', v') :: r, k, v => if k < k' then (k, v) :: (k', v') :: r else if k = k' then (k, v) :: r else (k', v') :: bput r k v

/-- `if let Some(v) = … { map.insert(k, v) }` -/
def bputOpt {β : Type} (m : List (Nat × β)) (k : Nat) : Option β → List (Nat × β)
  | some v => bput m k v
  | none => m

/-- a `for` loop with a state -/
def loop {α σ : Type} (f : σ → α → Res σ) : List α → σ → Res σ
  | [], s => .ok s
  | a :: r, s => (f s a).bind (loop f r)

/-- the maps `params` and `lists` while they are filled -/
structure Acc (D : Type) where
  params : List (Nat × Param)
  lists : List (Nat × Option D)

/-! ## Computing -/

section
variable {D : Type}

/-- compare_items.rs:15-65: one member of an item that both lists have -/
def cmpValue (ptr : Ptr) (gd : Ptr → LDef → Tables → NList → NList → Res (Option D)) (nl : LDef → Tables → NList → Res D)
    (d : LDef) (mi : MetaTable) (from_ : AMap SabVal) (acc : Acc D) (e : String × SabVal) : Res (Acc D) :=
  match e.2 with
  | .param p =>
    match d.members.get e.1 with
    | some (id, _) =>
      match from_.get e.1 with
      | some (.param q) => if identEq (ptr [id]) p q then .ok acc else .ok { acc with params := bput acc.params id p }
      | _ => .ok { acc with params := bput acc.params id p }
    | none => .ok acc
  | .mil items next =>
    match d.members.get e.1 with
    | some (id, .milDef d' _) =>
      match getTables mi id with
      | none => .panic
      | some tb =>
        match from_.get e.1 with
        | some (.mil items' next') =>
          (gd (fun p => ptr (id :: p)) d' tb ⟨items', next'⟩ ⟨items, next⟩).map fun x =>
            { acc with lists := bputOpt acc.lists id (x.map some) }
        | _ => (nl d' tb ⟨items, next⟩).map fun x => { acc with lists := bput acc.lists id (some x) }
    | _ => .ok acc
  | .milNone =>
    match d.members.get e.1 with
    | some (id, .milDef _ _) =>
      match getTables mi id with
      | none => .panic
      | some _ =>
        match from_.get e.1 with
        | some .milNone => .ok acc
        | _ => .ok { acc with lists := bput acc.lists id none }
    | _ => .ok acc
  | .cil _ => .ok acc

/-- compare_items.rs:69-80: one reference -/
def cmpRef (d : LDef) (from_ : AMap (Qv String)) (refs : List (Nat × Qv String)) (e : String × Qv String) : Res (List (Nat × Qv String)) :=
  match d.refs.refs.get e.1 with
  | some (id, _) =>
    match from_.get e.1 with
    | some q => if q ≠ e.2 then .ok (bput refs id e.2) else .ok refs
    | none => .ok (bput refs id e.2)
  | none => .ok refs

/-- compare_items.rs:8-87 `compare_items` -/
def cmpItems (ptr : Ptr) (gd : Ptr → LDef → Tables → NList → NList → Res (Option D)) (nl : LDef → Tables → NList → Res D)
    (d : LDef) (tb : Tables) (from_ to : Item) : Res (Option (RowDiff D)) :=
  (loop (cmpValue ptr gd nl d tb.1 from_.values) to.values ⟨[], []⟩).bind fun acc =>
    (loop (cmpRef d from_.refs) to.refs []).map fun refs =>
      if acc.params.length = 0 ∧ refs.length = 0 ∧ acc.lists.length = 0 then none else some ⟨acc.params, refs, acc.lists⟩

/-- new_item.rs:11-35: one member of a new item -/
def newValue (nl : LDef → Tables → NList → Res D) (d : LDef) (mi : MetaTable) (acc : Acc D) (e : String × SabVal) : Res (Acc D) :=
  match e.2 with
  | .param p =>
    match d.members.get e.1 with
    | some (id, _) => .ok { acc with params := bput acc.params id p }
    | none => .panic
  | .mil items next =>
    match d.members.get e.1 with
    | some (id, .milDef d' _) =>
      match getTables mi id with
      | some tb => (nl d' tb ⟨items, next⟩).map fun x => { acc with lists := bput acc.lists id (some x) }
      | none => .panic
    | _ => .ok acc
  | .milNone =>
    match d.members.get e.1 with
    | some (id, .milDef _ _) => .ok { acc with lists := bput acc.lists id none }
    | _ => .ok acc
  | .cil _ => .ok acc

/-- new_item.rs:38-42: one reference -/
def newRef (d : LDef) (refs : List (Nat × Qv String)) (e : String × Qv String) : Res (List (Nat × Qv String)) :=
  match d.refs.refs.get e.1 with
  | some (id, _) => .ok (bput refs id e.2)
  | none => .ok refs

/-- new_item.rs:6-45 `new_item` -/
def nItem (nl : LDef → Tables → NList → Res D) (d : LDef) (tb : Tables) (it : Item) : Res (RowDiff D) :=
  (loop (newValue nl d tb.1) it.values ⟨[], []⟩).bind fun acc =>
    (loop (newRef d) it.refs []).map fun refs => ⟨acc.params, refs, acc.lists⟩

/-- get_mlist_diff.rs:20-27 and new_list.rs:8-13: the items of `to` with a running `prev_id`, those already there left out -/
def nCreates (old : Nat → Bool) (ni : Item → Res (RowDiff D)) : Option Nat → List (Nat × Item) → Res (List (Nat × ItemDiff D))
  | _, [] => .ok []
  | prev, (id, it) :: rest =>
    if old id then nCreates old ni (some id) rest
    else (ni it).bind fun x => (nCreates old ni (some id) rest).map fun r => (id, .create prev x) :: r

/-- new_list.rs:5-16 `new_list` -/
def nNewList (nl : LDef → Tables → NList → Res D) (d : LDef) (tb : Tables) (l : NList) : Res (ListDiff D) :=
  (nCreates (fun _ => false) (nItem nl d tb) none l.items).map fun r => ⟨r, l.nextId⟩

/-- get_mlist_diff.rs:10-18: the items of `from` -/
def nOld (ptr : Ptr) (gd : Ptr → LDef → Tables → NList → NList → Res (Option D)) (nl : LDef → Tables → NList → Res D)
    (d : LDef) (tb : Tables) (to : NList) : List (Nat × Item) → Res (List (Nat × ItemDiff D))
  | [] => .ok []
  | (id, it) :: rest =>
    match to.find id with
    | some y =>
      (cmpItems (fun p => ptr (id :: p)) gd nl d tb it y.2).bind fun x =>
        (nOld ptr gd nl d tb to rest).map fun r => match x with | some x => (id, .modify x) :: r | none => r
    | none => (nOld ptr gd nl d tb to rest).map fun r => (id, .delete) :: r

/-- get_mlist_diff.rs:6-34 `get_mlist_diff` -/
def nMListDiff (ptr : Ptr) (gd : Ptr → LDef → Tables → NList → NList → Res (Option D)) (nl : LDef → Tables → NList → Res D)
    (d : LDef) (tb : Tables) (from_ to : NList) : Res (Option (ListDiff D)) :=
  (nOld ptr gd nl d tb to from_.items).bind fun a =>
    (nCreates (fun id => decide (id ∈ from_.ids)) (nItem nl d tb) none to.items).map fun b =>
      if (a ++ b).length = 0 then none else some ⟨a ++ b, to.nextId⟩

end

/-- `new_list` at level `n` -/
def nNewListN : (n : Nat) → LDef → Tables → NList → Res (DiffT n)
  | 0 => fun _ _ _ => .panic
  | n + 1 => nNewList (nNewListN n)

/-- `get_mlist_diff` at level `n` -/
def nDiffN : (n : Nat) → Ptr → LDef → Tables → NList → NList → Res (Option (DiffT n))
  | 0 => fun _ _ _ _ _ => .panic
  | n + 1 => fun ptr => nMListDiff ptr (nDiffN n) (nNewListN n)

/-- get_root_diff.rs:23-73: one member of the root -/
def rootValue (n : Nat) (ptr : Ptr) (defs : AMap (Nat × RootValI)) (table : MetaTable) (f : AMap RootSab) (acc : Acc (DiffT n))
    (e : String × RootSab) : Res (Acc (DiffT n)) :=
  match e.2 with
  | .param p =>
    match f.get e.1 with
    | some (.param q) =>
      match defs.get e.1 with
      | some (id, _) => if identEq (ptr [id]) q p then .ok acc else .ok { acc with params := bput acc.params id p }
      | none => if identEq (ptr []) q p then .ok acc else .panic
    | _ =>
      match defs.get e.1 with
      | some (id, _) => .ok { acc with params := bput acc.params id p }
      | none => .panic
  | .list m =>
    match f.get e.1 with
    | some (.list m') =>
      match m', m with
      | none, none => .ok acc
      | _, _ =>
        match defs.get e.1 with
        | some (id, .mlist d _) =>
          match metaGet table id with
          | some (_, .mlist i r) =>
            match m', m with
            | some a, some b =>
              (nDiffN n (fun p => ptr (id :: p)) d (i, r) ⟨a.1, a.2⟩ ⟨b.1, b.2⟩).map fun x =>
                { acc with lists := bputOpt acc.lists id (x.map some) }
            | some _, none => .ok { acc with lists := bput acc.lists id none }
            | none, some b => (nNewListN n d (i, r) ⟨b.1, b.2⟩).map fun x => { acc with lists := bput acc.lists id (some x) }
            | none, none => .ok acc
          | _ => .panic
        | _ => .panic
    | _ => .panic

/-- get_root_diff.rs:9-78 `get_root_diff`; the definition and the table are those of `to` -/
def nRootDiff (n : Nat) (ptr : Ptr) (defs : AMap (Nat × RootValI)) (table : MetaTable) (f t : AMap RootSab) : Res (RootDiff (DiffT n)) :=
  (loop (rootValue n ptr defs table f) t ⟨[], []⟩).map fun acc => ⟨acc.params, acc.lists⟩

/-! ## Applying -/

section
variable {D : Type}

/-- apply_params.rs:5-15 `apply_params` -/
def nApplyParams (mi : MetaTable) : List (Nat × Param) → AMap SabVal → Res (AMap SabVal)
  | [], v => .ok v
  | (id, p) :: rest, v =>
    match metaGet mi id with
    | some (k, _) => nApplyParams mi rest (v.insert k (.param p))
    | none => .err

/-- apply_lists.rs:18-30: the new value of a member -/
def nApplyList (ad : Tables → NList → D → Res NList) (dn : Tables → D → Res NList) (tb : Tables) (cur : Option SabVal) (d : Option D) :
    Res SabVal :=
  match d with
  | some d =>
    match cur with
    | some (.mil items next) => (ad tb ⟨items, next⟩ d).map fun l => .mil l.items l.nextId
    | _ => (dn tb d).map fun l => .mil l.items l.nextId
  | none => .ok .milNone

/-- apply_lists.rs:8-37 `apply_lists` -/
def nApplyLists (ad : Tables → NList → D → Res NList) (dn : Tables → D → Res NList) (mi : MetaTable) :
    List (Nat × Option D) → AMap SabVal → Res (AMap SabVal)
  | [], v => .ok v
  | (id, d) :: rest, v =>
    match metaGet mi id with
    | some (k, m) =>
      match metaTables m with
      | some tb => (nApplyList ad dn tb (v.get k) d).bind fun c => nApplyLists ad dn mi rest (v.insert k c)
      | none => .err
    | none => .err

/-- apply_refs.rs:5-15 `apply_refs` -/
def nApplyRefs (mr : MetaTable) : List (Nat × Qv String) → AMap (Qv String) → Res (AMap (Qv String))
  | [], v => .ok v
  | (id, q) :: rest, v =>
    match metaGet mr id with
    | some (k, _) => nApplyRefs mr rest (v.insert k q)
    | none => .err

/-- modify_item_from_diff.rs:8-19 `modify_item_from_diff` -/
def nModify (ad : Tables → NList → D → Res NList) (dn : Tables → D → Res NList) (tb : Tables) (it : Item) (d : RowDiff D) : Res Item :=
  (nApplyParams tb.1 d.params it.values).bind fun v =>
    (nApplyLists ad dn tb.1 d.lists v).bind fun v =>
      (nApplyRefs tb.2 d.refs it.refs).map fun refs => .mk v refs

/-- new_item_from_diff.rs:9-20 `new_item_from_diff`: starts with empty maps -/
def nNewItem (ad : Tables → NList → D → Res NList) (dn : Tables → D → Res NList) (tb : Tables) (d : RowDiff D) : Res Item :=
  nModify ad dn tb (.mk [] []) d

/-- apply_list_diff.rs:12-32: one element of the diff -/
def nApplyItem (ad : Tables → NList → D → Res NList) (dn : Tables → D → Res NList) (tb : Tables) (l : NList) (x : Nat × ItemDiff D) :
    Res NList :=
  match x.2 with
  | .create prev d =>
    (nNewItem ad dn tb d).bind fun row =>
      match l.step (.insertFirstWithId x.1 row) with
      | (l, .bool true) =>
        match prev with
        | none => .ok l
        | some p =>
          match l.step (.moveToNext p x.1) with
          | (l, .bool true) => .ok l
          | _ => .err
      | _ => .err
  | .delete => .ok (l.step (.remove x.1)).1
  | .modify d =>
    match l.find x.1 with
    | some y => (nModify ad dn tb y.2 d).map fun row => (l.step (.setItem x.1 row)).1
    | none => .err

/-- apply_list_diff.rs:7-35 `apply_list_diff` -/
def nApplyListDiff (ad : Tables → NList → D → Res NList) (dn : Tables → D → Res NList) (tb : Tables) (l : NList) (d : ListDiff D) :
    Res NList :=
  loop (nApplyItem ad dn tb) d.items (l.step (.setNextId d.next)).1

/-- diff_to_new_list.rs:6-12 `diff_to_new_list` -/
def nToNewList (ad : Tables → NList → D → Res NList) (dn : Tables → D → Res NList) (tb : Tables) (d : ListDiff D) : Res NList :=
  nApplyListDiff ad dn tb ⟨[], 0⟩ d

end

/-- `diff_to_new_list` and `apply_list_diff` at level `n` -/
def nApplyN : (n : Nat) → (Tables → DiffT n → Res NList) × (Tables → NList → DiffT n → Res NList)
  | 0 => (fun _ d => Empty.elim d, fun _ _ d => Empty.elim d)
  | n + 1 => (nToNewList (nApplyN n).2 (nApplyN n).1, nApplyListDiff (nApplyN n).2 (nApplyN n).1)

/-- apply_root_diff.rs:12-17: the parameters -/
def nRootParams (table : MetaTable) : List (Nat × Param) → AMap RootSab → Res (AMap RootSab)
  | [], v => .ok v
  | (id, p) :: rest, v =>
    match metaGet table id with
    | some (k, _) => nRootParams table rest (v.insert k (.param p))
    | none => .panic

/-- apply_root_diff.rs:25-45: the new value of a list; a list that stays undefined is not written -/
def nRootList {D : Type} (ad : Tables → NList → D → Res NList) (dn : Tables → D → Res NList) (tb : Tables) (cur : Option RootSab)
    (d : Option D) : Res (Option RootSab) :=
  match cur with
  | some (.list m) =>
    match m, d with
    | some m, some d => (ad tb ⟨m.1, m.2⟩ d).map fun l => some (.list (some (l.items, l.nextId)))
    | some _, none => .ok (some (.list none))
    | none, some d => (dn tb d).map fun l => some (.list (some (l.items, l.nextId)))
    | none, none => .ok none
  | _ => .panic

/-- apply_root_diff.rs:18-50: the lists -/
def nRootLists {D : Type} (ad : Tables → NList → D → Res NList) (dn : Tables → D → Res NList) (table : MetaTable) :
    List (Nat × Option D) → AMap RootSab → Res (AMap RootSab)
  | [], v => .ok v
  | (id, d) :: rest, v =>
    match metaGet table id with
    | some (k, m) =>
      match metaTables m with
      | some tb =>
        (nRootList ad dn tb (v.get k) d).bind fun c =>
          nRootLists ad dn table rest (match c with | some c => v.insert k c | none => v)
      | none => .panic
    | none => .panic

/-- apply_root_diff.rs:7-52 `apply_root_diff` -/
def nApplyRoot (n : Nat) (table : MetaTable) (s : AMap RootSab) (d : RootDiff (DiffT n)) : Res (AMap RootSab) :=
  (nRootParams table d.params s).bind (nRootLists (nApplyN n).2 (nApplyN n).1 table d.lists)

/-! ## Tables without names

Writing and reading a diff looks at the types in the tables only (write_list.rs, write_refs.rs, write_root.rs, `read/*.rs`). -/

/-- a table without the names: the references (in the code a reference without a place in the table is a panic; C57: there is none) -/
def refsL (r : MetaTable) : List VType :=
  r.map fun e => match e with | some (_, .param _ vt) => vt | _ => .normal

/-- a column without the names of its members; `none` if it is nested deeper than the level -/
def colL : (n : Nat) → Meta → Option (Col (Sch n))
  | _, .param pt vt => some (.param pt vt)
  | n + 1, .mlist i r => some (.mlist ⟨i.map fun e => e.bind fun e => colL n e.2, refsL r⟩)
  | n + 1, .optMil i r => some (.optMil ⟨i.map fun e => e.bind fun e => colL n e.2, refsL r⟩)
  | 0, _ => none

/-- the table of the root without the names -/
def rootL (n : Nat) (table : MetaTable) : RootSch n := table.map fun e => e.bind fun e => colL n e.2

/-- get_diff.rs:30-34 `get_kvals`, 25-28 `get_diff` -/
def nGetDiff (F : Compaction.FloatOps) (n : Nat) (ptr : Ptr) (defs : AMap (Nat × RootValI)) (table : MetaTable) (f t : AMap RootSab) :
    Res Bytes :=
  (nRootDiff n ptr defs table f t).bind fun d => (writeRoot F n (rootL n table) d).bind Codec.encodeVals

/-- apply_diff.rs:12-18 `apply_diff` -/
def nApplyDiff (F : Compaction.FloatOps) (n : Nat) (table : MetaTable) (s : AMap RootSab) (diff : Bytes) : Res (AMap RootSab) :=
  (Codec.decodeVals diff).bind fun p => (readRoot F n (rootL n table) p.1).bind fun q => nApplyRoot n table s q.1

end Verif.Named
