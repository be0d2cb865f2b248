import Verif.Model.DiffData
/-!
# Computing a diff

Model of `dochy_diff/src/imp/prepare/*.rs`.

`RustString`, `RustIntArray` and `RustBinary` are compared by pointer (`Arc::ptr_eq`).  The answer is an oracle `Ptr`, asked
for the place of the value; it can only be positive if the contents agree, otherwise nothing is assumed about it.
The loops over a `HashM` insert into a `BTreeMap` by id; here they run over the ids in ascending order.
-/
namespace Verif.Diff
open VarInt Codec Compaction LinkedMap

/-- Whether the two values at a place (path of member and item ids) are the same allocation, if they are equal at all. -/
abbrev Ptr := List Nat → Bool

/-- qv.rs `identity_eq` of `Qv`, for a comparison of values. -/
def Qv.identEq {α : Type} (eq : α → α → Bool) : Qv α → Qv α → Bool
  | .val a, .val b => eq a b
  | .null, .null => true
  | .undef, .undef => true
  | _, _ => false

/-- `Vec<f64> == Vec<f64>`. -/
def eqFloats : List (BitVec 64) → List (BitVec 64) → Bool
  | [], [] => true
  | a :: as, b :: bs => eq64 a b && eqFloats as bs
  | _, _ => false

/-- rust_param.rs:121-134 `identity_eq`; util/identity_equal_trait.rs:32-54 (bool, i64, f64), rust_string.rs:26-30,
rust_array.rs:74-78, 99-103, 128-132 (`ptr_eq`, `==` on `Vec<f64>`, `ptr_eq`). -/
def identEq (ptr : Bool) : Param → Param → Bool
  | .bool a, .bool b => a.identEq (· == ·) b
  | .int a, .int b => a.identEq (· == ·) b
  | .float a, .float b => a.identEq eq64 b
  | .string a, .string b => a.identEq (fun x y => ptr && x == y) b
  | .intArray a, .intArray b => a.identEq (fun x y => ptr && x == y) b
  | .floatArray a, .floatArray b => a.identEq eqFloats b
  | .binary a, .binary b => a.identEq (fun x y => ptr && x == y) b
  | _, _ => false

/-- A `BTreeMap` filled from the members `0..n`. -/
def collect {β : Type} (n : Nat) (f : Nat → Option β) : List (Nat × β) :=
  (List.range n).filterMap fun i => (f i).map fun b => (i, b)

section
variable {S X D : Type}

/-- compare_items.rs:17-27 and get_root_diff.rs:25-41: the parameter to be stored for a member. -/
def paramDiff (ptr : Bool) (f t : Option (Cell X)) : Option Param :=
  match t with
  | some (.param p) =>
    match f with
    | some (.param q) => if identEq ptr p q then none else some p
    | _ => some p
  | _ => none

/-- compare_items.rs:28-61: the list diff to be stored for a member. -/
def listDiff (gd : S → X → X → Option D) (nl : S → X → D) (c : Option (Col S)) (f t : Option (Cell X)) : Option (Option D) :=
  match t, c.bind Col.tables with
  | some (.mil m), some s =>
    match f with
    | some (.mil (some a)) =>
      match m with
      | some b => (gd s a b).map some
      | none => some none
    | some (.mil none) =>
      match m with
      | some b => some (some (nl s b))
      | none => none
    | _ =>
      match m with
      | some b => some (some (nl s b))
      | none => some none
  | _, _ => none

/-- compare_items.rs:68-79: the reference to be stored. -/
def refDiff (f t : Option (Qv String)) : Option (Qv String) :=
  match t with
  | some t =>
    match f with
    | some f => if f ≠ t then some t else none
    | none => some t
  | none => none

/-- compare_items.rs:8-86 `compare_items`. -/
def compareItems (ptr : Ptr) (gd : Ptr → S → X → X → Option D) (nl : S → X → D) (tb : Table S) (f t : Row X) :
    Option (RowDiff D) :=
  let params := collect t.values.length fun i => paramDiff (ptr [i]) (entry f.values i) (entry t.values i)
  let lists := collect t.values.length fun i =>
    listDiff (gd fun p => ptr (i :: p)) nl (entry tb.items i) (entry f.values i) (entry t.values i)
  let refs := collect t.refs.length fun i => refDiff (entry f.refs i) (entry t.refs i)
  if params.length = 0 ∧ refs.length = 0 ∧ lists.length = 0 then none else some ⟨params, refs, lists⟩

/-- new_item.rs:20-33: the list diff of a member of a new item. -/
def newItemList (nl : S → X → D) (c : Option (Col S)) (t : Option (Cell X)) : Option (Option D) :=
  match t, c.bind Col.tables with
  | some (.mil m), some s =>
    match m with
    | some b => some (some (nl s b))
    | none => some none
  | _, _ => none

/-- new_item.rs:13-19: the parameter of a member of a new item. -/
def newItemParam (t : Option (Cell X)) : Option Param :=
  match t with
  | some (.param p) => some p
  | _ => none

/-- new_item.rs:6-46 `new_item`. -/
def newItem (nl : S → X → D) (tb : Table S) (t : Row X) : RowDiff D :=
  ⟨collect t.values.length fun i => newItemParam (entry t.values i),
   collect t.refs.length fun i => entry t.refs i,
   collect t.values.length fun i => newItemList nl (entry tb.items i) (entry t.values i)⟩

/-- get_mlist_diff.rs:20-27 and new_list.rs:8-13: the items of `to` with a running `prev_id`, those already there left out. -/
def creates (old : Nat → Bool) (ni : Row X → RowDiff D) : Option Nat → List (Nat × Row X) → List (Nat × ItemDiff D)
  | _, [] => []
  | prev, (id, r) :: rest =>
    (if old id then [] else [(id, .create prev (ni r))]) ++ creates old ni (some id) rest

/-- new_list.rs:5-16 `new_list`. -/
def newList (nl : S → X → D) (tb : Table S) (l : SList (Row X)) : ListDiff D :=
  ⟨creates (fun _ => false) (newItem nl tb) none l.items, l.nextId⟩

/-- get_mlist_diff.rs:10-18: what is stored for an item of `from`. -/
def oldItem (ptr : Ptr) (gd : Ptr → S → X → X → Option D) (nl : S → X → D) (tb : Table S) (to : SList (Row X))
    (x : Nat × Row X) : Option (Nat × ItemDiff D) :=
  match to.find x.1 with
  | some y => (compareItems (fun p => ptr (x.1 :: p)) gd nl tb x.2 y.2).map fun d => (x.1, .modify d)
  | none => some (x.1, .delete)

/-- get_mlist_diff.rs:6-34 `get_mlist_diff`. -/
def getMListDiff (ptr : Ptr) (gd : Ptr → S → X → X → Option D) (nl : S → X → D) (tb : Table S) (from_ to : SList (Row X)) :
    Option (ListDiff D) :=
  let result := from_.items.filterMap (oldItem ptr gd nl tb to) ++
    creates (fun id => decide (id ∈ from_.ids)) (newItem nl tb) none to.items
  if result.length = 0 then none else some ⟨result, to.nextId⟩

end

/-- `new_list` of a list of level `n`. -/
def newListN : (n : Nat) → Sch n → Obj n → DiffT n
  | 0 => fun s => nomatch s
  | n + 1 => fun s l => newList (newListN n) s l

/-- `get_mlist_diff` of two lists of level `n`. -/
def getDiffN : (n : Nat) → Ptr → Sch n → Obj n → Obj n → Option (DiffT n)
  | 0 => fun _ s => nomatch s
  | n + 1 => fun ptr s a b => getMListDiff ptr (getDiffN n) (newListN n) s a b

/-- get_root_diff.rs:42-72: what is stored for a list member of the root object; `none` if nothing. -/
def rootListDiff {S X D : Type} (gd : S → X → X → Option D) (nl : S → X → D) (c : Option (Col S)) (f t : Option (Cell X)) :
    Res (Option (Option D)) :=
  match t with
  | some (.mil m) =>
    match f with
    | some (.mil m') =>
      match m', m with
      | none, none => .ok none
      | _, _ =>
        match c with
        | some (.mlist s) =>
          match m', m with
          | some a, some b => .ok ((gd s a b).map some)
          | some _, none => .ok (some none)
          | none, some b => .ok (some (some (nl s b)))
          | none, none => .ok none
        | _ => .panic
    | _ => .panic
  | _ => .ok none

/-- A `BTreeMap` filled from the given members by code that may panic. -/
def collectR {β : Type} (f : Nat → Res (Option β)) : List Nat → Res (List (Nat × β))
  | [] => .ok []
  | i :: is => (f i).bind fun a => (collectR f is).bind fun rest => .ok (a.toList.map (fun a => (i, a)) ++ rest)

/-- get_root_diff.rs:9-78 `get_root_diff`. -/
def getRootDiff (n : Nat) (ptr : Ptr) (sch : RootSch n) (f t : Root n) : Res (RootDiff (DiffT n)) :=
  (collectR (fun i => rootListDiff (getDiffN n fun p => ptr (i :: p)) (newListN n) (entry sch i) (entry f i) (entry t i))
    (List.range t.length)).bind fun lists =>
  .ok ⟨collect t.length fun i => paramDiff (ptr [i]) (entry f i) (entry t i), lists⟩

end Verif.Diff
