import Verif.Model.Validate
import Verif.Model.Names
/-!
# Loading the source

Model of `dochy_core/src/imp/json_to_rust/{json_obj_to_rust,json_item_to_rust,json_array_to_rust,array_null,get_id,get_old,get_refs,
construct_root,mod}.rs`, `list/*.rs`, `tmp/*.rs`, `roots/{json_file_to_rust,archive_data_to_root,json_dir_to_root}.rs`,
`structs/meta_table.rs`, `structs/rust_value.rs:33-73` and the constructors in `structs/{list_def_obj,ref_def_obj,root_obj}.rs`.

Simplifications.
* A file is its stem and the value that the parser made of it (`dochy_json5`; its maps have distinct keys, deserialize_item.rs:57-67).
* Spans and error messages are left out.
* `linked_hash_map::LinkedHashMap` is the list of its entries in order.
* A `HashM` is the list of its entries in the order of insertion (`AMap`). The order in which the code iterates over it is that of
  `Env.order`, which may reorder the entries in any way (`Env.Sound`).
* The list made by `LinkedMap::construct` is the list of the pairs it is made of; C60 looks at the real thing.
-/
namespace Verif.Source
open Diff Core

/-- dochy_json5/src/jval.rs:7-16 `JVal`; floats are their bits -/
inductive JVal where
  | null
  | undef
  | bool (b : Bool)
  | string (s : String)
  | int (i : Int)
  | double (f : BitVec 64)
  | array (a : List JVal)
  | map (m : List (String × JVal))

/-- The order in which hash maps are iterated. hash_m.rs:8: the hasher is fixed (FNV), so a build has one order; which one is left open. -/
structure Env where
  order : ∀ {α : Type}, AMap α → AMap α

/-! ## Casts -/

/-- `f64 as u64`: towards zero, saturating, 0 for NaN -/
def f64ToU64 (f : BitVec 64) : Nat :=
  let e := f.toNat / 2 ^ 52 % 2 ^ 11
  let m := f.toNat % 2 ^ 52
  if f.toNat / 2 ^ 63 = 1 then 0
  else if e = 2047 then (if m = 0 then 2 ^ 64 - 1 else 0)
  else if e = 0 then 0
  else
    let v := if 1075 ≤ e then (2 ^ 52 + m) * 2 ^ (e - 1075) else (2 ^ 52 + m) / 2 ^ (1075 - e)
    if v < 2 ^ 64 then v else 2 ^ 64 - 1

/-- `i64 as f64`: to the nearest, ties to even -/
def i64ToF64 (i : Int) : BitVec 64 :=
  let n := i.natAbs
  let sign := if i < 0 then 2 ^ 63 else 0
  if n = 0 then 0
  else
    let l := Nat.log2 n
    let q :=
      if l ≤ 52 then n * 2 ^ (52 - l)
      else
        let s := l - 52
        let q := n / 2 ^ s
        let r := n % 2 ^ s
        if r * 2 > 2 ^ s ∨ (r * 2 = 2 ^ s ∧ q % 2 = 1) then q + 1 else q
    BitVec.ofNat 64 (sign + (l + 1022) * 2 ^ 52 + q)

/-- `i64 as u64` -/
def i64ToU64 (i : Int) : Nat := (i % 2 ^ 64).toNat

/-! ## Definitions with ids -/

/-- ref_def_obj.rs:7-14 `RefDefObj` with the ids of its references -/
structure RefDefI where
  refs : AMap (Nat × Qv String × VType)
  isEnum : Bool
  old : List String

mutual
/-- list_def_obj.rs:8-16 `ListDefObj` with the ids of its members -/
inductive LDef where
  | mk (members : List (String × Nat × LDefVal)) (refs : RefDefI) (old : List String)
/-- list_value.rs:9-14 `ListDefValue` -/
inductive LDefVal where
  | param (p : Param) (vt : VType)
  | cilDef (d : LDef)
  | milDef (d : LDef) (undefiable : Bool)
end

def LDef.members : LDef → AMap (Nat × LDefVal)
  | .mk m _ _ => m
def LDef.refs : LDef → RefDefI
  | .mk _ r _ => r
def LDef.old : LDef → List String
  | .mk _ _ o => o

/-- a mutable list (`LinkedMap<MutItem>`): its items and its next id -/
abbrev MutList := List (Nat × Item) × Nat

/-- rust_value.rs:13-24 `RustValue` -/
inductive RustVal where
  | param (p : Param) (vt : VType)
  | table (d : LDef) (list : AMap Item) (old : List String)
  | clist (d : LDef) (list : List Item)
  | mlist (d : LDef) (undefiable : Bool) (list : Option MutList)
  | cil (list : List Item)
  | mil (list : Option MutList)
  | cilDef (d : LDef)
  | milDef (d : LDef) (undefiable : Bool)

/-- root_value.rs:11-16 `RootValue` -/
inductive RootValI where
  | param (p : Param) (vt : VType)
  | table (d : LDef) (list : AMap Item) (old : List String)
  | clist (d : LDef) (list : List Item)
  | mlist (d : LDef) (undefiable : Bool)

/-! ## Meta tables -/

/-- meta_table.rs:55-60 `MetaValue`; a table is a list with one place per id -/
inductive Meta where
  | param (pt : PType) (vt : VType)
  | mlist (items refs : List (Option (String × Meta)))
  | optMil (items refs : List (Option (String × Meta)))

/-- meta_table.rs:12-15 `MetaTable` -/
abbrev MetaTable := List (Option (String × Meta))

/-- `vec[id] = x` -/
def setAt {α : Type} (v : List α) (id : Nat) (x : α) : Res (List α) := if id < v.length then .ok (v.set id x) else .panic

/-- `vec[id] = Some((key, val))` for every entry that has a value -/
def fill : List (String × Nat × Option Meta) → MetaTable → Res MetaTable
  | [], v => .ok v
  | (k, id, some m) :: r, v => (setAt v id (some (k, m))).bind fun v => fill r v
  | (_, _, none) :: r, v => fill r v

/-- meta_table.rs:163-169 `init_vec` -/
def initVec (n : Nat) : MetaTable := List.replicate n none

/-- meta_table.rs:154-161 `from_ref_def` -/
def metaRefs (env : Env) (d : RefDefI) : Res MetaTable :=
  fill (env.order (d.refs.map fun e => (e.1, e.2.1, some (Meta.param .string e.2.2.2)))) (initVec d.refs.length)

mutual
/-- meta_table.rs:128-153 `from_list_def` -/
def metaList (env : Env) : LDef → Res MetaTable
  | .mk members _ _ =>
    (metaMembers env members).bind fun l => fill (env.order l) (initVec members.length)
/-- the values of the members of a list, in the order of `members` -/
def metaMembers (env : Env) : List (String × Nat × LDefVal) → Res (List (String × Nat × Option Meta))
  | [] => .ok []
  | (k, id, v) :: r =>
    (metaDefVal env v).bind fun m => (metaMembers env r).map fun l => (k, id, m) :: l
/-- meta_table.rs:131-151: one member of a list -/
def metaDefVal (env : Env) : LDefVal → Res (Option Meta)
  | .param p vt => .ok (some (.param (ptype p) vt))
  | .cilDef _ => .ok none
  | .milDef (.mk members refs old) undefiable =>
    (metaList env (.mk members refs old)).bind fun i =>
    (metaRefs env refs).map fun r => some (if undefiable then .optMil i r else .mlist i r)
end

/-- meta_table.rs:104-123: one member of the root -/
def metaRootVal (env : Env) : RootValI → Res (Option Meta)
  | .param p vt => .ok (some (.param (ptype p) vt))
  | .mlist d undefiable =>
    (metaList env d).bind fun i =>
    (metaRefs env d.refs).map fun r => some (if undefiable then .optMil i r else .mlist i r)
  | _ => .ok none

/-- the values of the members of the root, in the order of the map -/
def metaRootVals (env : Env) : AMap (Nat × RootValI) → Res (List (String × Nat × Option Meta))
  | [] => .ok []
  | (k, id, v) :: r =>
    (metaRootVal env v).bind fun m => (metaRootVals env r).map fun l => (k, id, m) :: l

/-- meta_table.rs:99-126 `from_root` -/
def metaRoot (env : Env) (defs : AMap (Nat × RootValI)) : Res MetaTable :=
  (metaRootVals env defs).bind fun l => fill (env.order l) (initVec defs.length)

/-! ## Objects while they are read -/

/-- tmp_obj.rs:49-52 `IdValue` -/
inductive IdVal where
  | str (s : String)
  | num (n : Nat)

/-- tmp_obj.rs:27-32 `TmpRefs` -/
structure TmpRefs where
  map : AMap (Nat × Qv String × VType) := []
  old : List String := []
  isEnum : Bool := false

/-- tmp_obj.rs:18-25 `TmpObj` (`include` is always empty) -/
structure TmpObj where
  default : AMap (Nat × RustVal) := []
  id : Option IdVal := none
  refs : TmpRefs := {}
  old : List String := []

/-- tmp_list.rs:11-19 `TmpList` -/
structure TmpList where
  vec : List TmpObj := []
  old : Option (List String) := none
  default : Option LDef := none
  nextId : Option Nat := none

/-- `HashSet::insert` -/
def insertName (s : List String) (n : String) : List String := if n ∈ s then s else s ++ [n]

/-- json_name.rs:19-35 on strings -/
def nameOf (s : String) : Option Names.NameType := Names.jsonName s.toList

/-- get_id.rs:4-10 `get_id` -/
def getId : JVal → Option IdVal
  | .string s => some (.str s)
  | .double d => some (.num (f64ToU64 d))
  | _ => none

/-- get_old.rs:8-30 `get_old` -/
def getOld (acc : List String) : List JVal → Res (List String)
  | [] => .ok acc
  | .string s :: r =>
    match nameOf s with
    | some (.name n .normal) => getOld (insertName acc (String.ofList n)) r
    | _ => .err
  | _ :: _ => .err

/-- json_item_to_rust.rs:43-72 `json_item_to_rust_ref` -/
def itemRef (vt : VType) : JVal → Res RustVal
  | .string s => .ok (.param (.string (.val s)) vt)
  | .null => .ok (.param (.string .null) vt)
  | .undef => .ok (.param (.string .undef) vt)
  | _ => .err

/-- get_refs.rs:29-48: the loop -/
def refLoop : List (String × Nat × RustVal) → Nat → AMap (Nat × Qv String × VType) → Res (AMap (Nat × Qv String × VType))
  | [], _, m => .ok m
  | (k, _, .param (.string q) vt) :: r, idx, m =>
    match q with
    | .val s =>
      if (Names.jsonSimpleName s.toList).isNone ∧ s ≠ "" then .err
      else refLoop r (idx + 1) (m.insert k (idx, .val s, vt))
    | q => refLoop r (idx + 1) (m.insert k (idx, q, vt))
  | _ :: _, _, _ => .err

/-- get_refs.rs:16-50 `get_ref` without the call of `json_obj_to_rust` -/
def getRef (env : Env) (obj : TmpObj) : Res TmpRefs :=
  if obj.refs.map.length ≠ 0 then .err
  else if obj.id.isSome then .err
  else (refLoop (env.order obj.default) 0 []).map fun m => { map := m, old := obj.old }

/-! ## Arrays -/

/-- array_type.rs:3-7 `ArrayType` -/
inductive AType where
  | float | int | binary
  deriving DecidableEq

/-- json_array_to_rust.rs:70-86 `GatResult`, as far as it comes from a tag -/
inductive Tag where
  | at (t : AType)
  | clist | table | mlist | cil | mil | cilDef | milDef | int | float | str | bool | milUndef
  deriving DecidableEq

/-- json_array_to_rust.rs:93-110: the tags -/
def tagOf (s : String) : Option Tag :=
  if s = "IntArray" then some (.at .int)
  else if s = "FloatArray" then some (.at .float)
  else if s = "Binary" then some (.at .binary)
  else if s = "Int" then some .int
  else if s = "Float" then some .float
  else if s = "Str" then some .str
  else if s = "Bool" then some .bool
  else if s = "CList" then some .clist
  else if s = "Table" then some .table
  else if s = "MList" then some .mlist
  else if s = "Cil" then some .cil
  else if s = "Mil" then some .mil
  else if s = "CilDef" then some .cilDef
  else if s = "MilDef" then some .milDef
  else if s = "__InnerMutUndefined" then some .milUndef
  else none

/-- array_null.rs:10-49 `array_null_or_undefined`; `unreachable!()` is a panic -/
def arrayNull (tag : Tag) (vt : VType) : List JVal → Res RustVal
  | [.null] =>
    match tag with
    | .float => .ok (.param (.float .null) vt)
    | .int => .ok (.param (.int .null) vt)
    | .str => .ok (.param (.string .null) vt)
    | .bool => .ok (.param (.bool .null) vt)
    | _ => .panic
  | [.undef] =>
    match tag with
    | .float => .ok (.param (.float .undef) vt)
    | .int => .ok (.param (.int .undef) vt)
    | .str => .ok (.param (.string .undef) vt)
    | .bool => .ok (.param (.bool .undef) vt)
    | _ => .panic
  | [.int d] => if tag = .float then .ok (.param (.float (.val (i64ToF64 d))) vt) else .err
  | [.double d] => if tag = .float then .ok (.param (.float (.val d)) vt) else .err
  | _ => .err

/-- rust_param.rs:98-113: the element of an array -/
def toFloat : Param → Option (BitVec 64)
  | .float (.val f) => some f
  | _ => none
def toInt : Param → Option Int
  | .int (.val i) => some i
  | _ => none
def toU8 : Param → Option UInt8
  | .int (.val i) => if 0 ≤ i ∧ i < 256 then some (UInt8.ofNat i.toNat) else none
  | _ => none

/-- `iter().map(f).collect::<Option<Vec<_>>>()` -/
def collectOpt {α β : Type} (f : α → Option β) : List α → Option (List β)
  | [] => some []
  | x :: r =>
    match f x with
    | none => none
    | some y => (collectOpt f r).map (y :: ·)

/-- qv.rs `opt_map` -/
def qvOptMap {α β : Type} (f : α → Option β) : Qv α → Option (Qv β)
  | .val a => (f a).map .val
  | .undef => some .undef
  | .null => some .null

/-- rust_array.rs:44-52 `to_param`; an `i64` of an array is its bits -/
def toParam (q : Qv (List Param)) : AType → Option Param
  | .float => (qvOptMap (collectOpt toFloat) q).map .floatArray
  | .int => (qvOptMap (collectOpt toInt) q).map fun q => .intArray (match q with | .val l => .val (l.map (BitVec.ofInt 64)) | .undef => .undef | .null => .null)
  | .binary => (qvOptMap (collectOpt toU8) q).map .binary

/-- json_array_to_rust.rs:122-182: an element put in front of the rest of the array -/
def pushParam (p : Param) : Qv (List Param) → Qv (List Param)
  | .val l => .val (p :: l)
  | q => q

/-- json_array_to_rust.rs:159-173: an array within an array of floats -/
def innerFloat : RustVal → Res Param
  | .param (.float (.val f)) _ => .ok (.float (.val f))
  | _ => .err

/-! ## Lists -/

/-- rust_value.rs:34-43 `into_root_value` -/
def intoRootVal : RustVal → Res (RootValI × Option RootSab)
  | .param p vt => .ok (.param p vt, none)
  | .table d l o => .ok (.table d l o, none)
  | .clist d l => .ok (.clist d l, none)
  | .mlist d u v => .ok (.mlist d u, some (.list v))
  | _ => .err

/-- rust_value.rs:52-61 `into_list_def_value` -/
def intoDefVal : RustVal → Res LDefVal
  | .param p vt => .ok (.param p vt)
  | .cilDef d => .ok (.cilDef d)
  | .milDef d u => .ok (.milDef d u)
  | _ => .err

/-- rust_value.rs:64-73 `into_list_sab_value` -/
def intoSabVal : RustVal → Res SabVal
  | .param p _ => .ok (.param p)
  | .cil l => .ok (.cil l)
  | .mil none => .ok .milNone
  | .mil (some l) => .ok (.mil l.1 l.2)
  | _ => .err

/-- tmp_obj.rs:159-171 `to_list_sab_map` -/
def sabMap : List (String × Nat × RustVal) → AMap SabVal → Res (AMap SabVal)
  | [], m => .ok m
  | (k, _, v) :: r, m => (intoSabVal v).bind fun s => sabMap r (m.insert k s)

/-- tmp_obj.rs:173-185 `to_list_def_val_map` -/
def defMap : List (String × Nat × RustVal) → Nat → AMap (Nat × LDefVal) → Res (AMap (Nat × LDefVal))
  | [], _, m => .ok m
  | (k, _, v) :: r, idx, m => (intoDefVal v).bind fun d => defMap r (idx + 1) (m.insert k (idx, d))

/-- tmp_obj.rs:187-193 `to_ref_sab_map` -/
def refSabMap : List (String × Nat × Qv String × VType) → AMap (Qv String) → AMap (Qv String)
  | [], m => m
  | (k, _, q, _) :: r, m => refSabMap r (m.insert k q)

/-- tmp_obj.rs:116, 131, 155: the item made of an object -/
def toItem (env : Env) (o : TmpObj) : Res Item :=
  (sabMap (env.order o.default) []).map fun v => .mk v (refSabMap (env.order o.refs.map) [])

/-- tmp_obj.rs:92-98 `into_list_def_obj` -/
def intoListDef (env : Env) (o : TmpObj) : Res LDef :=
  if o.id.isSome then .err
  else (defMap (env.order o.default) 0 []).map fun m =>
    .mk m { refs := o.refs.map, isEnum := o.refs.isEnum, old := o.refs.old } o.old

/-- tmp_obj.rs:109-114: an item has no `Old` -/
def TmpObj.hasOld (o : TmpObj) : Bool := decide (o.old.length ≠ 0) || decide (o.refs.old.length ≠ 0)

/-- tmp_obj.rs:104-117 `into_list_item` -/
def intoItem (env : Env) (o : TmpObj) : Res Item :=
  if o.id.isSome then .err else if o.hasOld then .err else toItem env o

/-- tmp_obj.rs:119-137 `into_list_item_with_id` -/
def intoItemWithId (env : Env) (o : TmpObj) : Res (String × Item) :=
  if o.hasOld then .err
  else match o.id with
    | some (.str s) => (toItem env o).map fun i => (s, i)
    | _ => .err

/-- tmp_obj.rs:139-156 `into_mut_list_item` -/
def intoMutItem (env : Env) (idx : Nat) (o : TmpObj) : Res (Nat × Item) :=
  match o.id with
  | some (.str _) => .err
  | some (.num n) => if o.hasOld then .err else (toItem env o).map fun i => (n, i)
  | none => if o.hasOld then .err else (toItem env o).map fun i => (idx, i)

/-- tmp_list.rs:204-210 `to_list_items` -/
def listItems (env : Env) : List TmpObj → Res (List Item)
  | [] => .ok []
  | o :: r => (intoItem env o).bind fun i => (listItems env r).map (i :: ·)

/-- tmp_list.rs:212-219 `to_data_items` -/
def dataItems (env : Env) : List TmpObj → AMap Item → Res (AMap Item)
  | [], m => .ok m
  | o :: r, m => (intoItemWithId env o).bind fun p => dataItems env r (m.insert p.1 p.2)

/-- tmp_list.rs:222-227: the pairs of a mutable list -/
def mutItems (env : Env) : Nat → List TmpObj → Res (List (Nat × Item))
  | _, [] => .ok []
  | idx, o :: r => (intoMutItem env idx o).bind fun p => (mutItems env (idx + 1) r).map (p :: ·)

/-- tmp_list.rs:139-141, 158-160, 221-229: the items of a mutable list; linked_m.rs:83-85: the next id of an empty list is 0 -/
def mutList (env : Env) (t : TmpList) : Res MutList :=
  (mutItems env 0 t.vec).map fun l => (l, if l.isEmpty then 0 else t.nextId.getD t.vec.length)

/-- tmp_list.rs:26-42 `into_const_list` -/
def intoConstList (env : Env) (t : TmpList) : Res RustVal :=
  match t.old, t.default, t.nextId with
  | none, some d, none => (listItems env t.vec).map fun l => .clist d l
  | _, _, _ => .err

/-- tmp_list.rs:46-61 `into_inner_list` -/
def intoInnerList (env : Env) (t : TmpList) : Res RustVal :=
  match t.old, t.default, t.nextId with
  | none, none, none => (listItems env t.vec).map fun l => .cil l
  | _, _, _ => .err

/-- tmp_list.rs:63-76 `into_const_data` -/
def intoConstData (env : Env) (t : TmpList) : Res RustVal :=
  match t.default, t.nextId with
  | some d, none => (dataItems env t.vec []).map fun l => .table d l (t.old.getD [])
  | _, _ => .err

/-- tmp_list.rs:130-145 `into_mut_list` -/
def intoMutList (env : Env) (t : TmpList) (undefiable : Bool) : Res RustVal :=
  match t.old, t.default with
  | none, some d => (mutList env t).map fun l => .mlist d undefiable (some l)
  | _, _ => .err

/-- tmp_list.rs:147-163 `into_mut_inner_list` -/
def intoMutInnerList (env : Env) (t : TmpList) : Res RustVal :=
  match t.old, t.default with
  | none, none => (mutList env t).map fun l => .mil (some l)
  | _, _ => .err

/-- tmp_list.rs:165-183 `into_inner_def` -/
def intoInnerDef (t : TmpList) : Res RustVal :=
  match t.old, t.default, t.nextId, t.vec with
  | none, some d, none, [] => .ok (.cilDef d)
  | _, _, _, _ => .err

/-- tmp_list.rs:185-200 `into_inner_mut_def` -/
def intoInnerMutDef (t : TmpList) (undefiable : Bool) : Res RustVal :=
  match t.old, t.default, t.nextId, t.vec with
  | none, some d, none, [] => .ok (.milDef d undefiable)
  | _, _, _, _ => .err

/-- json_array_to_rust.rs:38-65: the list made of what was read -/
def intoList (env : Env) (tag : Tag) (vt : VType) (t : TmpList) : Res RustVal :=
  match vt with
  | .normal =>
    match tag with
    | .clist => intoConstList env t
    | .table => intoConstData env t
    | .mlist => intoMutList env t false
    | .cil => intoInnerList env t
    | .mil => intoMutInnerList env t
    | .cilDef => intoInnerDef t
    | .milDef => intoInnerMutDef t false
    | _ => .panic
  | .undefiable =>
    match tag with
    | .milDef => intoInnerMutDef t true
    | .mlist => intoMutList env t true
    | _ => .err
  | _ => .err

/-- list_attribute.rs:9-14 `ListAttribute` -/
inductive Attr where
  | default (d : LDef)
  | old (o : List String)
  | nextId (n : Nat)

/-- list_attribute.rs:38-48 -/
def nextIdAttr : List JVal → Res Attr
  | [.int n] => .ok (.nextId (i64ToU64 n))
  | _ => .err

/-- json_list_to_rust.rs:14-43: an attribute is put into the list -/
def addAttr (t : TmpList) : Attr → Res TmpList
  | .default d => if t.default.isNone then .ok { t with default := some d } else .err
  | .old o => if t.old.isNone then .ok { t with old := some o } else .err
  | .nextId n => if t.nextId.isNone then .ok { t with nextId := some n } else .err

/-- tmp_obj.rs:100-102 `insert_default` -/
def addMember (o : TmpObj) (name : String) (id : Nat) (v : RustVal) : TmpObj := { o with default := o.default.insert name (id, v) }

/-- json_obj_to_rust.rs:37-47: `ID` -/
def addId (o : TmpObj) (v : JVal) : Res TmpObj :=
  match o.id, getId v with
  | none, some i => .ok { o with id := some i }
  | _, _ => .err

/-- json_obj_to_rust.rs:48-64: `Ref` or `Enum` -/
def addRefs (env : Env) (o : TmpObj) (isEnum : Bool) (r : Res TmpObj) : Res TmpObj :=
  if o.refs.map.length = 0 then
    r.bind fun x => (getRef env x).map fun refs => { o with refs := { refs with isEnum := isEnum } }
  else .err

/-- json_obj_to_rust.rs:65-72: `Old` -/
def addOld (o : TmpObj) : JVal → Res TmpObj
  | .array a => (getOld [] a).map fun l => { o with old := l }
  | _ => .err

mutual
/-- json_item_to_rust.rs:12-41 `json_item_to_rust` -/
def item (env : Env) (vt : VType) : JVal → Res RustVal
  | .bool b => .ok (.param (.bool (.val b)) vt)
  | .double f => .ok (.param (.float (.val f)) vt)
  | .int i => .ok (.param (.int (.val i)) vt)
  | .string s => .ok (.param (.string (.val s)) vt)
  | .array a => arrayVal env vt a
  | .map _ => .err
  | .null => .err
  | .undef => .err
/-- json_array_to_rust.rs:14-68 `json_array_to_rust` -/
def arrayVal (env : Env) (vt : VType) : List JVal → Res RustVal
  | .string s :: r =>
    match tagOf s with
    | none => .err
    | some (.at t) =>
      (elements env t r.length r).bind fun q =>
      match toParam q t with
      | some p => .ok (.param p vt)
      | none => .err
    | some .int => arrayNull .int vt r
    | some .float => arrayNull .float vt r
    | some .str => arrayNull .str vt r
    | some .bool => arrayNull .bool vt r
    | some .milUndef => .ok (.mil none)
    | some tag =>
      if vt = .normal ∨ vt = .undefiable then (list env {} r).bind fun t => intoList env tag vt t else .err
  | .int i :: r =>
    (elements env .int (r.length + 1) r).bind fun q =>
    match toParam (pushParam (.int (.val i)) q) .int with
    | some p => .ok (.param p vt)
    | none => .panic
  | _ => .err
/-- json_array_to_rust.rs:119-184 `get_array`: the rest of an array of `n` elements -/
def elements (env : Env) (t : AType) (n : Nat) : List JVal → Res (Qv (List Param))
  | [] => .ok (.val [])
  | .double f :: r => if t = .float then (elements env t n r).map (pushParam (.float (.val f))) else .err
  | .int i :: r => (elements env t n r).map (pushParam (if t = .float then .float (.val (i64ToF64 i)) else .int (.val i)))
  | .null :: _ => if n = 1 then .ok .null else .err
  | .undef :: _ => if n = 1 then .ok .undef else .err
  | .array a :: r =>
    if t = .float then
      (arrayVal env .normal a).bind fun v => (innerFloat v).bind fun p => (elements env t n r).map (pushParam p)
    else .err
  | _ :: _ => .err
/-- json_list_to_rust.rs:8-55 `json_list_to_rust` -/
def list (env : Env) (t : TmpList) : List JVal → Res TmpList
  | [] => .ok t
  | .array a :: r => (listAttr env a).bind fun x => (addAttr t x).bind fun t => list env t r
  | .map m :: r =>
    (obj env false m 0 {}).bind fun o => (objs env r).map fun l => { t with vec := o :: l }
  | _ :: _ => .err
/-- get_list_items.rs:7-21 `get_list_items` -/
def objs (env : Env) : List JVal → Res (List TmpObj)
  | [] => .ok []
  | .map m :: r => (obj env false m 0 {}).bind fun o => (objs env r).map fun l => o :: l
  | _ :: _ => .err
/-- list_attribute.rs:17-63 `list_attribute` with get_default.rs:9-27 -/
def listAttr (env : Env) : List JVal → Res Attr
  | .string s :: r =>
    if s = "Default" then
      match r with
      | [.map m] => (obj env false m 0 {}).bind fun o => (intoListDef env o).map .default
      | _ => .err
    else if s = "Old" then (getOld [] r).map .old
    else if s = "NextID" then nextIdAttr r
    else .err
  | [.map m] => (obj env false m 0 {}).bind fun o => (intoListDef env o).map .default
  | _ => .err
/-- json_obj_to_rust.rs:16-79 `json_obj_to_rust`: the rest of the entries, with the counter and what was read so far -/
def obj (env : Env) (isRef : Bool) : List (String × JVal) → Nat → TmpObj → Res TmpObj
  | [], _, o => .ok o
  | (k, v) :: r, counter, o =>
    match nameOf k with
    | none => .err
    | some (.name n vt) =>
      (if isRef then itemRef vt v else item env vt v).bind fun x =>
      obj env isRef r (counter + 1) (addMember o (String.ofList n) counter x)
    | some (.system .id) => (addId o v).bind fun o => obj env isRef r counter o
    | some (.system .ref) =>
      (match v with
        | .map m => addRefs env o false (obj env true m 0 {})
        | _ => .err).bind fun o => obj env isRef r counter o
    | some (.system .enum) =>
      (match v with
        | .map m => addRefs env o true (obj env true m 0 {})
        | _ => .err).bind fun o => obj env isRef r counter o
    | some (.system .old) => (addOld o v).bind fun o => obj env isRef r counter o
end

/-! ## The root -/

/-- root_obj.rs:12-27 `RootObject` with the ids of its members and its meta table -/
structure Root where
  defs : AMap (Nat × RootValI)
  sabun : AMap RootSab
  old : List String
  table : MetaTable

/-- tmp_obj.rs:71-73, construct_root.rs:20-22: the items of a list are put into the second map -/
def putSab (s : AMap RootSab) (k : String) : Option RootSab → AMap RootSab
  | some l => s.insert k l
  | none => s

/-- tmp_obj.rs:60-79 `to_root_hash` -/
def rootHash : List (String × Nat × RustVal) → AMap (Nat × RootValI) → AMap RootSab →
    Res (AMap (Nat × RootValI) × AMap RootSab)
  | [], d, s => .ok (d, s)
  | (k, id, v) :: r, d, s =>
    (intoRootVal v).bind fun x =>
    rootHash r (d.insert k (id, x.1)) (putSab s k x.2)

/-- tmp_obj.rs:59-90 `into_root_obj` with root_obj.rs:50-53 `RootObject::new` -/
def intoRoot (env : Env) (o : TmpObj) : Res Root :=
  if o.id.isSome then .err
  else if o.refs.map.length ≠ 0 then .err
  else
    (rootHash (env.order o.default) [] []).bind fun x =>
    (metaRoot env x.1).map fun t => { defs := x.1, sabun := x.2, old := o.old, table := t }

/-- dochy_archive.rs `ArchivingItem`: what a file is -/
inductive FileItem where
  | root (r : Root)
  | member (name : String) (v : RootValI) (sab : Option RootSab)

/-- json_file_to_rust.rs:9-32 `json_file_to_rust` with mod.rs:24-42; `stem` is the name of the file without its extension -/
def fileItem (env : Env) (stem : String) (v : JVal) : Res FileItem :=
  if stem = "root" then
    match v with
    | .map m => (obj env false m 0 {}).bind fun o => (intoRoot env o).map .root
    | _ => .err
  else
    match nameOf stem with
    | some (.name n vt) => (item env vt v).bind fun x => (intoRootVal x).map fun y => .member (String.ofList n) y.1 y.2
    | _ => .err

/-- a member that comes from a file -/
abbrev Member := String × RootValI × Option RootSab

/-- `vec.sort_by(..)`: insertion into a sorted list, after the equal ones -/
def insertMember (x : Member) : List Member → List Member
  | [] => [x]
  | y :: r => if x.1 < y.1 then x :: y :: r else y :: insertMember x r

/-- construct_root.rs:16: the stable sort by name -/
def sortMembers (l : List Member) : List Member := l.foldl (fun s x => insertMember x s) []

/-- construct_root.rs:17-23: the loop -/
def addMembers : List Member → AMap (Nat × RootValI) → AMap RootSab → AMap (Nat × RootValI) × AMap RootSab
  | [], d, s => (d, s)
  | (name, v, sab) :: r, d, s =>
    addMembers r (d.insert name (d.length, v)) (putSab s name sab)

/-- construct_root.rs:9-32 `construct_root` -/
def constructRoot (env : Env) (root : Root) (members : List Member) : Res Root :=
  let x := addMembers (sortMembers members) root.defs root.sabun
  (metaRoot env x.1).map fun t => { defs := x.1, sabun := x.2, old := root.old, table := t }

/-- json_dir_to_root.rs:29-36 `json_dir_to_archive`: the files in the order of their paths; the first error is an error of the whole -/
def fileItems (env : Env) : List (String × JVal) → Res (List FileItem)
  | [] => .ok []
  | (stem, v) :: r => (fileItem env stem v).bind fun x => (fileItems env r).map (x :: ·)

/-- archive_data_to_root.rs:20-42: the first root is taken out -/
def takeRoot : List FileItem → Option (Root × List FileItem)
  | [] => none
  | .root r :: l => some (r, l)
  | x :: l => (takeRoot l).map fun p => (p.1, x :: p.2)

/-- archive_data_to_root.rs:45-55: the others are members -/
def memberItems : List FileItem → Res (List Member)
  | [] => .ok []
  | .member n v s :: r => (memberItems r).map ((n, v, s) :: ·)
  | .root _ :: _ => .err

/-- json_dir_to_root.rs:16-23 `json_dir_to_root_with_hash` with archive_data_to_root.rs:16-59, without the hash and before validation -/
def loadDir (env : Env) (files : List (String × JVal)) : Res Root :=
  (fileItems env files).bind fun items =>
  match takeRoot items with
  | none => .err
  | some (root, rest) => (memberItems rest).bind fun ms => constructRoot env root ms

/-! ## Without the ids -/

def RefDefI.erase (d : RefDefI) : RefDef := ⟨d.refs.map fun e => (e.1, e.2.2), d.isEnum, d.old⟩

mutual
def LDef.erase : LDef → ListDef
  | .mk members refs old => .mk (eraseMembers members) refs.erase old
def eraseMembers : List (String × Nat × LDefVal) → List (String × DefVal)
  | [] => []
  | (k, _, v) :: r => (k, v.erase) :: eraseMembers r
def LDefVal.erase : LDefVal → DefVal
  | .param p vt => .param p vt
  | .cilDef d => .cilDef d.erase
  | .milDef d u => .milDef d.erase u
end

def RootValI.erase : RootValI → RootVal
  | .param p vt => .param p vt
  | .table d l o => .table d.erase l o
  | .clist d l => .clist d.erase l
  | .mlist d u => .mlist d.erase u

/-- the object as `Verif.Core` has it -/
def Root.erase (r : Root) : RootObj := ⟨r.defs.map fun e => (e.1, e.2.2.erase), r.sabun, r.old⟩

/-- json_dir_to_root.rs:16-23 with `validation` -/
def loadValid (env : Env) (files : List (String × JVal)) : Res Root :=
  (loadDir env files).bind fun r => (validateRoot r.erase false).map fun _ => r

end Verif.Source
