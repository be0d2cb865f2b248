import Verif.Model.Json5
/-!
# Writing objects as JSON

Model of `dochy_core/src/imp/structs/my_json.rs`, `imp/rust_to_json/*.rs`, `imp/rust_to_json/list/*.rs`, and of
`json_to_rust/mod.rs:24-38`, which reads such a text.

Simplifications.
* `f64::to_string` is the parameter `disp`.
* A `BTreeMap` is the list of its entries in the order of the keys (`btree`). A `HashM` is the list of its entries; the order of the
  entries does not matter here, as they go through a `BTreeMap`.
* `u64 as f64` is `i64ToF64` (the same rounding).
-/
namespace Verif.Export
open Diff Core Source

/-- my_json.rs:4-13 `Value`; floats are their bits -/
inductive JV where
  | bool (b : Bool)
  | string (s : String)
  | number (f : BitVec 64)
  | array (a : List JV)
  | map (m : List (String × JV))
  | null
  | undef

/-! ## The text -/

/-- my_json.rs:68-70 `indent_str` -/
def indent (n : Nat) : List Char := List.replicate (2 * n) ' '

mutual
/-- my_json.rs:23-33 `write` -/
def write (disp : BitVec 64 → List Char) (level : Nat) : JV → List Char
  | .bool b => if b then "true".toList else "false".toList
  | .string s => '"' :: (s.toList ++ ['"'])
  | .null => "null".toList
  | .undef => "undefined".toList
  | .number f => disp f
  | .array a => writeArray disp (level + 1) a
  | .map m => writeMap disp (level + 1) m
/-- my_json.rs:35-66 `write_array` -/
def writeArray (disp : BitVec 64 → List Char) (level : Nat) : List JV → List Char
  | [] => ['[', ']']
  | [a] => '[' :: ' ' :: (write disp level a ++ [' ', ']'])
  | [a, b] => '[' :: ' ' :: (write disp level a ++ ',' :: ' ' :: (write disp level b ++ [' ', ']']))
  | a :: r => '[' :: '\n' :: (indent level ++ (write disp level a ++ writeLines disp level r))
/-- my_json.rs:52-65: the rest of an array of three or more -/
def writeLines (disp : BitVec 64 → List Char) (level : Nat) : List JV → List Char
  | [] => '\n' :: (indent (level - 1) ++ [']'])
  | a :: r => ',' :: '\n' :: (indent level ++ (write disp level a ++ writeLines disp level r))
/-- my_json.rs:72-95 `write_map` -/
def writeMap (disp : BitVec 64 → List Char) (level : Nat) : List (String × JV) → List Char
  | [] => ['{', '}']
  | [(k, v)] => '{' :: ' ' :: '"' :: (k.toList ++ '"' :: ' ' :: ':' :: ' ' :: (write disp level v ++ [' ', '}']))
  | (k, v) :: r =>
    '{' :: '\n' :: (indent level ++ '"' :: (k.toList ++ '"' :: ' ' :: ':' :: ' ' ::
      (write disp level v ++ ',' :: '\n' :: writeMembers disp level r)))
/-- my_json.rs:81-93: the rest of the members of a map of two or more -/
def writeMembers (disp : BitVec 64 → List Char) (level : Nat) : List (String × JV) → List Char
  | [] => indent (level - 1) ++ ['}']
  | (k, v) :: r =>
    indent level ++ '"' :: (k.toList ++ '"' :: ' ' :: ':' :: ' ' :: (write disp level v ++ ',' :: '\n' :: writeMembers disp level r))
end

/-- my_json.rs:16-20 `to_string_pretty` -/
def pretty (disp : BitVec 64 → List Char) (v : JV) : List Char := write disp 0 v

/-! ## Sorted maps -/

/-- `BTreeMap::insert` -/
def bInsert {α : Type} (k : String) (v : α) : List (String × α) → List (String × α)
  | [] => [(k, v)]
  | (l, w) :: r => if k < l then (k, v) :: (l, w) :: r else if k = l then (k, v) :: r else (l, w) :: bInsert k v r

/-- the `BTreeMap` with these entries -/
def btree {α : Type} (l : List (String × α)) : List (String × α) := l.foldl (fun m e => bInsert e.1 e.2 m) []

/-- tmp_json_list.rs:113-115 `btree_set` -/
def bset (l : List String) : List String := (btree (l.map fun s => (s, ()))).map (·.1)

/-- value_map_to_json.rs:6-15, with tmp_json_list.rs:117-119 `btree_map`: by the names, then by the names with suffixes -/
def valueMap (l : List (String × String × JV)) : List (String × JV) := btree ((btree l).map (·.2))

/-! ## Values -/

/-- name_with_suffix.rs:3-5 -/
def withSuffix (n : String) (vt : VType) : String := String.ofList (Names.nameWithSuffix n.toList vt)

/-- get_param.rs:21-27 `to` -/
def toJV {α : Type} (name : String) (f : α → JV) : Qv α → JV
  | .val a => f a
  | .null => .array [.string name, .null]
  | .undef => .array [.string name, .undef]

/-- get_param.rs:10-11 on a float, which is also what the elements of arrays of floats are written with -/
def floatJV (f : BitVec 64) : JV := .array [.string "Float", .number f]
/-- get_param.rs:12 on an integer -/
def intJV (i : Int) : JV := .number (i64ToF64 i)

/-- rust_array_to_json.rs:30-38: the elements -/
def elemsJV {α : Type} (f : α → JV) : Qv (List α) → List JV
  | .val l => l.map f
  | .undef => [.undef]
  | .null => [.null]

/-- rust_array_to_json.rs:13-21: no tag in front of integers -/
def intTag : Qv (List (BitVec 64)) → List JV
  | .val (_ :: _) => []
  | _ => [.string "IntArray"]

/-- get_param.rs:6-19 `get_param` with rust_array_to_json.rs:7-40 -/
def getParam : Param → JV
  | .bool q => toJV "Bool" .bool q
  | .string q => toJV "Str" .string q
  | .float q => toJV "Float" floatJV q
  | .int q => toJV "Int" intJV q
  | .intArray q => .array (intTag q ++ elemsJV (fun b => intJV b.toInt) q)
  | .floatArray q => .array (.string "FloatArray" :: elemsJV floatJV q)
  | .binary q => .array (.string "Binary" :: elemsJV (fun b : UInt8 => intJV b.toNat) q)

/-- ref_def_obj_to_json.rs:18-24 `reconstruct_ref_value` -/
def refJV : Qv String → JV
  | .val v => .string v
  | .null => .null
  | .undef => .undef

/-- string_set_to_json.rs:5-7 `string_set_to_json_short` -/
def setJV (l : List String) : JV := .array ((bset l).map .string)

/-! ## Lists -/

/-- ref_def_obj_to_json.rs:7-16 `ref_def_obj_to_json` -/
def refDefJV (d : RefDefI) : List (String × JV) := btree (d.refs.map fun e => (withSuffix e.1 e.2.2.2, refJV e.2.2.1))

/-- default_to_json.rs:12-21: references and old names -/
def addRefOld (refs : RefDefI) (old : List String) (m : List (String × JV)) : List (String × JV) :=
  let m := if refs.refs.length ≠ 0 then bInsert (if refs.isEnum then "Enum" else "Ref") (.map (refDefJV refs)) m else m
  if old.length ≠ 0 then bInsert "Old" (setJV old) m else m

mutual
/-- default_to_json.rs:10-23 `default_to_json` -/
def ldefJV : LDef → JV
  | .mk members refs old => .map (addRefOld refs old (valueMap (ldefMembers members)))
/-- rust_value_to_json_value.rs:12-40 on the members of a definition -/
def ldefMembers : List (String × Nat × LDefVal) → List (String × String × JV)
  | [] => []
  | (k, _, v) :: r => (k, ldefVal k v) :: ldefMembers r
/-- rust_value_to_json_value.rs:14-16, 29-37; default_to_json.rs:25-30 `inner_def_to_json`; inner_mut_def_to_json.rs -/
def ldefVal (k : String) : LDefVal → String × JV
  | .param p vt => (withSuffix k vt, getParam p)
  | .cilDef d => (k, .array [.string "CilDef", .array [ldefJV d]])
  | .milDef d undefiable =>
    (if undefiable then withSuffix k .undefiable else k, .array [.string "MilDef", .array [ldefJV d]])
end

/-- tmp_obj_to_json.rs:10-15, 19-25: `ID` and `Ref`; tmp_json_list.rs:58-62, tmp_refs_to_json.rs -/
def addIdRef (id : Option JV) (refs : AMap (Qv String)) (m : List (String × JV)) : List (String × JV) :=
  let m := match id with
    | some v => bInsert "ID" v m
    | none => m
  if refs.length ≠ 0 then bInsert "Ref" (.map (btree (refs.map fun e => (e.1, refJV e.2)))) m else m

mutual
/-- tmp_json_list.rs:27-42 `from_list_item`, `from_mut_list_item`; tmp_obj_to_json.rs:8-28 -/
def itemJV (id : Option JV) : Item → JV
  | .mk values refs => .map (addIdRef id refs (valueMap (itemVals values)))
def itemVals : List (String × SabVal) → List (String × String × JV)
  | [] => []
  | (k, v) :: r => (k, k, sabJV v) :: itemVals r
/-- list_sab_value.rs:31-38; rust_value_to_json_value.rs:14-27 on what is in an item -/
def sabJV : SabVal → JV
  | .param p => getParam p
  | .cil l => .array (.string "Cil" :: itemsJV l)
  | .milNone => .array [.string "__InnerMutUndefined"]
  | .mil l _ => .array (.string "Mil" :: mutItemsJV l)
def itemsJV : List Item → List JV
  | [] => []
  | i :: r => itemJV none i :: itemsJV r
def mutItemsJV : List (Nat × Item) → List JV
  | [] => []
  | (id, i) :: r => itemJV (some (intJV id)) i :: mutItemsJV r
end

/-- tmp_json_list.rs:74-78: a table, by the ids of its items -/
def tableItems (l : AMap Item) : List JV := (btree l).map fun e => itemJV (some (.string e.1)) e.2

/-- tmp_list_to_json.rs:17-19 -/
def oldAttr (old : List String) : List JV :=
  if old.length = 0 then [] else [.array (.string "Old" :: (bset old).map .string)]

/-- root_to_json.rs:32-36, root_value.rs:20-33, rust_value_to_json_value.rs:17-19 and tmp_list_to_json.rs:9-36 on a list of the root; an
undefined list is written as an empty one (tmp_json_list.rs:89-92) -/
def rootListJV (v : RootValI) (sab : RootSab) : Res JV :=
  match v, sab with
  | .param p _, _ => .ok (getParam p)
  | .table d l old, _ => .ok (.array (.string "Table" :: (oldAttr old ++ .array [ldefJV d] :: tableItems l)))
  | .clist d l, _ => .ok (.array (.string "CList" :: .array [ldefJV d] :: itemsJV l))
  | .mlist d _, .list none => .ok (.array [.string "MList", .array [.string "NextID", intJV 0], .array [ldefJV d]])
  | .mlist d _, .list (some (l, next)) =>
    .ok (.array (.string "MList" :: .array [.string "NextID", intJV next] :: .array [ldefJV d] :: mutItemsJV l))
  | .mlist _ _, .param _ => .err

/-- root_to_json.rs:26-36: one member -/
def rootMember (sabun : AMap RootSab) (k : String) : RootValI → Res (List (String × String × JV))
  | .param p vt =>
    match sabun.get k with
    | some (.param q) => .ok [(k, withSuffix k vt, getParam q)]
    | _ => .ok [(k, withSuffix k vt, getParam p)]
  | v =>
    match sabun.get k with
    | some s => (rootListJV v s).map fun j => [(k, k, j)]
    | none => .ok []

/-- root_to_json.rs:25-37: the loop. What `remove` leaves does not matter, as the names of `defs` are distinct. -/
def rootMembers (sabun : AMap RootSab) : AMap (Nat × RootValI) → Res (List (String × String × JV))
  | [] => .ok []
  | (k, _, v) :: r => (rootMember sabun k v).bind fun l => (rootMembers sabun r).map (l ++ ·)

/-- root_to_json.rs:19-43 `root_to_json_new_default` -/
def rootToJson (r : Root) : Res JV :=
  (rootMembers r.sabun r.defs).map fun l => .map (bInsert "Old" (setJV r.old) (valueMap l))

/-- json_to_rust/mod.rs:24-36 `json_root_to_rust` -/
def loadText (env : Env) (u : Json5.Uni) (pf : List Char → Option UInt64) (fromU32 : Nat → UInt64) (s : List Char) : Res Root :=
  (Json5.fromStr u pf fromU32 s).bind fun v =>
  match v with
  | .map m => (obj env false m 0 {}).bind fun o => intoRoot env o
  | _ => .err

/-- the object written as a text and read again -/
def reload (env : Env) (u : Json5.Uni) (pf : List Char → Option UInt64) (fromU32 : Nat → UInt64) (disp : BitVec 64 → List Char)
    (r : Root) : Res Root :=
  (rootToJson r).bind fun v => loadText env u pf fromU32 (pretty disp v)

end Verif.Export
