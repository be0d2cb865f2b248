import Verif.Model.DiffWrite
/-!
# Objects and their definitions, by member name

Model of the data of `dochy_core`: `imp/structs/{root_obj,root_def_obj,root_value,root_sab_value,rust_list,list_def_obj,
list_value,list_sab_value,mut_list_def,ref_def_obj,ref_value,var_type,rust_param}.rs`.

Simplifications.
* A hash map is an association list (`AMap`); the order of its entries stands for the order in which the code happens to iterate.
  `AMap.Wf` says that the keys are distinct.
* A mutable list (`LinkedMap`) is the ordered list that it is proved to behave like (C14), with its next id.
* The ids of the members and the `MetaTable` are left out: nothing here looks at them (the model of diffs does).
* `Arc::make_mut` copies; the copy of an emptied list has the next id 0 (C15).
-/
namespace Verif.Core
open Diff

/-! ## Maps -/

/-- util/hash_m.rs:8 `HashM<String, V>` -/
abbrev AMap (α : Type) := List (String × α)

namespace AMap
variable {α : Type}

/-- `HashMap::get` -/
def get : AMap α → String → Option α
  | [], _ => none
  | (k', v) :: r, k => if k = k' then some v else get r k

/-- `HashMap::insert` -/
def insert : AMap α → String → α → AMap α
  | [], k, v => [(k, v)]
  | (k', v') :: r, k, v => if k = k' then (k, v) :: r else (k', v') :: insert r k v

/-- `HashMap::remove` -/
def remove : AMap α → String → AMap α
  | [], _ => []
  | (k', v') :: r, k => if k = k' then r else (k', v') :: remove r k

/-- The keys are distinct. -/
def Wf (m : AMap α) : Prop := (m.map (·.1)).Nodup

end AMap

/-! ## Values and definitions -/

/-- ref_def_obj.rs:7-14 `RefDefObj` with ref_value.rs:11-14 `RefValue` -/
structure RefDef where
  refs : AMap (Qv String × VType)
  isEnum : Bool
  old : List String

mutual
/-- list_def_obj.rs:8-16 `ListDefObj` -/
inductive ListDef where
  | mk (members : List (String × DefVal)) (refs : RefDef) (old : List String)
/-- list_value.rs:9-14 `ListDefValue` with mut_list_def.rs:4-8 `MutListDef` -/
inductive DefVal where
  | param (p : Param) (vt : VType)
  | cilDef (d : ListDef)
  | milDef (d : ListDef) (undefiable : Bool)
end

def ListDef.members : ListDef → AMap DefVal
  | .mk m _ _ => m
def ListDef.refs : ListDef → RefDef
  | .mk _ r _ => r
def ListDef.old : ListDef → List String
  | .mk _ _ o => o

mutual
/-- list_sab_value.rs:9-15 `ListSabValue` with rust_list.rs:86-88 `ConstListVal`, 100-102 `MutListVal`; `milNone` is `Mil(None)`,
`mil items next` is a mutable list with the next id `next` -/
inductive SabVal where
  | param (p : Param)
  | cil (items : List Item)
  | milNone
  | mil (items : List (Nat × Item)) (next : Nat)
/-- rust_list.rs:123-128 `ConstItem`, 158-163 `MutItem` -/
inductive Item where
  | mk (values : List (String × SabVal)) (refs : List (String × Qv String))
end

def Item.values : Item → AMap SabVal
  | .mk v _ => v
def Item.refs : Item → AMap (Qv String)
  | .mk _ r => r

/-- root_value.rs:11-16 `RootValue` with rust_list.rs:17-22 `ConstTable`, 37-40 `ConstList` -/
inductive RootVal where
  | param (p : Param) (vt : VType)
  | table (d : ListDef) (list : AMap Item) (old : List String)
  | clist (d : ListDef) (list : List Item)
  | mlist (d : ListDef) (undefiable : Bool)

/-- root_sab_value.rs:6-9 `RootSabValue`; a mutable list is its items and its next id -/
inductive RootSab where
  | param (p : Param)
  | list (l : Option (List (Nat × Item) × Nat))

/-- root_obj.rs:12-27 `RootObject` (without its identity and its meta table) -/
structure RootObj where
  defs : AMap RootVal
  sabun : AMap RootSab
  old : List String

/-! ## Types -/

/-- rust_param.rs:37-50 `type_num` -/
def ptype : Param → PType
  | .bool _ => .bool
  | .int _ => .int
  | .float _ => .float
  | .string _ => .string
  | .intArray _ => .intArray
  | .floatArray _ => .floatArray
  | .binary _ => .binary

/-- rust_param.rs:53-58 `acceptable` -/
def paramAcceptable (p q : Param) : Bool := decide (ptype p = ptype q)

/-- var_type.rs:13-18 `undefiable` -/
def canUndef : VType → Bool
  | .undefiable => true
  | .undefNullable => true
  | _ => false

/-- var_type.rs:33-55 `acceptable` -/
def varAcceptable : VType → QvType → Bool
  | .normal, .val => true
  | .normal, _ => false
  | .nullable, .val => true
  | .nullable, .null => true
  | .nullable, _ => false
  | .undefiable, .val => true
  | .undefiable, .undef => true
  | .undefiable, _ => false
  | .undefNullable, _ => true

/-- rust_param.rs:61-73 `to_undefined` -/
def toUndefined : Param → Param
  | .bool _ => .bool .undef
  | .float _ => .float .undef
  | .int _ => .int .undef
  | .string _ => .string .undef
  | .floatArray _ => .floatArray .undef
  | .intArray _ => .intArray .undef
  | .binary _ => .binary .undef

/-- rust_param.rs:86-96 `to_default_value` -/
def toDefaultValue (len : Nat) : Param → Param
  | .bool _ => .bool (.val false)
  | .float _ => .float (.val 0)
  | .int _ => .int (.val 0)
  | .string _ => .string (.val "")
  | .floatArray _ => .floatArray (.val (List.replicate len 0))
  | .intArray _ => .intArray (.val (List.replicate len 0))
  | .binary _ => .binary (.val (List.replicate len 0))

end Verif.Core
