import Verif.Tests.Sources
/-!
# The accessors of the project, compared with the model of the generator

The project has the output of its generator for 35 sources. Each is compared with the model: the types, their variants, their functions, and
for each function the call in its body, the key it passes and how it unwraps what it gets. The lines here were extracted from the generated
files; the order of declarations is that of hash maps and is left out. These are tests of the model, not proofs.
-/
namespace Verif.Tests
open Pipeline Source Core Intf Codec VarInt Diff

/-- the name of a type in the functions of dochy_core/src/imp/intf/{root,citem,mitem}.rs -/
def typeWord : PType → String
  | .bool => "bool"
  | .int => "int"
  | .float => "float"
  | .string => "str"
  | .intArray => "int_array"
  | .floatArray => "float_array"
  | .binary => "binary"

/-- `into_value().unwrap()`, `NullOr::from_qv`, `UndefOr::from_qv` or the value itself -/
def unwrapWord : VType → String
  | .normal => "V"
  | .nullable => "N"
  | .undefiable => "U"
  | .undefNullable => "Q"

/-- `Qv::Val(..)` or `into_qv()` -/
def wrapWord : VType → String
  | .normal => "V"
  | _ => "I"

/-- the call in the body of a function -/
def callWord : Body → String
  | .get n t vt => (if byRef t then "get_immutable_" else "get_") ++ typeWord t ++ ":" ++ n ++ ":" ++ unwrapWord vt
  | .getMut n t vt => "get_mutable_" ++ typeWord t ++ ":" ++ n ++ ":" ++ unwrapWord vt
  | .getDef n t vt => "get_" ++ typeWord t ++ "_def:" ++ n ++ ":" ++ unwrapWord vt
  | .set n t vt => "set_" ++ typeWord t ++ ":" ++ n ++ ":" ++ wrapWord vt
  | .table n => "get_table:" ++ n ++ ":"
  | .clist n => "get_clist:" ++ n ++ ":"
  | .mlist n u => "get_mlist_const:" ++ n ++ ":" ++ (if u then "O" else "V")
  | .mlistMut n => "get_mlist_mut:" ++ n ++ ":"
  | .cil n => "get_cil:" ++ n ++ ":"
  | .mil n u => "get_mil_const:" ++ n ++ ":" ++ (if u then "O" else "V")
  | .milMut n => "get_mil_mut:" ++ n ++ ":"
  | .ref t vt => "get_ref:" ++ t ++ ":" ++ unwrapWord vt
  | .refId t vt => "get_ref_id:" ++ t ++ ":" ++ unwrapWord vt
  | .setRef t vt => "set_ref:" ++ t ++ ":" ++ wrapWord vt
  | .getEnum _ => "get_enum::"
  | .getEnumIds => "get_enum::"
  | .setEnum => "set_enum::"
  | .entry id => "get_value:" ++ id ++ ":"
  | .fixed => ""

def sorted (l : List String) : List String := l.mergeSort fun a b => a ≤ b

def declLine (d : Decl) : String :=
  String.ofList d.name ++ (match d.variants with | some vs => "{" ++ String.intercalate "," (sorted (vs.map String.ofList)) ++ "}" | none => "") ++
  (if d.repr then "r" else "") ++ " " ++ String.intercalate " " (sorted (d.fns.map fun f => String.ofList f.name ++ "=" ++ callWord f.body))

/-- the lines of the accessor of a source -/
def accessorLines (files : List (String × String)) : Res (List String) := (load files true).map fun r => sorted ((accessor r.erase).map declLine)

-- dochy_manual/src/sample_test/sample_code/clist_old_accessor.rs (written before the generator had `deconstruct`, which is added here)
#guard okEq (accessorLines manualSampleTestSampleCodeJsonClistOld)
  ["ListCItem foo=get_int:foo:V foo_def_val=get_int_def:foo:V from=",
   "RootIntf deconstruct= list=get_clist:list: new= root_obj_ref= root_obj_ref_mut="]

-- dochy_manual/src/sample_test/sample_code/ref1_accessor.rs (written before the generator had `deconstruct`, which is added here)
#guard okEq (accessorLines manualSampleTestSampleCodeJsonRef1)
  ["ListMItem bar=get_int:bar:V bar_def_val=get_int_def:bar:V from= ref_id_table_a=get_ref_id:tableA:V ref_table_a=get_ref:tableA:V set_bar=set_int:bar:V set_ref_table_a=set_ref:tableA:V",
   "RootIntf deconstruct= list=get_mlist_const:list:V list_mut=get_mlist_mut:list: new= root_obj_ref= root_obj_ref_mut= table_a=get_table:tableA:",
   "TableACItem foo=get_int:foo:V foo_def_val=get_int_def:foo:V from=",
   "TableATable get_by_id= get_by_id_us= item1=get_value:item1: item1_us=get_value:item1: item2=get_value:item2: item2_us=get_value:item2: new=",
   "TableATableID{Item1,Item2}r from_num= from_str= len= metadata= to_num= to_str="]

-- dochy_manual/src/sample_test/sample_code/ref2_accessor.rs (written before the generator had `deconstruct`, which is added here)
#guard okEq (accessorLines manualSampleTestSampleCodeJsonRef2)
  ["ListMItem foo=get_int:foo:N foo_def_val=get_int_def:foo:N from= ref_id_table_a=get_ref_id:tableA:V ref_table_a=get_ref:tableA:V set_foo=set_int:foo:I set_ref_table_a=set_ref:tableA:V",
   "RootIntf deconstruct= list=get_mlist_const:list:V list_mut=get_mlist_mut:list: new= root_obj_ref= root_obj_ref_mut= table_a=get_table:tableA:",
   "TableACItem foo=get_int:foo:V foo_def_val=get_int_def:foo:V from=",
   "TableATable get_by_id= get_by_id_us= item1=get_value:item1: item1_us=get_value:item1: new=",
   "TableATableID{Item1}r from_num= from_str= len= metadata= to_num= to_str="]

-- dochy_manual/src/sample_test/sample_code/clist_new_accessor.rs (written before the generator had `deconstruct`, which is added here)
#guard okEq (accessorLines manualSampleTestSampleCodeJsonClistNew)
  ["ListCItem foo=get_int:foo:V foo_def_val=get_int_def:foo:V from=",
   "RootIntf deconstruct= list=get_clist:list: new= root_obj_ref= root_obj_ref_mut="]

-- dochy_manual/src/sample_test/sample_code/mlist_old_accessor.rs (written before the generator had `deconstruct`, which is added here)
#guard okEq (accessorLines manualSampleTestSampleCodeJsonMlistOld)
  ["MlistMItem bar=get_int:bar:V bar_def_val=get_int_def:bar:V baz=get_int:baz:V baz_def_val=get_int_def:baz:V from= set_bar=set_int:bar:V set_baz=set_int:baz:V",
   "RootIntf deconstruct= mlist=get_mlist_const:mlist:V mlist_mut=get_mlist_mut:mlist: new= root_obj_ref= root_obj_ref_mut="]

-- dochy_manual/src/sample_test/sample_code/mlist_new_accessor.rs (written before the generator had `deconstruct`, which is added here)
#guard okEq (accessorLines manualSampleTestSampleCodeJsonMlistNew)
  ["MlistMItem baz=get_int:baz:V baz_def_val=get_int_def:baz:V from= qux=get_int:qux:V qux_def_val=get_int_def:qux:V set_baz=set_int:baz:V set_qux=set_int:qux:V",
   "RootIntf deconstruct= mlist=get_mlist_const:mlist:V mlist_mut=get_mlist_mut:mlist: new= root_obj_ref= root_obj_ref_mut="]

-- dochy_manual/src/sample_test/sample_code/rpg2_accessor.rs (written before the generator had `deconstruct`, which is added here)
#guard okEq (accessorLines manualSampleTestSampleCodeJsonRpg2)
  ["HerbCItem from= price=get_int:price:V price_def_val=get_int_def:price:V restore=get_int:restore:V restore_def_val=get_int_def:restore:V",
   "HerbTable get_by_id= get_by_id_us= low=get_value:low: low_us=get_value:low: middle=get_value:middle: middle_us=get_value:middle: new=",
   "HerbTableID{Low,Middle}r from_num= from_str= len= metadata= to_num= to_str=",
   "ItemsEnum{Herb,Sword} new=",
   "ItemsKind{Herb,Sword} id=",
   "ItemsMItem from= get_enum=get_enum:: get_enum_ids=get_enum:: set_enum=set_enum::",
   "PcListMItem from= items=get_mil_const:items:V items_mut=get_mil_mut:items: name=get_immutable_str:name:V name_def_val=get_str_def:name:V name_mut=get_mutable_str:name:V set_name=set_str:name:V",
   "RootIntf deconstruct= herb=get_table:herb: new= pc_list=get_mlist_const:pcList:V pc_list_mut=get_mlist_mut:pcList: root_obj_ref= root_obj_ref_mut= sword=get_table:sword:",
   "SwordCItem attack=get_int:attack:V attack_def_val=get_int_def:attack:V from= price=get_int:price:V price_def_val=get_int_def:price:V",
   "SwordTable bronze=get_value:bronze: bronze_us=get_value:bronze: get_by_id= get_by_id_us= iron=get_value:iron: iron_us=get_value:iron: new=",
   "SwordTableID{Bronze,Iron}r from_num= from_str= len= metadata= to_num= to_str="]

-- dochy_manual/src/sample_test/sample_code/version_awareness_accessor.rs (written before the generator had `deconstruct`, which is added here)
#guard okEq (accessorLines manualSampleTestSampleCodeJsonVersionAwareNew)
  ["RootIntf deconstruct= new= new_value=get_int:newValue:U new_value_def_val=get_int_def:newValue:U old_value=get_int:oldValue:N old_value_def_val=get_int_def:oldValue:N root_obj_ref= root_obj_ref_mut= set_new_value=set_int:newValue:I set_old_value=set_int:oldValue:I"]

-- dochy_manual/src/sample_test/sample_code/version_awareness_accessor2.rs (written before the generator had `deconstruct`, which is added here)
#guard okEq (accessorLines manualSampleTestSampleCodeJsonVersionAwareNew2)
  ["RootIntf deconstruct= new= new_value2=get_int:newValue2:U new_value2_def_val=get_int_def:newValue2:U new_value=get_int:newValue:Q new_value_def_val=get_int_def:newValue:Q old_value=get_int:oldValue:N old_value_def_val=get_int_def:oldValue:N root_obj_ref= root_obj_ref_mut= set_new_value2=set_int:newValue2:I set_new_value=set_int:newValue:I set_old_value=set_int:oldValue:I"]

-- dochy_manual/src/b3_1_clist_and_mlist/clist_old_accessor.rs
#guard okEq (accessorLines manualB31ClistAndMlistJsonsClistOld)
  ["ListCItem foo=get_int:foo:V foo_def_val=get_int_def:foo:V from=",
   "RootIntf deconstruct= list=get_clist:list: new= root_obj_ref= root_obj_ref_mut="]

-- dochy_manual/src/b3_1_clist_and_mlist/clist_new_accessor.rs
#guard okEq (accessorLines manualB31ClistAndMlistJsonsClistNew)
  ["ListCItem foo=get_int:foo:V foo_def_val=get_int_def:foo:V from=",
   "RootIntf deconstruct= list=get_clist:list: new= root_obj_ref= root_obj_ref_mut="]

-- dochy_manual/src/b3_1_clist_and_mlist/mlist_old_accessor.rs
#guard okEq (accessorLines manualB31ClistAndMlistJsonsMlistOld)
  ["MlistMItem bar=get_int:bar:V bar_def_val=get_int_def:bar:V baz=get_int:baz:V baz_def_val=get_int_def:baz:V from= set_bar=set_int:bar:V set_baz=set_int:baz:V",
   "RootIntf deconstruct= mlist=get_mlist_const:mlist:V mlist_mut=get_mlist_mut:mlist: new= root_obj_ref= root_obj_ref_mut="]

-- dochy_manual/src/b3_1_clist_and_mlist/mlist_new_accessor.rs
#guard okEq (accessorLines manualB31ClistAndMlistJsonsMlistNew)
  ["MlistMItem baz=get_int:baz:V baz_def_val=get_int_def:baz:V from= qux=get_int:qux:V qux_def_val=get_int_def:qux:V set_baz=set_int:baz:V set_qux=set_int:qux:V",
   "RootIntf deconstruct= mlist=get_mlist_const:mlist:V mlist_mut=get_mlist_mut:mlist: new= root_obj_ref= root_obj_ref_mut="]

-- dochy_manual/src/b3_1_clist_and_mlist/undefiable_list_accessor.rs
#guard okEq (accessorLines manualB31ClistAndMlistJsonsUndefiableListSeparated)
  ["ListMItem from= set_v=set_int:v:V v=get_int:v:V v_def_val=get_int_def:v:V",
   "RootIntf deconstruct= list=get_mlist_const:list:O list_mut=get_mlist_mut:list: new= root_obj_ref= root_obj_ref_mut="]

-- dochy_manual/src/b3_conversion/old_accessor.rs
#guard okEq (accessorLines manualB3ConversionJsonsOld)
  ["RootIntf deconstruct= new= old_value=get_int:oldValue:V old_value_def_val=get_int_def:oldValue:V root_obj_ref= root_obj_ref_mut= set_old_value=set_int:oldValue:V"]

-- dochy_manual/src/b3_conversion/new_accessor.rs
#guard okEq (accessorLines manualB3ConversionJsonsNew)
  ["RootIntf deconstruct= new= new_value=get_int:newValue:U new_value_def_val=get_int_def:newValue:U old_value=get_int:oldValue:N old_value_def_val=get_int_def:oldValue:N root_obj_ref= root_obj_ref_mut= set_new_value=set_int:newValue:I set_old_value=set_int:oldValue:I"]

-- dochy_manual/src/b3_conversion/new2_accessor.rs
#guard okEq (accessorLines manualB3ConversionJsonsNew2)
  ["RootIntf deconstruct= new= new_value2=get_int:newValue2:U new_value2_def_val=get_int_def:newValue2:U new_value=get_int:newValue:Q new_value_def_val=get_int_def:newValue:Q old_value=get_int:oldValue:N old_value_def_val=get_int_def:oldValue:N root_obj_ref= root_obj_ref_mut= set_new_value2=set_int:newValue2:I set_new_value=set_int:newValue:I set_old_value=set_int:oldValue:I"]

-- dochy_manual/src/a5_mlist/mlist_accessor.rs
#guard okEq (accessorLines manualA5MlistMlist)
  ["MlistMItem from= name=get_immutable_str:name:V name_def_val=get_str_def:name:V name_mut=get_mutable_str:name:V set_name=set_str:name:V set_val=set_int:val:V val=get_int:val:V val_def_val=get_int_def:val:V",
   "RootIntf deconstruct= mlist=get_mlist_const:mlist:V mlist_mut=get_mlist_mut:mlist: new= root_obj_ref= root_obj_ref_mut="]

-- dochy_manual/src/a5_mlist/mil_accessor.rs
#guard okEq (accessorLines manualA5MlistMil)
  ["InnerListMItem from= name=get_immutable_str:name:V name_def_val=get_str_def:name:V name_mut=get_mutable_str:name:V set_name=set_str:name:V",
   "MlistMItem from= inner_list=get_mil_const:inner_list:V inner_list_mut=get_mil_mut:inner_list: set_val=set_int:val:V val=get_int:val:V val_def_val=get_int_def:val:V",
   "RootIntf deconstruct= mlist=get_mlist_const:mlist:V mlist_mut=get_mlist_mut:mlist: new= root_obj_ref= root_obj_ref_mut="]

-- dochy_manual/src/a4_clist/clist_accessor.rs
#guard okEq (accessorLines manualA4ClistClist)
  ["ClistCItem from= name=get_immutable_str:name:V name_def_val=get_str_def:name:V val=get_int:val:V val_def_val=get_int_def:val:V",
   "RootIntf clist=get_clist:clist: deconstruct= new= root_obj_ref= root_obj_ref_mut="]

-- dochy_manual/src/a4_clist/cil_accessor.rs
#guard okEq (accessorLines manualA4ClistCil)
  ["ClistCItem from= inner_list=get_cil:inner_list: val=get_int:val:V val_def_val=get_int_def:val:V",
   "InnerListCItem from= name=get_immutable_str:name:V name_def_val=get_str_def:name:V",
   "RootIntf clist=get_clist:clist: deconstruct= new= root_obj_ref= root_obj_ref_mut="]

-- dochy_manual/src/a3_dochy_langs_basics/dochy_params_accessor.rs
#guard okEq (accessorLines manualA3DochyLangsBasicsDochyParams)
  ["RootIntf binary=get_immutable_binary:binary:V binary_def_val=get_binary_def:binary:V binary_mut=get_mutable_binary:binary:V bool_value=get_bool:bool_value:V bool_value_def_val=get_bool_def:bool_value:V deconstruct= float_array=get_immutable_float_array:float_array:V float_array_def_val=get_float_array_def:float_array:V float_array_mut=get_mutable_float_array:float_array:V float_value=get_float:float_value:V float_value_def_val=get_float_def:float_value:V int_array=get_immutable_int_array:int_array:V int_array_def_val=get_int_array_def:int_array:V int_array_mut=get_mutable_int_array:int_array:V int_value=get_int:int_value:V int_value_def_val=get_int_def:int_value:V new= nullable_binary=get_immutable_binary:nullable_binary:N nullable_binary_def_val=get_binary_def:nullable_binary:N nullable_binary_mut=get_mutable_binary:nullable_binary:N nullable_bool=get_bool:nullable_bool:N nullable_bool_def_val=get_bool_def:nullable_bool:N nullable_float=get_float:nullable_float:N nullable_float_array=get_immutable_float_array:nullable_float_array:N nullable_float_array_def_val=get_float_array_def:nullable_float_array:N nullable_float_array_mut=get_mutable_float_array:nullable_float_array:N nullable_float_def_val=get_float_def:nullable_float:N nullable_int2=get_int:nullable_int2:N nullable_int2_def_val=get_int_def:nullable_int2:N nullable_int=get_int:nullable_int:N nullable_int_array=get_immutable_int_array:nullable_int_array:N nullable_int_array_def_val=get_int_array_def:nullable_int_array:N nullable_int_array_mut=get_mutable_int_array:nullable_int_array:N nullable_int_def_val=get_int_def:nullable_int:N nullable_str=get_immutable_str:nullable_str:N nullable_str_def_val=get_str_def:nullable_str:N nullable_str_mut=get_mutable_str:nullable_str:N root_obj_ref= root_obj_ref_mut= set_binary=set_binary:binary:V set_bool_value=set_bool:bool_value:V set_float_array=set_float_array:float_array:V set_float_value=set_float:float_value:V set_int_array=set_int_array:int_array:V set_int_value=set_int:int_value:V set_nullable_binary=set_binary:nullable_binary:I set_nullable_bool=set_bool:nullable_bool:I set_nullable_float=set_float:nullable_float:I set_nullable_float_array=set_float_array:nullable_float_array:I set_nullable_int2=set_int:nullable_int2:I set_nullable_int=set_int:nullable_int:I set_nullable_int_array=set_int_array:nullable_int_array:I set_nullable_str=set_str:nullable_str:I set_string_value=set_str:string_value:V set_undef_nullable_int=set_int:undef_nullable_int:I set_undefiable_int=set_int:undefiable_int:I string_value=get_immutable_str:string_value:V string_value_def_val=get_str_def:string_value:V string_value_mut=get_mutable_str:string_value:V undef_nullable_int=get_int:undef_nullable_int:Q undef_nullable_int_def_val=get_int_def:undef_nullable_int:Q undefiable_int=get_int:undefiable_int:U undefiable_int_def_val=get_int_def:undefiable_int:U"]

-- dochy_manual/src/a6_table/table_accessor.rs
#guard okEq (accessorLines manualA6TableTable)
  ["AListCItem from= name=get_immutable_str:name:V name_def_val=get_str_def:name:V ref_id_table1=get_ref_id:table1:V ref_table1=get_ref:table1:V",
   "MlistMItem from= ref_id_table1=get_ref_id:table1:V ref_id_table2=get_ref_id:table2:N ref_table1=get_ref:table1:V ref_table2=get_ref:table2:N set_ref_table1=set_ref:table1:V set_ref_table2=set_ref:table2:I",
   "RootIntf a_list=get_clist:a_list: deconstruct= mlist=get_mlist_const:mlist:V mlist_mut=get_mlist_mut:mlist: new= root_obj_ref= root_obj_ref_mut= table1=get_table:table1: table2=get_table:table2:",
   "Table1CItem from= val=get_int:val:V val_def_val=get_int_def:val:V",
   "Table1Table get_by_id= get_by_id_us= item1=get_value:item1: item1_us=get_value:item1: item2=get_value:item2: item2_us=get_value:item2: new=",
   "Table1TableID{Item1,Item2}r from_num= from_str= len= metadata= to_num= to_str=",
   "Table2CItem from= ref_id_table1=get_ref_id:table1:V ref_table1=get_ref:table1:V",
   "Table2Table a=get_value:a: a_us=get_value:a: b=get_value:b: b_us=get_value:b: get_by_id= get_by_id_us= new=",
   "Table2TableID{A,B}r from_num= from_str= len= metadata= to_num= to_str="]

-- dochy_manual/src/b1_save_dochy_files/save_dochy_files_accessor.rs
#guard okEq (accessorLines manualB1SaveDochyFilesSrcDir)
  ["RootIntf deconstruct= message=get_immutable_str:message:V message_def_val=get_str_def:message:V message_mut=get_mutable_str:message:V new= root_obj_ref= root_obj_ref_mut= set_message=set_str:message:V"]

-- dochy_manual/src/b2_save_history_files/save_history_files_accessor.rs
#guard okEq (accessorLines manualB2SaveHistoryFilesSrcDir)
  ["RootIntf d0=get_immutable_str:d0:V d0_def_val=get_str_def:d0:V d0_mut=get_mutable_str:d0:V d1=get_immutable_str:d1:V d1_def_val=get_str_def:d1:V d1_mut=get_mutable_str:d1:V d2=get_immutable_str:d2:V d2_def_val=get_str_def:d2:V d2_mut=get_mutable_str:d2:V d3=get_immutable_str:d3:V d3_def_val=get_str_def:d3:V d3_mut=get_mutable_str:d3:V d4=get_immutable_str:d4:V d4_def_val=get_str_def:d4:V d4_mut=get_mutable_str:d4:V d5=get_immutable_str:d5:V d5_def_val=get_str_def:d5:V d5_mut=get_mutable_str:d5:V d6=get_immutable_str:d6:V d6_def_val=get_str_def:d6:V d6_mut=get_mutable_str:d6:V d7=get_immutable_str:d7:V d7_def_val=get_str_def:d7:V d7_mut=get_mutable_str:d7:V d8=get_immutable_str:d8:V d8_def_val=get_str_def:d8:V d8_mut=get_mutable_str:d8:V d9=get_immutable_str:d9:V d9_def_val=get_str_def:d9:V d9_mut=get_mutable_str:d9:V deconstruct= new= root_obj_ref= root_obj_ref_mut= set_d0=set_str:d0:V set_d1=set_str:d1:V set_d2=set_str:d2:V set_d3=set_str:d3:V set_d4=set_str:d4:V set_d5=set_str:d5:V set_d6=set_str:d6:V set_d7=set_str:d7:V set_d8=set_str:d8:V set_d9=set_str:d9:V"]

-- dochy_manual/src/make_manual/manual_accessor.rs
#guard okEq (accessorLines manualMakeManualManual)
  ["ListCItem from= src=get_immutable_str:src:N src_def_val=get_str_def:src:N title=get_immutable_str:title:V title_def_val=get_str_def:title:V",
   "RootIntf deconstruct= list=get_clist:list: new= root_obj_ref= root_obj_ref_mut="]

-- dochy_test/src/fs_test/test_save_async/test_save_async_accessor.rs
#guard okEq (accessorLines testFsTestTestSaveAsyncSrcDir)
  ["RootIntf data0=get_int:data0:V data0_def_val=get_int_def:data0:V deconstruct= new= root_obj_ref= root_obj_ref_mut= set_data0=set_int:data0:V"]

-- dochy_test/src/fs_test/test_save_history_vacant/test_save_history_vacant_accessor.rs
#guard okEq (accessorLines testFsTestTestSaveHistoryVacantSrcDir)
  ["RootIntf data0=get_int:data0:V data0_def_val=get_int_def:data0:V deconstruct= new= root_obj_ref= root_obj_ref_mut= set_data0=set_int:data0:V"]

-- dochy_test/src/fs_test/history_accum_test/hello_history_accessor.rs
#guard okEq (accessorLines testFsTestHistoryAccumTestSrcDir)
  ["RootIntf data0=get_immutable_int_array:data0:V data0_def_val=get_int_array_def:data0:V data0_mut=get_mutable_int_array:data0:V data1=get_immutable_int_array:data1:V data1_def_val=get_int_array_def:data1:V data1_mut=get_mutable_int_array:data1:V data2=get_immutable_int_array:data2:V data2_def_val=get_int_array_def:data2:V data2_mut=get_mutable_int_array:data2:V data3=get_immutable_int_array:data3:V data3_def_val=get_int_array_def:data3:V data3_mut=get_mutable_int_array:data3:V data4=get_immutable_int_array:data4:V data4_def_val=get_int_array_def:data4:V data4_mut=get_mutable_int_array:data4:V data5=get_immutable_int_array:data5:V data5_def_val=get_int_array_def:data5:V data5_mut=get_mutable_int_array:data5:V data6=get_immutable_int_array:data6:V data6_def_val=get_int_array_def:data6:V data6_mut=get_mutable_int_array:data6:V data7=get_immutable_int_array:data7:V data7_def_val=get_int_array_def:data7:V data7_mut=get_mutable_int_array:data7:V data8=get_immutable_int_array:data8:V data8_def_val=get_int_array_def:data8:V data8_mut=get_mutable_int_array:data8:V data9=get_immutable_int_array:data9:V data9_def_val=get_int_array_def:data9:V data9_mut=get_mutable_int_array:data9:V deconstruct= new= root_obj_ref= root_obj_ref_mut= set_data0=set_int_array:data0:V set_data1=set_int_array:data1:V set_data2=set_int_array:data2:V set_data3=set_int_array:data3:V set_data4=set_int_array:data4:V set_data5=set_int_array:data5:V set_data6=set_int_array:data6:V set_data7=set_int_array:data7:V set_data8=set_int_array:data8:V set_data9=set_int_array:data9:V"]

-- dochy_test/src/fs_test/test_save_history_nb/test_save_history_async_accessor.rs
#guard okEq (accessorLines testFsTestTestSaveHistoryNbSrcDir)
  ["RootIntf data0=get_int:data0:V data0_def_val=get_int_def:data0:V deconstruct= new= root_obj_ref= root_obj_ref_mut= set_data0=set_int:data0:V"]

-- dochy_test/src/diff/generated_test_params.rs
#guard okEq (accessorLines testDiffDiffParam)
  ["RootIntf deconstruct= hoge_binary=get_immutable_binary:hogeBinary:V hoge_binary_def_val=get_binary_def:hogeBinary:V hoge_binary_mut=get_mutable_binary:hogeBinary:V hoge_bool=get_bool:hogeBool:V hoge_bool_def_val=get_bool_def:hogeBool:V hoge_float=get_float:hogeFloat:V hoge_float_array=get_immutable_float_array:hogeFloatArray:V hoge_float_array_def_val=get_float_array_def:hogeFloatArray:V hoge_float_array_mut=get_mutable_float_array:hogeFloatArray:V hoge_float_def_val=get_float_def:hogeFloat:V hoge_int=get_int:hogeInt:V hoge_int_array=get_immutable_int_array:hogeIntArray:V hoge_int_array_def_val=get_int_array_def:hogeIntArray:V hoge_int_array_mut=get_mutable_int_array:hogeIntArray:V hoge_int_def_val=get_int_def:hogeInt:V hoge_int_hatena=get_int:hogeIntHatena:N hoge_int_hatena_def_val=get_int_def:hogeIntHatena:N hoge_int_hatena_null=get_int:hogeIntHatenaNull:N hoge_int_hatena_null_def_val=get_int_def:hogeIntHatenaNull:N hoge_int_hatena_to_null=get_int:hogeIntHatenaToNull:N hoge_int_hatena_to_null_def_val=get_int_def:hogeIntHatenaToNull:N hoge_string=get_immutable_str:hogeString:V hoge_string_def_val=get_str_def:hogeString:V hoge_string_mut=get_mutable_str:hogeString:V hoge_undef_null_null=get_int:hogeUndefNullNull:Q hoge_undef_null_null_def_val=get_int_def:hogeUndefNullNull:Q hoge_undef_null_null_to_undef=get_int:hogeUndefNullNullToUndef:Q hoge_undef_null_null_to_undef_def_val=get_int_def:hogeUndefNullNullToUndef:Q hoge_undef_null_to_null=get_int:hogeUndefNullToNull:Q hoge_undef_null_to_null_def_val=get_int_def:hogeUndefNullToNull:Q hoge_undef_null_to_undef=get_int:hogeUndefNullToUndef:Q hoge_undef_null_to_undef_def_val=get_int_def:hogeUndefNullToUndef:Q hoge_undef_null_undef=get_int:hogeUndefNullUndef:Q hoge_undef_null_undef_def_val=get_int_def:hogeUndefNullUndef:Q hoge_undef_null_undef_to_null=get_int:hogeUndefNullUndefToNull:Q hoge_undef_null_undef_to_null_def_val=get_int_def:hogeUndefNullUndefToNull:Q hoge_undefined=get_int:hogeUndefined:U hoge_undefined_def_val=get_int_def:hogeUndefined:U hoge_undefined_to_undef=get_int:hogeUndefinedToUndef:U hoge_undefined_to_undef_def_val=get_int_def:hogeUndefinedToUndef:U hoge_undefined_undef=get_int:hogeUndefinedUndef:U hoge_undefined_undef_def_val=get_int_def:hogeUndefinedUndef:U new= root_obj_ref= root_obj_ref_mut= set_hoge_binary=set_binary:hogeBinary:V set_hoge_bool=set_bool:hogeBool:V set_hoge_float=set_float:hogeFloat:V set_hoge_float_array=set_float_array:hogeFloatArray:V set_hoge_int=set_int:hogeInt:V set_hoge_int_array=set_int_array:hogeIntArray:V set_hoge_int_hatena=set_int:hogeIntHatena:I set_hoge_int_hatena_null=set_int:hogeIntHatenaNull:I set_hoge_int_hatena_to_null=set_int:hogeIntHatenaToNull:I set_hoge_string=set_str:hogeString:V set_hoge_undef_null_null=set_int:hogeUndefNullNull:I set_hoge_undef_null_null_to_undef=set_int:hogeUndefNullNullToUndef:I set_hoge_undef_null_to_null=set_int:hogeUndefNullToNull:I set_hoge_undef_null_to_undef=set_int:hogeUndefNullToUndef:I set_hoge_undef_null_undef=set_int:hogeUndefNullUndef:I set_hoge_undef_null_undef_to_null=set_int:hogeUndefNullUndefToNull:I set_hoge_undefined=set_int:hogeUndefined:I set_hoge_undefined_to_undef=set_int:hogeUndefinedToUndef:I set_hoge_undefined_undef=set_int:hogeUndefinedUndef:I"]

-- dochy_test/src/diff/generated_test_ref.rs
#guard okEq (accessorLines testDiffDiffRef)
  ["List1MItem from= ref_id_refed1=get_ref_id:refed1:V ref_id_refed2=get_ref_id:refed2:N ref_id_refed3=get_ref_id:refed3:U ref_id_refed4=get_ref_id:refed4:Q ref_refed1=get_ref:refed1:V ref_refed2=get_ref:refed2:N ref_refed3=get_ref:refed3:U ref_refed4=get_ref:refed4:Q set_ref_refed1=set_ref:refed1:V set_ref_refed2=set_ref:refed2:I set_ref_refed3=set_ref:refed3:I set_ref_refed4=set_ref:refed4:I",
   "List2MItem from= ref_id_refed1=get_ref_id:refed1:V ref_id_refed2=get_ref_id:refed2:N ref_id_refed3=get_ref_id:refed3:U ref_id_refed4=get_ref_id:refed4:Q ref_refed1=get_ref:refed1:V ref_refed2=get_ref:refed2:N ref_refed3=get_ref:refed3:U ref_refed4=get_ref:refed4:Q set_ref_refed1=set_ref:refed1:V set_ref_refed2=set_ref:refed2:I set_ref_refed3=set_ref:refed3:I set_ref_refed4=set_ref:refed4:I",
   "List3MItem from= ref_id_refed1=get_ref_id:refed1:V ref_id_refed2=get_ref_id:refed2:N ref_id_refed3=get_ref_id:refed3:U ref_id_refed4=get_ref_id:refed4:Q ref_refed1=get_ref:refed1:V ref_refed2=get_ref:refed2:N ref_refed3=get_ref:refed3:U ref_refed4=get_ref:refed4:Q set_ref_refed1=set_ref:refed1:V set_ref_refed2=set_ref:refed2:I set_ref_refed3=set_ref:refed3:I set_ref_refed4=set_ref:refed4:I",
   "Refed1CItem from= not_important=get_int:notImportant:V not_important_def_val=get_int_def:notImportant:V",
   "Refed1Table a1=get_value:a1: a1_us=get_value:a1: a2=get_value:a2: a2_us=get_value:a2: get_by_id= get_by_id_us= new=",
   "Refed1TableID{A1,A2}r from_num= from_str= len= metadata= to_num= to_str=",
   "Refed2CItem from= not_very_important=get_int:notVeryImportant:V not_very_important_def_val=get_int_def:notVeryImportant:V",
   "Refed2Table b1=get_value:b1: b1_us=get_value:b1: b2=get_value:b2: b2_us=get_value:b2: get_by_id= get_by_id_us= new=",
   "Refed2TableID{B1,B2}r from_num= from_str= len= metadata= to_num= to_str=",
   "Refed3CItem from= not_so_important=get_int:notSoImportant:V not_so_important_def_val=get_int_def:notSoImportant:V",
   "Refed3Table c1=get_value:c1: c1_us=get_value:c1: c2=get_value:c2: c2_us=get_value:c2: get_by_id= get_by_id_us= new=",
   "Refed3TableID{C1,C2}r from_num= from_str= len= metadata= to_num= to_str=",
   "Refed4CItem from= not_important=get_int:notImportant:V not_important_def_val=get_int_def:notImportant:V",
   "Refed4Table d1=get_value:d1: d1_us=get_value:d1: d2=get_value:d2: d2_us=get_value:d2: get_by_id= get_by_id_us= new=",
   "Refed4TableID{D1,D2}r from_num= from_str= len= metadata= to_num= to_str=",
   "RootIntf deconstruct= list1=get_mlist_const:list1:V list1_mut=get_mlist_mut:list1: list2=get_mlist_const:list2:V list2_mut=get_mlist_mut:list2: list3=get_mlist_const:list3:V list3_mut=get_mlist_mut:list3: new= refed1=get_table:refed1: refed2=get_table:refed2: refed3=get_table:refed3: refed4=get_table:refed4: root_obj_ref= root_obj_ref_mut="]

-- dochy_test/src/diff/generated_test_list.rs
#guard okEq (accessorLines testDiffDiffList)
  ["InList2MItem from= in_mem2=get_int:inMem2:V in_mem2_def_val=get_int_def:inMem2:V set_in_mem2=set_int:inMem2:V",
   "InListMItem from= in_list2=get_mil_const:inList2:V in_list2_mut=get_mil_mut:inList2: in_mem=get_int:inMem:V in_mem_def_val=get_int_def:inMem:V ref_id_refed2=get_ref_id:refed2:V ref_refed2=get_ref:refed2:V set_in_mem=set_int:inMem:V set_ref_refed2=set_ref:refed2:V",
   "ListMItem from= in_list=get_mil_const:inList:V in_list_mut=get_mil_mut:inList: mem=get_int:mem:V mem_def_val=get_int_def:mem:V ref_id_refed1=get_ref_id:refed1:V ref_refed1=get_ref:refed1:V set_mem=set_int:mem:V set_ref_refed1=set_ref:refed1:V",
   "Refed1CItem from= not_important=get_int:notImportant:V not_important_def_val=get_int_def:notImportant:V",
   "Refed1Table a1=get_value:a1: a1_us=get_value:a1: a2=get_value:a2: a2_us=get_value:a2: get_by_id= get_by_id_us= new=",
   "Refed1TableID{A1,A2}r from_num= from_str= len= metadata= to_num= to_str=",
   "Refed2CItem from= not_very_important=get_int:notVeryImportant:V not_very_important_def_val=get_int_def:notVeryImportant:V",
   "Refed2Table b1=get_value:b1: b1_us=get_value:b1: b2=get_value:b2: b2_us=get_value:b2: get_by_id= get_by_id_us= new=",
   "Refed2TableID{B1,B2}r from_num= from_str= len= metadata= to_num= to_str=",
   "RootIntf deconstruct= list=get_mlist_const:list:V list_mut=get_mlist_mut:list: new= refed1=get_table:refed1: refed2=get_table:refed2: root_obj_ref= root_obj_ref_mut="]

-- dochy_test/src/diff/generated_test_big_structure.rs
#guard okEq (accessorLines testDiffDiffBigStructure)
  ["RootIntf deconstruct= mem100=get_int:mem100:V mem100_def_val=get_int_def:mem100:V mem101=get_int:mem101:V mem101_def_val=get_int_def:mem101:V mem102=get_int:mem102:V mem102_def_val=get_int_def:mem102:V mem103=get_int:mem103:V mem103_def_val=get_int_def:mem103:V mem104=get_int:mem104:V mem104_def_val=get_int_def:mem104:V mem105=get_int:mem105:V mem105_def_val=get_int_def:mem105:V mem106=get_int:mem106:V mem106_def_val=get_int_def:mem106:V mem107=get_int:mem107:V mem107_def_val=get_int_def:mem107:V mem108=get_int:mem108:V mem108_def_val=get_int_def:mem108:V mem109=get_int:mem109:V mem109_def_val=get_int_def:mem109:V mem10=get_int:mem10:V mem10_def_val=get_int_def:mem10:V mem110=get_int:mem110:V mem110_def_val=get_int_def:mem110:V mem111=get_int:mem111:V mem111_def_val=get_int_def:mem111:V mem112=get_int:mem112:V mem112_def_val=get_int_def:mem112:V mem113=get_int:mem113:V mem113_def_val=get_int_def:mem113:V mem114=get_int:mem114:V mem114_def_val=get_int_def:mem114:V mem115=get_int:mem115:V mem115_def_val=get_int_def:mem115:V mem116=get_int:mem116:V mem116_def_val=get_int_def:mem116:V mem117=get_int:mem117:V mem117_def_val=get_int_def:mem117:V mem118=get_int:mem118:V mem118_def_val=get_int_def:mem118:V mem119=get_int:mem119:V mem119_def_val=get_int_def:mem119:V mem11=get_int:mem11:V mem11_def_val=get_int_def:mem11:V mem120=get_int:mem120:V mem120_def_val=get_int_def:mem120:V mem121=get_int:mem121:V mem121_def_val=get_int_def:mem121:V mem122=get_int:mem122:V mem122_def_val=get_int_def:mem122:V mem123=get_int:mem123:V mem123_def_val=get_int_def:mem123:V mem124=get_int:mem124:V mem124_def_val=get_int_def:mem124:V mem125=get_int:mem125:V mem125_def_val=get_int_def:mem125:V mem126=get_int:mem126:V mem126_def_val=get_int_def:mem126:V mem127=get_int:mem127:V mem127_def_val=get_int_def:mem127:V mem128=get_int:mem128:V mem128_def_val=get_int_def:mem128:V mem129=get_int:mem129:V mem129_def_val=get_int_def:mem129:V mem12=get_int:mem12:V mem12_def_val=get_int_def:mem12:V mem130=get_int:mem130:V mem130_def_val=get_int_def:mem130:V mem131=get_int:mem131:V mem131_def_val=get_int_def:mem131:V mem13=get_int:mem13:V mem13_def_val=get_int_def:mem13:V mem14=get_int:mem14:V mem14_def_val=get_int_def:mem14:V mem15=get_int:mem15:V mem15_def_val=get_int_def:mem15:V mem16=get_int:mem16:V mem16_def_val=get_int_def:mem16:V mem17=get_int:mem17:V mem17_def_val=get_int_def:mem17:V mem18=get_int:mem18:V mem18_def_val=get_int_def:mem18:V mem19=get_int:mem19:V mem19_def_val=get_int_def:mem19:V mem1=get_int:mem1:V mem1_def_val=get_int_def:mem1:V mem20=get_int:mem20:V mem20_def_val=get_int_def:mem20:V mem21=get_int:mem21:V mem21_def_val=get_int_def:mem21:V mem22=get_int:mem22:V mem22_def_val=get_int_def:mem22:V mem23=get_int:mem23:V mem23_def_val=get_int_def:mem23:V mem24=get_int:mem24:V mem24_def_val=get_int_def:mem24:V mem25=get_int:mem25:V mem25_def_val=get_int_def:mem25:V mem26=get_int:mem26:V mem26_def_val=get_int_def:mem26:V mem27=get_int:mem27:V mem27_def_val=get_int_def:mem27:V mem28=get_int:mem28:V mem28_def_val=get_int_def:mem28:V mem29=get_int:mem29:V mem29_def_val=get_int_def:mem29:V mem2=get_int:mem2:V mem2_def_val=get_int_def:mem2:V mem30=get_int:mem30:V mem30_def_val=get_int_def:mem30:V mem31=get_int:mem31:V mem31_def_val=get_int_def:mem31:V mem32=get_int:mem32:V mem32_def_val=get_int_def:mem32:V mem33=get_int:mem33:V mem33_def_val=get_int_def:mem33:V mem34=get_int:mem34:V mem34_def_val=get_int_def:mem34:V mem35=get_int:mem35:V mem35_def_val=get_int_def:mem35:V mem36=get_int:mem36:V mem36_def_val=get_int_def:mem36:V mem37=get_int:mem37:V mem37_def_val=get_int_def:mem37:V mem38=get_int:mem38:V mem38_def_val=get_int_def:mem38:V mem39=get_int:mem39:V mem39_def_val=get_int_def:mem39:V mem3=get_int:mem3:V mem3_def_val=get_int_def:mem3:V mem40=get_int:mem40:V mem40_def_val=get_int_def:mem40:V mem41=get_int:mem41:V mem41_def_val=get_int_def:mem41:V mem42=get_int:mem42:V mem42_def_val=get_int_def:mem42:V mem43=get_int:mem43:V mem43_def_val=get_int_def:mem43:V mem44=get_int:mem44:V mem44_def_val=get_int_def:mem44:V mem45=get_int:mem45:V mem45_def_val=get_int_def:mem45:V mem46=get_int:mem46:V mem46_def_val=get_int_def:mem46:V mem47=get_int:mem47:V mem47_def_val=get_int_def:mem47:V mem48=get_int:mem48:V mem48_def_val=get_int_def:mem48:V mem49=get_int:mem49:V mem49_def_val=get_int_def:mem49:V mem4=get_int:mem4:V mem4_def_val=get_int_def:mem4:V mem50=get_int:mem50:V mem50_def_val=get_int_def:mem50:V mem51=get_int:mem51:V mem51_def_val=get_int_def:mem51:V mem52=get_int:mem52:V mem52_def_val=get_int_def:mem52:V mem53=get_int:mem53:V mem53_def_val=get_int_def:mem53:V mem54=get_int:mem54:V mem54_def_val=get_int_def:mem54:V mem55=get_int:mem55:V mem55_def_val=get_int_def:mem55:V mem56=get_int:mem56:V mem56_def_val=get_int_def:mem56:V mem57=get_int:mem57:V mem57_def_val=get_int_def:mem57:V mem58=get_int:mem58:V mem58_def_val=get_int_def:mem58:V mem59=get_int:mem59:V mem59_def_val=get_int_def:mem59:V mem5=get_int:mem5:V mem5_def_val=get_int_def:mem5:V mem60=get_int:mem60:V mem60_def_val=get_int_def:mem60:V mem61=get_int:mem61:V mem61_def_val=get_int_def:mem61:V mem62=get_int:mem62:V mem62_def_val=get_int_def:mem62:V mem63=get_int:mem63:V mem63_def_val=get_int_def:mem63:V mem64=get_int:mem64:V mem64_def_val=get_int_def:mem64:V mem65=get_int:mem65:V mem65_def_val=get_int_def:mem65:V mem66=get_int:mem66:V mem66_def_val=get_int_def:mem66:V mem67=get_int:mem67:V mem67_def_val=get_int_def:mem67:V mem68=get_int:mem68:V mem68_def_val=get_int_def:mem68:V mem69=get_int:mem69:V mem69_def_val=get_int_def:mem69:V mem6=get_int:mem6:V mem6_def_val=get_int_def:mem6:V mem70=get_int:mem70:V mem70_def_val=get_int_def:mem70:V mem71=get_int:mem71:V mem71_def_val=get_int_def:mem71:V mem72=get_int:mem72:V mem72_def_val=get_int_def:mem72:V mem73=get_int:mem73:V mem73_def_val=get_int_def:mem73:V mem74=get_int:mem74:V mem74_def_val=get_int_def:mem74:V mem75=get_int:mem75:V mem75_def_val=get_int_def:mem75:V mem76=get_int:mem76:V mem76_def_val=get_int_def:mem76:V mem77=get_int:mem77:V mem77_def_val=get_int_def:mem77:V mem78=get_int:mem78:V mem78_def_val=get_int_def:mem78:V mem79=get_int:mem79:V mem79_def_val=get_int_def:mem79:V mem7=get_int:mem7:V mem7_def_val=get_int_def:mem7:V mem80=get_int:mem80:V mem80_def_val=get_int_def:mem80:V mem81=get_int:mem81:V mem81_def_val=get_int_def:mem81:V mem82=get_int:mem82:V mem82_def_val=get_int_def:mem82:V mem83=get_int:mem83:V mem83_def_val=get_int_def:mem83:V mem84=get_int:mem84:V mem84_def_val=get_int_def:mem84:V mem85=get_int:mem85:V mem85_def_val=get_int_def:mem85:V mem86=get_int:mem86:V mem86_def_val=get_int_def:mem86:V mem87=get_int:mem87:V mem87_def_val=get_int_def:mem87:V mem88=get_int:mem88:V mem88_def_val=get_int_def:mem88:V mem89=get_int:mem89:V mem89_def_val=get_int_def:mem89:V mem8=get_int:mem8:V mem8_def_val=get_int_def:mem8:V mem90=get_int:mem90:V mem90_def_val=get_int_def:mem90:V mem91=get_int:mem91:V mem91_def_val=get_int_def:mem91:V mem92=get_int:mem92:V mem92_def_val=get_int_def:mem92:V mem93=get_int:mem93:V mem93_def_val=get_int_def:mem93:V mem94=get_int:mem94:V mem94_def_val=get_int_def:mem94:V mem95=get_int:mem95:V mem95_def_val=get_int_def:mem95:V mem96=get_int:mem96:V mem96_def_val=get_int_def:mem96:V mem97=get_int:mem97:V mem97_def_val=get_int_def:mem97:V mem98=get_int:mem98:V mem98_def_val=get_int_def:mem98:V mem99=get_int:mem99:V mem99_def_val=get_int_def:mem99:V mem9=get_int:mem9:V mem9_def_val=get_int_def:mem9:V new= root_obj_ref= root_obj_ref_mut= set_mem100=set_int:mem100:V set_mem101=set_int:mem101:V set_mem102=set_int:mem102:V set_mem103=set_int:mem103:V set_mem104=set_int:mem104:V set_mem105=set_int:mem105:V set_mem106=set_int:mem106:V set_mem107=set_int:mem107:V set_mem108=set_int:mem108:V set_mem109=set_int:mem109:V set_mem10=set_int:mem10:V set_mem110=set_int:mem110:V set_mem111=set_int:mem111:V set_mem112=set_int:mem112:V set_mem113=set_int:mem113:V set_mem114=set_int:mem114:V set_mem115=set_int:mem115:V set_mem116=set_int:mem116:V set_mem117=set_int:mem117:V set_mem118=set_int:mem118:V set_mem119=set_int:mem119:V set_mem11=set_int:mem11:V set_mem120=set_int:mem120:V set_mem121=set_int:mem121:V set_mem122=set_int:mem122:V set_mem123=set_int:mem123:V set_mem124=set_int:mem124:V set_mem125=set_int:mem125:V set_mem126=set_int:mem126:V set_mem127=set_int:mem127:V set_mem128=set_int:mem128:V set_mem129=set_int:mem129:V set_mem12=set_int:mem12:V set_mem130=set_int:mem130:V set_mem131=set_int:mem131:V set_mem13=set_int:mem13:V set_mem14=set_int:mem14:V set_mem15=set_int:mem15:V set_mem16=set_int:mem16:V set_mem17=set_int:mem17:V set_mem18=set_int:mem18:V set_mem19=set_int:mem19:V set_mem1=set_int:mem1:V set_mem20=set_int:mem20:V set_mem21=set_int:mem21:V set_mem22=set_int:mem22:V set_mem23=set_int:mem23:V set_mem24=set_int:mem24:V set_mem25=set_int:mem25:V set_mem26=set_int:mem26:V set_mem27=set_int:mem27:V set_mem28=set_int:mem28:V set_mem29=set_int:mem29:V set_mem2=set_int:mem2:V set_mem30=set_int:mem30:V set_mem31=set_int:mem31:V set_mem32=set_int:mem32:V set_mem33=set_int:mem33:V set_mem34=set_int:mem34:V set_mem35=set_int:mem35:V set_mem36=set_int:mem36:V set_mem37=set_int:mem37:V set_mem38=set_int:mem38:V set_mem39=set_int:mem39:V set_mem3=set_int:mem3:V set_mem40=set_int:mem40:V set_mem41=set_int:mem41:V set_mem42=set_int:mem42:V set_mem43=set_int:mem43:V set_mem44=set_int:mem44:V set_mem45=set_int:mem45:V set_mem46=set_int:mem46:V set_mem47=set_int:mem47:V set_mem48=set_int:mem48:V set_mem49=set_int:mem49:V set_mem4=set_int:mem4:V set_mem50=set_int:mem50:V set_mem51=set_int:mem51:V set_mem52=set_int:mem52:V set_mem53=set_int:mem53:V set_mem54=set_int:mem54:V set_mem55=set_int:mem55:V set_mem56=set_int:mem56:V set_mem57=set_int:mem57:V set_mem58=set_int:mem58:V set_mem59=set_int:mem59:V set_mem5=set_int:mem5:V set_mem60=set_int:mem60:V set_mem61=set_int:mem61:V set_mem62=set_int:mem62:V set_mem63=set_int:mem63:V set_mem64=set_int:mem64:V set_mem65=set_int:mem65:V set_mem66=set_int:mem66:V set_mem67=set_int:mem67:V set_mem68=set_int:mem68:V set_mem69=set_int:mem69:V set_mem6=set_int:mem6:V set_mem70=set_int:mem70:V set_mem71=set_int:mem71:V set_mem72=set_int:mem72:V set_mem73=set_int:mem73:V set_mem74=set_int:mem74:V set_mem75=set_int:mem75:V set_mem76=set_int:mem76:V set_mem77=set_int:mem77:V set_mem78=set_int:mem78:V set_mem79=set_int:mem79:V set_mem7=set_int:mem7:V set_mem80=set_int:mem80:V set_mem81=set_int:mem81:V set_mem82=set_int:mem82:V set_mem83=set_int:mem83:V set_mem84=set_int:mem84:V set_mem85=set_int:mem85:V set_mem86=set_int:mem86:V set_mem87=set_int:mem87:V set_mem88=set_int:mem88:V set_mem89=set_int:mem89:V set_mem8=set_int:mem8:V set_mem90=set_int:mem90:V set_mem91=set_int:mem91:V set_mem92=set_int:mem92:V set_mem93=set_int:mem93:V set_mem94=set_int:mem94:V set_mem95=set_int:mem95:V set_mem96=set_int:mem96:V set_mem97=set_int:mem97:V set_mem98=set_int:mem98:V set_mem99=set_int:mem99:V set_mem9=set_int:mem9:V"]

-- dochy_temporal_test/src/siyou/siyou_generated.rs
#guard okEq (accessorLines coreJsonDirJsonSiyou)
  ["Dim2ListCItem data_mem=get_int:dataMem:V data_mem_def_val=get_int_def:dataMem:V from=",
   "Dim2ListTable get_by_id= get_by_id_us= item1=get_value:item1: item1_us=get_value:item1: item2=get_value:item2: item2_us=get_value:item2: item3=get_value:item3: item3_us=get_value:item3: new=",
   "Dim2ListTableID{Item1,Item2,Item3}r from_num= from_str= len= metadata= to_num= to_str=",
   "EnumListCItem from= get_enum=get_enum:: get_enum_ids=get_enum:: mem=get_immutable_str:mem:V mem_def_val=get_str_def:mem:V",
   "EnumListEnum{HegoList,HogeList,HugaList} new=",
   "HegoListCItem from= mem=get_immutable_str:mem:V mem_def_val=get_str_def:mem:V",
   "HegoListTable get_by_id= get_by_id_us= hegohego=get_value:hegohego: hegohego_us=get_value:hegohego: nantoka_old=get_value:nantoka: nantoka_old_us=get_value:nantoka: new=",
   "HegoListTableID{Hegohego,NantokaOld}r from_num= from_str= len= metadata= to_num= to_str=",
   "HogeListCItem from= mem=get_immutable_str:mem:V mem_def_val=get_str_def:mem:V",
   "HogeListTable get_by_id= get_by_id_us= hogehoge=get_value:hogehoge: hogehoge_us=get_value:hogehoge: new=",
   "HogeListTableID{Hogehoge}r from_num= from_str= len= metadata= to_num= to_str=",
   "HugaListCItem from=",
   "HugaListTable get_by_id= get_by_id_us= hugahuga=get_value:hugahuga: hugahuga_us=get_value:hugahuga: new=",
   "HugaListTableID{Hugahuga}r from_num= from_str= len= metadata= to_num= to_str=",
   "IniItemListCItem atk=get_int:atk:N atk_def_val=get_int_def:atk:N from= ref_id_weapon=get_ref_id:weapon:V ref_weapon=get_ref:weapon:V",
   "InnerMutListMItem from= inner_list_mem=get_int:innerListMem:V inner_list_mem_def_val=get_int_def:innerListMem:V ref_hego_list=get_ref:hegoList:V ref_id_hego_list=get_ref_id:hegoList:V set_inner_list_mem=set_int:innerListMem:V set_ref_hego_list=set_ref:hegoList:V",
   "ItemList3CItem from= mem_override=get_immutable_str:memOverride:N mem_override_def_val=get_str_def:memOverride:N ref_hego_list=get_ref:hegoList:V ref_hoge_list=get_ref:hogeList:V ref_huga_list=get_ref:hugaList:N ref_id_hego_list=get_ref_id:hegoList:V ref_id_hoge_list=get_ref_id:hogeList:V ref_id_huga_list=get_ref_id:hugaList:N",
   "Mut1MItem from= inner_mut_list=get_mil_const:innerMutList:V inner_mut_list_mut=get_mil_mut:innerMutList: set_some_name=set_str:someName:V some_name=get_immutable_str:someName:V some_name_def_val=get_str_def:someName:V some_name_mut=get_mutable_str:someName:V",
   "Mut2Enum{HegoList,HogeList,HugaList} new=",
   "Mut2Kind{HegoList,HogeList,HugaList} id=",
   "Mut2MItem from= get_enum=get_enum:: get_enum_ids=get_enum:: mem=get_immutable_str:mem:V mem_def_val=get_str_def:mem:V mem_mut=get_mutable_str:mem:V set_enum=set_enum:: set_mem=set_str:mem:V",
   "RootIntf at_huga_number=get_int:@HugaNumber:V at_huga_number_def_val=get_int_def:@HugaNumber:V binary=get_immutable_binary:binary:V binary_def_val=get_binary_def:binary:V binary_mut=get_mutable_binary:binary:V deconstruct= dim2_list=get_table:dim2List: empty_int_array=get_immutable_int_array:emptyIntArray:V empty_int_array_def_val=get_int_array_def:emptyIntArray:V empty_int_array_mut=get_mutable_int_array:emptyIntArray:V enum_list=get_clist:enumList: float_array=get_immutable_float_array:floatArray:V float_array_def_val=get_float_array_def:floatArray:V float_array_mut=get_mutable_float_array:floatArray:V hego_float=get_float:hegoFloat:N hego_float_def_val=get_float_def:hegoFloat:N hego_int=get_int:hegoInt:N hego_int_def_val=get_int_def:hegoInt:N hego_list=get_table:hegoList: hoge_bool=get_bool:hogeBool:V hoge_bool_def_val=get_bool_def:hogeBool:V hoge_float=get_float:hogeFloat:V hoge_float_def_val=get_float_def:hogeFloat:V hoge_int=get_int:hogeInt:V hoge_int_def_val=get_int_def:hogeInt:V hoge_list=get_table:hogeList: hoge_string=get_immutable_str:hogeString:V hoge_string_def_val=get_str_def:hogeString:V hoge_string_mut=get_mutable_str:hogeString:V huga_list=get_table:hugaList: ini_item_list=get_clist:iniItemList: int_array=get_immutable_int_array:intArray:V int_array_def_val=get_int_array_def:intArray:V int_array_mut=get_mutable_int_array:intArray:V item_list3=get_clist:itemList3: mut1=get_mlist_const:mut1:V mut1_mut=get_mlist_mut:mut1: mut2=get_mlist_const:mut2:V mut2_mut=get_mlist_mut:mut2: new= new_name2=get_int:newName2:U new_name2_def_val=get_int_def:newName2:U new_name=get_immutable_str:newName:U new_name_def_val=get_str_def:newName:U new_name_mut=get_mutable_str:newName:U nullable_int_array=get_immutable_int_array:nullableIntArray:N nullable_int_array_def_val=get_int_array_def:nullableIntArray:N nullable_int_array_mut=get_mutable_int_array:nullableIntArray:N old_name2_old=get_int:oldName2:N old_name2_old_def_val=get_int_def:oldName2:N old_name_old=get_immutable_str:oldName:N old_name_old_def_val=get_str_def:oldName:N old_name_old_mut=get_mutable_str:oldName:N pugya_int2=get_int:pugyaInt2:Q pugya_int2_def_val=get_int_def:pugyaInt2:Q pugya_int=get_int:pugyaInt:U pugya_int_def_val=get_int_def:pugyaInt:U root_obj_ref= root_obj_ref_mut= set_at_huga_number=set_int:@HugaNumber:V set_binary=set_binary:binary:V set_empty_int_array=set_int_array:emptyIntArray:V set_float_array=set_float_array:floatArray:V set_hego_float=set_float:hegoFloat:I set_hego_int=set_int:hegoInt:I set_hoge_bool=set_bool:hogeBool:V set_hoge_float=set_float:hogeFloat:V set_hoge_int=set_int:hogeInt:V set_hoge_string=set_str:hogeString:V set_int_array=set_int_array:intArray:V set_new_name2=set_int:newName2:I set_new_name=set_str:newName:I set_nullable_int_array=set_int_array:nullableIntArray:I set_old_name2_old=set_int:oldName2:I set_old_name_old=set_str:oldName:I set_pugya_int2=set_int:pugyaInt2:I set_pugya_int=set_int:pugyaInt:I set_some_str=set_str:someStr:V some_data=get_table:someData: some_str=get_immutable_str:someStr:V some_str_def_val=get_str_def:someStr:V some_str_mut=get_mutable_str:someStr:V unko_list=get_table:unkoList: usable=get_table:usable: weapon=get_table:weapon:",
   "SomeDataCItem from= n=get_float:n:V n_def_val=get_float_def:n:V ref_id_unko_list=get_ref_id:unkoList:V ref_unko_list=get_ref:unkoList:V s=get_immutable_str:s:V s_def_val=get_str_def:s:V",
   "SomeDataTable a1ban=get_value:a1ban: a1ban_us=get_value:a1ban: a2ban=get_value:a2ban: a2ban_us=get_value:a2ban: get_by_id= get_by_id_us= new=",
   "SomeDataTableID{A1ban,A2ban}r from_num= from_str= len= metadata= to_num= to_str=",
   "UnkoListCItem from= hoge_int=get_int:hogeInt:V hoge_int_def_val=get_int_def:hogeInt:V hoge_string=get_immutable_str:hogeString:V hoge_string_def_val=get_str_def:hogeString:V",
   "UnkoListTable first=get_value:first: first_us=get_value:first: get_by_id= get_by_id_us= new= second=get_value:second: second_us=get_value:second:",
   "UnkoListTableID{First,Second}r from_num= from_str= len= metadata= to_num= to_str=",
   "UsableCItem from= num=get_int:num:V num_def_val=get_int_def:num:V",
   "UsableTable dokukesisou=get_value:dokukesisou: dokukesisou_us=get_value:dokukesisou: get_by_id= get_by_id_us= new= yakusou=get_value:yakusou: yakusou_us=get_value:yakusou:",
   "UsableTableID{Dokukesisou,Yakusou}r from_num= from_str= len= metadata= to_num= to_str=",
   "WeaponCItem atk=get_int:atk:V atk_def_val=get_int_def:atk:V from=",
   "WeaponTable doutanuki=get_value:doutanuki: doutanuki_us=get_value:doutanuki: get_by_id= get_by_id_us= katana=get_value:katana: katana_us=get_value:katana: new=",
   "WeaponTableID{Doutanuki,Katana}r from_num= from_str= len= metadata= to_num= to_str="]

end Verif.Tests
