import Verif.Tests.Support
/-!
# The tests of the manual, run on the model

dochy_manual/src/**. Each check cites its test; the texts of the sources are those of the project. These are tests of the model against the
results the authors of the code expect, evaluated while the project is built; they are not proofs.
-/
namespace Verif.Tests
open Pipeline Source Core Intf Codec VarInt Diff

/-- dochy_manual/src/b3_1_clist_and_mlist/jsons/clist_old -/
def clistOld : List (String × String) := [("root.json5", r#"{
  list : [
    "CList",
    // every list must have the default object.
    [{
      //The variables must be defined in the default object with its initial value
      foo : 0,
    }],
    {
      foo : 1,
    },
    {
      foo : 2,
    },
    {
      //if a value is not written, logically its value is the default value,
      //but this object actually doesn't have the value.
      //No memory is used and no storage space consumed
    }
  ]
}"#)]

/-- dochy_manual/src/b3_1_clist_and_mlist/jsons/clist_new -/
def clistNew : List (String × String) := [("root.json5", r#"{
  list : [
    "CList",
    [{
      foo : -1,
    }],
    {
      foo : 3,
    },
    {
      foo : 4,
    },
    {
    },
    {
      foo : 5
    }
  ]
}"#)]

/-- dochy_manual/src/b3_1_clist_and_mlist/jsons/mlist_old -/
def mlistOld : List (String × String) := [("root.json5", r#"{
  mlist : [
    "MList",
    [{
      bar : 0,
      baz : 1
    }],
    {
      bar : 1,
      baz : 2
    },
    {
      // not set
      baz : 3,
    },
    {
      bar : 3,
      // not set
    }
  ]
}"#)]

/-- dochy_manual/src/b3_1_clist_and_mlist/jsons/mlist_new -/
def mlistNew : List (String × String) := [("root.json5", r#"{
  mlist : [
    "MList",
    [{
      //bar is removed,
      baz : 100, // baz's default is changed to 100
      qux : -1, //new value "qux" is defined
    }],
    {
      baz : 1001,
      qux : 2
    },
    {
      baz : 1002,
      qux : 3
    }
  ]
}"#)]

/-- dochy_manual/src/b3_1_clist_and_mlist/jsons/no_data -/
def noData : List (String × String) := [("root.json5", r#"{
  
}"#)]

/-- dochy_manual/src/b3_1_clist_and_mlist/jsons/undefiable_list -/
def undefiable : List (String × String) := [("root.json5", r#"{
  list! : [
    "MList",
    [{
      v : 1,
    }],
    {
      v : 2
    },
    {
      v : 3
    }
  ]
}"#)]

/-- dochy_manual/src/b3_1_clist_and_mlist/jsons/undefiable_list_separated -/
def undefiableList : List (String × String) := [("list!.json5", r#"[
	"MList",
	[{
		v: 1,
	}],
	{
		v: 2
	},
	{
		v: 3
	}
]"#),
  ("root.json5", r#"{

}"#)]

/-- dochy_manual/src/b3_conversion/jsons/old -/
def convOld : List (String × String) := [("root.json5", r#"{
  oldValue : 10,
}"#)]

/-- dochy_manual/src/b3_conversion/jsons/new -/
def convNew : List (String × String) := [("root.json5", r#"{
  "oldValue?" : ["Int", null],
  "newValue!" : 100,
}"#)]

/-- dochy_manual/src/b3_conversion/jsons/new2 -/
def convNew2 : List (String × String) := [("root.json5", r#"{
  "oldValue?" : ["Int", null],
  "newValue!?" : ["Int", null],
  "newValue2!" : 280,
}"#)]

/-- dochy_manual/src/sample_test/sample_code_json/version_aware/old -/
def awareOld : List (String × String) := [("root.json5", r#"{
  oldValue : 10,
}"#)]

/-- dochy_manual/src/sample_test/sample_code_json/version_aware/new -/
def awareNew : List (String × String) := [("root.json5", r#"{
  "oldValue?" : ["Int", null],
  "newValue!" : 100,
}"#)]

/-- dochy_manual/src/a3_dochy_langs_basics/dochy_params -/
def params : List (String × String) := [("root.json5", r#"{
  // Dochy Lang is a language to define static types and initial values of data
  // The source files of the language is called Dochy Src.
  // It's written in "JSON5". It's an improved JSON and comments can be written in it (as you can see).

  // Firstly, you need to crate a directory to place JSON5 files. It's kind of cumbersome, but it's for scalability.
  // The directory must have "root.json5"(It's also bothersome, but it's also for scalability).

  // Let's take a look at the parameter types of Dochy Lang and how to write it.

  // Int (i64)
  int_value : 1,
  // Float (f64)
  float_value : 1.0,
  // String
  string_value : "String",
  // Bool
  bool_value : true,

  // In Dochy Lang, ints (1) and floats (1.0) are distinguishable.
  // Right value's type determines the variable's static type.

  // Let's call Dochy Lang's parameters "Dochy Params".
  // Let's enumerate all the Dochy Param types other than above.

  int_array : ["IntArray", 1, 2],
  float_array : ["FloatArray", 1.0, 2], //integers can be written in FloatArray (it's converted to f64)
  binary : ["Binary"],

  // Arrays and Binary need specifying typenames at the first of their arrays.

  // IntArray is i64's array.
  // FloatArray is f64's array.
  // Binary is u8's array.

  //---

  // Dochy Params have "nullable" variants.

  // You can use "nullable" with attaching "?" at the end of the variable names.
  "nullable_int?" : ["Int", null],

  // To assign null, ["typename", null] is needed.

  // You can just assign normal values to nullable variables

  "nullable_int2?" : 5,

  // Dochy's parser accepts variable names with "?" without quotations.
  // But it's not valid JSON5. Your JSON5 editor will be angry.
  nullable_str? : ["Str", null],

  nullable_float? : ["Float", null],
  nullable_bool? : ["Bool", null],
  nullable_int_array? : ["IntArray", null],
  nullable_float_array? : ["FloatArray", null],
  nullable_binary? : ["Binary", null],

  // ---

  // Dochy has a special value named "undefined".

  // When an old data does not have a variable, and the variable is "undefiable",
  // the value "undefined" will be automatically assigned to the variable in the conversion process.

  // "undefiable" values must have "!" at the end of the variable names.
  // Dochy accepts the value "undefined", like null, but it's invalid JSON5 and not recommended.
  // "undefined" is not supposed to be used in Dochy Src.
  // "undefined" should only be assigned in the conversion process.

  undefiable_int! : ["Int", undefined], // NOT RECOMMENDED

  // You can craate a variable both nullable and undefiable with the suffix "!?"

  undef_nullable_int!? : 2,
}

// Let's suppose this is the old data
//{
//  var1 : 10,
//}

// And this is the new data
//{
//  var1 : 10,
//  var2! : 20,
//}

// When the old data is converted to the new version, it will be
//{
//  var1 : 10,
//  var2! : ["Int", undefined],
//}"#)]

/-- dochy_manual/src/a4_clist/cil -/
def cil : List (String × String) := [("root.json5", r#"{
  // Inner CList is named "Cil".
  // 'Cil' is "Const Inner List".
  // The naming may be peculiar.(I'm not an English speaker. Please tell me better names.)

  // Why Cil exists? What about just use the CList in the CList?

  // Dochy's inner lists are different from normal lists. Let's see.

  clist : ["CList",[{
    val : 0,
    inner_list : ["CilDef",[{
      name : "x",
    }]]
  }],
    {
      val : 1,
      inner_list : ["Cil",
        {
          name : "p",
        },
        {
          name : "q",
        }
      ]
    },
    {
      val : 2,
      //inner_list omitted
    },
  ],
}

// Explanation
//
// clist : ["CList",[{
//    val : 0,
//    inner_list : ["CilDef",[{
//      name : "x",
//    }]]
//  }],
//
// Cil can exist in CList, Table, and Cil. Cil can't exist in mutable lists.
//
// Cil is separated into two parts, "CilDef" and "Cil".
//
// CilDef can exist only in default objects. It defines Cil's default object. Actual values can't be defined there.
//
//    {
//      val : 1,
//      inner_list : ["Cil",
//        {
//          name : "p",
//        },
//        {
//          name : "q",
//        }
//      ]
//    },
//
// Cil, on the other hand, only defines actual values. Cil can exist only in actual items of CList, Cil, Table.
//
//    {
//      val : 2,
//      //inner_list omitted
//    },
//
// In this item, inner_list is omitted. Omitted lists are regarded as an empty list.
//
// Vec is used for implementing Cil, like CList."#)]

/-- dochy_manual/src/a5_mlist/mil -/
def mil : List (String × String) := [("root.json5", r#"{
  // Inner MList is named "Mil", which is "Mut Inner List".

  // Basically, changing C to M works, because they are facially very similar.

  // Internally, MList and Mil uses int-keyed LinkedHashMap, which is a hashmap whose items are linked list nodes,
  // so it has sequential order.

  // It's items have ID number, which is auto-increment, and assigned automatically.
  // The ID is the key, so searching items by ID in the list is very fast(because it's also a hashmap).
  // To calculate diff, we compare items with the same ID.

  // Let's see how to use it in the next section.

  mlist : ["MList",[{
    val : 0,
    inner_list : ["MilDef",[{
      name : "x",
    }]]
  }],
    {
      val : 1,
      inner_list : ["Mil",
        {
          name : "p",
        },
        {
          name : "q",
        }
      ]
    },
    {
      val : 2,
      //inner_list omitted
    },
  ],
}"#)]

/-- dochy_manual/src/a6_table/table -/
def tableSrc : List (String × String) := [("root.json5", r#"{
  // Table is another immutable collection of Dochy

  // Table's items must have string-IDs

  table1: [
    "Table", [{
      val: 0,
    }],
    {
      ID: "item1", //<- ID is needed
      val: 10,
    },
    {
      ID: "item2",
      val: 20,
    },
  ],
  // In Dochy, all names start with capital letters are reserved by the system. "ID" is one of them.

  // Users can use [a-z][A-Za-z0-9]* for identifiers.

  // Other collections can refer table items by ID

  a_list : [
    "CList",[{
      name : "", // Default Values are necessary. "" is good for default values of string.
      Ref : {
        table1 : "",
      },

    }],
    {
      name : "m",
      Ref : {
        table1 : "item1"
      },
    },
    {
      name : "n",
      Ref : {
        table1 : "item2"
      }
    }
  ],

  // Ref is also a keyword of Dochy.

  // In default objects, Ref is like

  // Ref :{
  //   table-name : "" / ID
  // }

  // In items, Ref is

  // Ref :{
  //   table-name : ID
  // }

  // You can refer table items by specifying ID

  // Tables can refer tables too.
  table2 : [
    "Table",[{
      Ref : {
        table1 : "item1", // You can specify ID in default objects too.
      }
    }],
    {
      ID : "a",
      Ref : {
        table1 : "item2"
      }
    },
    {
      ID : "b",
      // When ID is specified in the default object, you can omit "Ref" in items
    }
  ],

  // You can refer two tables at once

  mlist : [
    "MList",[{
      Ref : {
        table1 : "",
        "table2?" : null, // Ref's variables can be nullable too.
      }
    }],
    {
      Ref : {
        table1 : "item1", // When the default value is empty string, existing ID must be set.
        table2 : "a", // Other than default objects, the suffix "?" is not necessary.
      }
    },
    {
      Ref : {
        table1 : "item2",
        // When the default value is "null", you don't have to set ID.
      }
    }
  ]
}"#)]

/-- dochy_manual/src/a7_split_dochy_src/jsons/json -/
def splitOne : List (String × String) := [("root.json5", r#"{
  int : 10,
  list : [
    "CList",
    [{
      v : 0,
    }],
    {
      v : 1,
    }
  ],
  string : "aaaaa"
}"#)]

/-- dochy_manual/src/a7_split_dochy_src/jsons/splitted -/
def splitted : List (String × String) := [("int.json5", r#"10"#),
  ("list.json5", r#"[
  "CList",
  [{
    v : 0,
  }],
  {
    v : 1,
  }
]"#),
  ("root.json5", r#"{

}"#),
  ("string.json5", r#""aaaaa""#)]

/-- clist_old_test.rs:5-18 -/
def clistOldTest : Res (List Param) := (load clistOld true).bind fun r => column r.erase "list" "foo" false
#guard okEq clistOldTest [int 1, int 2, int 0]

/-- clist_new_adjust_test.rs:5-21 -/
def clistNewTest : Res (List Param) :=
  (load clistOld true).bind fun old => (load clistNew true).bind fun new => (Pipeline.adjust new old true).bind fun r =>
  column r.erase "list" "foo" false
#guard okEq clistNewTest [int 3, int 4, int (-1), int 5]

/-- mlist_old_test.rs:5-27 -/
def mlistOldTest (name : String) : Res (List Param) := (load mlistOld true).bind fun r => column r.erase "mlist" name true
#guard okEq (mlistOldTest "bar") [int 1, int 0, int 3]
#guard okEq (mlistOldTest "baz") [int 2, int 3, int 1]

/-- mlist_new_adjust_test.rs:5-33; there is no function for `bar` -/
def mlistNewTest (name : String) : Res (List Param) :=
  (load mlistOld true).bind fun old => (load mlistNew true).bind fun new => (Pipeline.adjust new old true).bind fun r =>
  column r.erase "mlist" name true
#guard okEq (mlistNewTest "baz") [int 2, int 3, int 100]
#guard okEq (mlistNewTest "qux") [int (-1), int (-1), int (-1)]
#guard !(mlistNewTest "bar").isOk

/-- undefiable_list_test.rs:5-22 -/
def undefiableTest (new : List (String × String)) (name : String) : Res (Option (List (Nat × Item))) :=
  (load noData true).bind fun old => (load new true).bind fun new => (Pipeline.adjust new old true).bind fun r =>
  (root r.erase name).bind fun o => match o with | .mlist _ l => .ok l | _ => .err
#guard match undefiableTest undefiableList "list" with | .ok none => true | _ => false
#guard match undefiableTest undefiableList "list_mut" with | .ok (some []) => true | _ => false
-- the same source in one file
#guard match undefiableTest undefiable "list" with | .ok none => true | _ => false

/-- new_accessor_wrapper.rs:15-28 `new_value` -/
def newValue (r : RootObj) : Res Int :=
  (rootParam r "new_value").bind fun v =>
    match v with
    | .int .undef => (rootParam r "old_value").bind fun o =>
      match o with
      | .int .null => (rootParam r "new_value_def_val").bind fun d => match d with | .int (.val i) => .ok i | _ => .err
      | .int (.val i) => .ok (i * 10)
      | _ => .err
    | .int (.val i) => .ok i
    | _ => .err

/-- conversion_test.rs:8-25 -/
def conversionTest : Res Int :=
  (load convOld true).bind fun old => (load convNew true).bind fun new => (Pipeline.adjust new old true).bind fun r => newValue r.erase
#guard okEq conversionTest 100

def conversionTest2 : Res Int :=
  (load awareOld true).bind fun old => (rootSet old.erase "set_old_value" (int 2)).bind fun o =>
  (load awareNew true).bind fun new => (Pipeline.adjust new { old with sabun := o.sabun } true).bind fun r => newValue r.erase
#guard okEq conversionTest2 20

/-- params_test.rs:7-120, as far as it does not change memory -/
def paramsTest (name : String) : Res Param := (load params false).bind fun r => rootParam r.erase name
#guard okEq (paramsTest "int_value") (int 1)
#guard okEq (paramsTest "int_value_def_val") (int 1)
#guard okEq (paramsTest "float_value") (.float (.val 0x3ff0000000000000))
#guard okEq (paramsTest "float_value_def_val") (.float (.val 0x3ff0000000000000))
#guard okEq (paramsTest "bool_value") (.bool (.val true))
#guard okEq (paramsTest "bool_value_def_val") (.bool (.val true))
#guard okEq (paramsTest "string_value") (.string (.val "String"))
#guard okEq (paramsTest "string_value_def_val") (.string (.val "String"))
#guard okEq (paramsTest "int_array") (.intArray (.val [1, 2]))
#guard okEq (paramsTest "float_array") (.floatArray (.val [0x3ff0000000000000, 0x4000000000000000]))
#guard okEq (paramsTest "binary") (.binary (.val []))
#guard okEq (paramsTest "nullable_int") (.int .null)
#guard okEq (paramsTest "nullable_int2") (int 5)
#guard okEq (paramsTest "nullable_str") (.string .null)
#guard okEq (paramsTest "nullable_float") (.float .null)
#guard okEq (paramsTest "nullable_bool") (.bool .null)
#guard okEq (paramsTest "nullable_int_array") (.intArray .null)
#guard okEq (paramsTest "nullable_float_array") (.floatArray .null)
#guard okEq (paramsTest "nullable_binary") (.binary .null)
#guard okEq (paramsTest "undefiable_int") (.int .undef)
#guard okEq (paramsTest "undef_nullable_int") (int 2)
def paramsSet (set : String) (q : Param) (name : String) : Res Param :=
  (load params false).bind fun r => (rootSet r.erase set q).bind fun r => rootParam r name
#guard okEq (paramsSet "set_int_value" (int 23) "int_value") (int 23)
#guard okEq (paramsSet "set_string_value" (.string (.val "New String")) "string_value") (.string (.val "New String"))
#guard okEq (paramsSet "set_int_array" (.intArray (.val [10, 20, 30])) "int_array") (.intArray (.val [10, 20, 30]))
#guard okEq ((load params false).bind fun r => (rootSet r.erase "set_string_value" (.string (.val "New String"))).bind fun r =>
  match modifyRoot r "string_value" (fun p => match p with | .string (.val s) => .string (.val (s ++ " push")) | p => p) with
  | some r => rootParam r "string_value"
  | none => .err) (.string (.val "New String push"))

/-- use_cil.rs:7-30: the lengths of the inner lists, and the names in them -/
def cilTest : Res (List (List Param)) :=
  (load cil false).bind fun r => let r := r.erase
  (rootItems r "clist").bind fun l => (fn (citemFns l.1) "inner_list").bind fun b =>
  l.2.foldr (fun it acc => (readItem r.defs l.1 it b).bind fun o =>
    match o with
    | .clist d il => (fn (citemFns d) "name").bind fun b =>
      (il.foldr (fun it acc => (readItem r.defs d it b).bind fun o => (asParam o).bind fun p => acc.map (p :: ·)) (.ok [])).bind fun p =>
      acc.map (p :: ·)
    | _ => .err) (.ok [])
#guard okEq cilTest [[.string (.val "p"), .string (.val "q")], []]

/-- split_src_test.rs:5-11: a source in one file and in several files has the same members with the same values -/
def showParam : Param → String := fun p => reprStr p
def showList (_r : RootObj) : RootVal → String
  | .param p vt => showParam p ++ reprStr vt
  | .clist d l => toString (l.length) ++ toString (d.members.map (·.1)) ++ (l.map fun it => toString (it.values.map fun e =>
      e.1 ++ (match e.2 with | .param p => showParam p | _ => "?"))).foldl (· ++ ·) ""
  | _ => "?"
def showRoot (r : RootObj) : List String := (r.defs.map fun e => e.1 ++ ":" ++ showList r e.2).mergeSort (fun a b => a ≤ b)
#guard okEq ((load splitOne true).map fun r => showRoot r.erase) (match load splitted true with | .ok r => showRoot r.erase | _ => [])
#guard okEq ((load splitOne true).map fun r => (showRoot r.erase).length) 3

end Verif.Tests
