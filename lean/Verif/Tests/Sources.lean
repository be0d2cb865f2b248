import Verif.Tests.Support
/-!
# Source folders of the project

The texts of the files are copied from the project.
-/
namespace Verif.Tests

/-- dochy_core/src/json_dir/json_siyou -/
def coreJsonDirJsonSiyou : List (String × String) := [("root.json5", r#"{
  hogeInt : 10,
  hogeFloat : 11.0,
  hogeString : "hoge",
  hogeBool : true,
  @HugaNumber : 30, //先頭が大文字のメンバ名はすべてシステムが予約しているので認められない。しかしメンバ名をどうしても大文字で始めたい場合、
                      //jsonでは戦闘に@をつけ、プログラム側では@なしでもアクセス可能にするという技も使えなくはなかろうと思う。

  //名前が?で終わるメンバはnull値を含むことが出来る。
  //プログラム側のメンバ名にはこの?は反映されず、型が変わるだけ(もし俺以外の実装が現れたらわからないが・・・）
  //初期値にnullを入れるには、特殊な記法を使う必要がある
  hegoInt? : ["Int", null], //型を指定し、null値を入れる。これでnullになる。
  "hegoFloat?" : ["Float", null], //型を指定し、null値を入れる。これでnullになる。

  //!で終わる場合、バージョン違いでこのメンバを持っていなかった場合、デフォルト値でなくundefinedが入る。
  //undefinedを手入力してはいけない
  pugyaInt! : 10,
  pugyaInt2!? : ["Int", null], //!?も出来る。?!ではダメ


  //配列はいまのところint配列、float配列の2通り。
  floatArray : [ "FloatArray", 5.8, 8, 10 ],

  //Int配列はタグなしでもかける・・・必要か？
  intArray : [ 0, 3, 10 ],

  emptyIntArray : [ "IntArray" ], //初期値が空配列のnum-array
  "nullableIntArray?" : [ "IntArray", null ], //nullable配列の初期値をnullにする場合

  //古くて今では使っていないが、互換性のために残すメンバはOldに指定する
  //oldに設定されたメンバは、_oldを付けなければプログラムから使用できず、
  //ConstDataである場合、jsonで Refできない。
  Old : [ "oldName", "oldName2" ],

  //nullを入れておく。この変数に値が入っているなら、それは古いデータということになるだろう
  "oldName?" : ["Str", null],
  "oldName2?" : ["Int", null],

  //undefined可能に設定することで、古いデータの場合はundefinedが設定される。
  //その場合、oldの古いデータを参照し、なんらかの変換をかけることで新しい値を設定できるかもしれない
  "newName!" : "new_dayo",
  "newName2!" : 100,

  unkoList : [
	"Table", //オブジェクトのコレクションを作るためにはList,Data,MutListのどれかを使う必要がある。DataはIDによる参照が可能である
	["Default", {
		hogeInt : 0,
		hogeString : "hoge"
	}], //デフォルト値を設定
	{
		ID : "first",
		hogeInt : 12,
		hogeString : "huga"
	},
	{
		ID : "second",
		//デフォルト値から変更がない場合は書かなくても良い
	}],



  usable : [
    "Table",
    //Defaultを省略する
    [{ num : 0 }],
    {
      ID : "yakusou",
      num : 3
    },
    {
      ID : "dokukesisou",
      num : 31
    }
  ],

  weapon : [
    "Table",
    ["Default", { atk : 0 }],
    {
      ID : "katana",
      atk : 5
    },
    {
      ID : "doutanuki",
      atk : 7
    }
  ],

  iniItemList : [
    "CList",
    ["Default",{
      "atk?" : ["Int", null],
      "Ref": { weapon : "" }, //Refの基本の形、なにか入れないとエラーになる。
    }],
    {
      Ref : { weapon : "doutanuki" }, //どうたぬきを参照。
      atk : 8 //override的ななにか
    }
  ],

  hogeList : [
    "Table",
    ["Default",{ mem : "" }],
    {
      ID : "hogehoge",
      mem : "a",
    }
  ],

  hugaList: [
    "Table",
    ["Default",{}],
    {
      ID : "hugahuga"
    }
  ],

  hegoList: [
    "Table",
    ["Default", {
        mem : "",
    }],
    ["Old", "nantoka"],//Oldに指定されたItemは、jsonから参照できず、プログラムから使うときもnantoka_Oldという名前でアクセスしないとコンパイルエラーになる
    {
      ID : "hegohego",
      mem : "b",
    },
    {
      ID : "nantoka",
    }
  ],

  itemList3 : [
    "CList",
    ["Default",{
      "memOverride?" : ["Str", null],
      "Ref" : { hogeList : "", "hugaList?" : null, hegoList : "" },
    }],
    {
      Ref : { //参照先を記述
        hogeList : "hogehoge",
        //入力しなければデフォルトになる。この場合null
        hegoList : "hegohego",
      },
    }
  ],

  dim2List : [
    "Table", [{
      dataMem : 3,

    }],
    {
      ID : "item1",

      dataMem : 300,
    },
    {
      ID : "item2",
    },
    {
      ID : "item3",

    }
  ],

  mut1 : [
    "MList",
    ["Default",{
      innerMutList : [
        "MilDef",

        ["Default",{
          Ref : { hegoList :  "" },
          innerListMem : 3,
        }],
      ],
      someName : "",
    }],//MutListには初期値を与えてはいけない。InnerMutにも。
  ],



  enumList : [
    "CList",
    ["Default",{
      Enum :{
        "hogeList?" : null, "hugaList?" : null, "hegoList?" : null //enumはどれか一つだけ参照し、プログラムからはmatchでアクセスできる
      },
      mem : "unti",
    }],
    {
      Enum :{
        hogeList : "hogehoge",
      }
    },
    {
      Enum :{
        hegoList : "hegohego"
      }
    }
  ],

  mut2 : [
    "MList",
    ["Default",{
      Enum :{
        "hogeList?" : null, "hugaList?" : null, "hegoList?" : null //enumはどれか一つだけ参照し、プログラムからはmatchでアクセスできる
      },
      mem : "unti",
    }],
  ],

  binary : [
    "Binary",
    10,
    20,
    30,
    255
  ]
}"#),
  ("someData.json5", r#"[
	"Table",
	["Default", { s : "", n : 0.0, Ref : { unkoList : ""}}],
	{
		ID : "a1ban",
		Ref : { unkoList : "first" },
	},
	{
		ID: "a2ban",
		s: "hugahuga",
		n: 30.08,
		Ref: {
			unkoList: "second"
		},
	}
]"#),
  ("someStr.json5", r#""some string""#)]

/-- dochy_manual/src/a3_dochy_langs_basics/dochy_params -/
def manualA3DochyLangsBasicsDochyParams : List (String × String) := [("root.json5", r#"{
  // Dochy Lang is a language to define static types and initial values of data
  // The source files of the language is called Dochy Src.
  // It's written in "JSON5". It's an improved JSON and comments can be written in it (as you can see).

  // Firstly, you need to crate a directory to place JSON5 files. It's kind of cumbersome, but it's for scalability.
  // The directory must have "root.json5"(It's also bothersome, but it's also for scalability).

  // Let's take a look at the parameter types of Dochy Lang and how to write it.

  // Int (i64)
  int_value : 1,
  // Float (f64)
  float_value : 1.0,
  // String
  string_value : "String",
  // Bool
  bool_value : true,

  // In Dochy Lang, ints (1) and floats (1.0) are distinguishable.
  // Right value's type determines the variable's static type.

  // Let's call Dochy Lang's parameters "Dochy Params".
  // Let's enumerate all the Dochy Param types other than above.

  int_array : ["IntArray", 1, 2],
  float_array : ["FloatArray", 1.0, 2], //integers can be written in FloatArray (it's converted to f64)
  binary : ["Binary"],

  // Arrays and Binary need specifying typenames at the first of their arrays.

  // IntArray is i64's array.
  // FloatArray is f64's array.
  // Binary is u8's array.

  //---

  // Dochy Params have "nullable" variants.

  // You can use "nullable" with attaching "?" at the end of the variable names.
  "nullable_int?" : ["Int", null],

  // To assign null, ["typename", null] is needed.

  // You can just assign normal values to nullable variables

  "nullable_int2?" : 5,

  // Dochy's parser accepts variable names with "?" without quotations.
  // But it's not valid JSON5. Your JSON5 editor will be angry.
  nullable_str? : ["Str", null],

  nullable_float? : ["Float", null],
  nullable_bool? : ["Bool", null],
  nullable_int_array? : ["IntArray", null],
  nullable_float_array? : ["FloatArray", null],
  nullable_binary? : ["Binary", null],

  // ---

  // Dochy has a special value named "undefined".

  // When an old data does not have a variable, and the variable is "undefiable",
  // the value "undefined" will be automatically assigned to the variable in the conversion process.

  // "undefiable" values must have "!" at the end of the variable names.
  // Dochy accepts the value "undefined", like null, but it's invalid JSON5 and not recommended.
  // "undefined" is not supposed to be used in Dochy Src.
  // "undefined" should only be assigned in the conversion process.

  undefiable_int! : ["Int", undefined], // NOT RECOMMENDED

  // You can craate a variable both nullable and undefiable with the suffix "!?"

  undef_nullable_int!? : 2,
}

// Let's suppose this is the old data
//{
//  var1 : 10,
//}

// And this is the new data
//{
//  var1 : 10,
//  var2! : 20,
//}

// When the old data is converted to the new version, it will be
//{
//  var1 : 10,
//  var2! : ["Int", undefined],
//}"#)]

/-- dochy_manual/src/a4_clist/cil -/
def manualA4ClistCil : List (String × String) := [("root.json5", r#"{
  // Inner CList is named "Cil".
  // 'Cil' is "Const Inner List".
  // The naming may be peculiar.(I'm not an English speaker. Please tell me better names.)

  // Why Cil exists? What about just use the CList in the CList?

  // Dochy's inner lists are different from normal lists. Let's see.

  clist : ["CList",[{
    val : 0,
    inner_list : ["CilDef",[{
      name : "x",
    }]]
  }],
    {
      val : 1,
      inner_list : ["Cil",
        {
          name : "p",
        },
        {
          name : "q",
        }
      ]
    },
    {
      val : 2,
      //inner_list omitted
    },
  ],
}

// Explanation
//
// clist : ["CList",[{
//    val : 0,
//    inner_list : ["CilDef",[{
//      name : "x",
//    }]]
//  }],
//
// Cil can exist in CList, Table, and Cil. Cil can't exist in mutable lists.
//
// Cil is separated into two parts, "CilDef" and "Cil".
//
// CilDef can exist only in default objects. It defines Cil's default object. Actual values can't be defined there.
//
//    {
//      val : 1,
//      inner_list : ["Cil",
//        {
//          name : "p",
//        },
//        {
//          name : "q",
//        }
//      ]
//    },
//
// Cil, on the other hand, only defines actual values. Cil can exist only in actual items of CList, Cil, Table.
//
//    {
//      val : 2,
//      //inner_list omitted
//    },
//
// In this item, inner_list is omitted. Omitted lists are regarded as an empty list.
//
// Vec is used for implementing Cil, like CList."#)]

/-- dochy_manual/src/a4_clist/clist -/
def manualA4ClistClist : List (String × String) := [("root.json5", r#"{
  // Dochy has three collection types, "CList","MList", and "Table",
  // but the basic foundations are the same.

  clist : ["CList",[{
    name : "a",
    val : 3,
  }],
    {
      name : "b",
      val : 4,
    },
    {
      //name is omitted
      val : 5,
    }
  ],
}

// Explanation:
//
// Dochy's every collection must have "default object" to define the static type of the items of the collection.
//
//   clist : ["CList",[{
//    name : "a",
//    val : 3,
//  }],
//
// Dochy's default object is surrounded by "[{" and "}]".
// The default object defines the variables "name" (String) and "val" (Int).
// "name"'s default value is "a", and "val"'s is 3.
//
// {
//   name : "b",
//   val : 4,
// },
//
// This is the first item of the list.
// "name" is "b" and "val" is 4.
//
// {
//   //name is omitted
//   val : 5,
// }
//
// In the second object, the "name" variable is omitted.
// When a value is omitted, it's default value is used, so the value "name" will be "a".
//
// CList is the immutable list of Dochy.
// Why we need CList?
// We have MList which is the mutable list of Dochy.
// You can use MList and hide the mutable methods.
//
// It's because, these two have different strategies in conversion.
//
// When you need to modify older version's data,
// you can just rewrite clist in the current version's source file.
//
// In the conversion process, older data's CList is just replaced by the current source file's CList.
//
// MList is not replaced in the conversion process (because we need to retain the modified data).
//
// CList is implemented by std::Vec internally."#)]

/-- dochy_manual/src/a5_mlist/mil -/
def manualA5MlistMil : List (String × String) := [("root.json5", r#"{
  // Inner MList is named "Mil", which is "Mut Inner List".

  // Basically, changing C to M works, because they are facially very similar.

  // Internally, MList and Mil uses int-keyed LinkedHashMap, which is a hashmap whose items are linked list nodes,
  // so it has sequential order.

  // It's items have ID number, which is auto-increment, and assigned automatically.
  // The ID is the key, so searching items by ID in the list is very fast(because it's also a hashmap).
  // To calculate diff, we compare items with the same ID.

  // Let's see how to use it in the next section.

  mlist : ["MList",[{
    val : 0,
    inner_list : ["MilDef",[{
      name : "x",
    }]]
  }],
    {
      val : 1,
      inner_list : ["Mil",
        {
          name : "p",
        },
        {
          name : "q",
        }
      ]
    },
    {
      val : 2,
      //inner_list omitted
    },
  ],
}"#)]

/-- dochy_manual/src/a5_mlist/mlist -/
def manualA5MlistMlist : List (String × String) := [("root.json5", r#"{
  // MList is a mutable list in Dochy.
  // Explanations are reserved for the next section.

  mlist : ["MList",[{
    name : "a",
    val : 3,
  }],
    {
      name : "b",
      val : 4,
    },
    {
      //name is omitted
      val : 5,
    }
  ],
}"#)]

/-- dochy_manual/src/a6_table/table -/
def manualA6TableTable : List (String × String) := [("root.json5", r#"{
  // Table is another immutable collection of Dochy

  // Table's items must have string-IDs

  table1: [
    "Table", [{
      val: 0,
    }],
    {
      ID: "item1", //<- ID is needed
      val: 10,
    },
    {
      ID: "item2",
      val: 20,
    },
  ],
  // In Dochy, all names start with capital letters are reserved by the system. "ID" is one of them.

  // Users can use [a-z][A-Za-z0-9]* for identifiers.

  // Other collections can refer table items by ID

  a_list : [
    "CList",[{
      name : "", // Default Values are necessary. "" is good for default values of string.
      Ref : {
        table1 : "",
      },

    }],
    {
      name : "m",
      Ref : {
        table1 : "item1"
      },
    },
    {
      name : "n",
      Ref : {
        table1 : "item2"
      }
    }
  ],

  // Ref is also a keyword of Dochy.

  // In default objects, Ref is like

  // Ref :{
  //   table-name : "" / ID
  // }

  // In items, Ref is

  // Ref :{
  //   table-name : ID
  // }

  // You can refer table items by specifying ID

  // Tables can refer tables too.
  table2 : [
    "Table",[{
      Ref : {
        table1 : "item1", // You can specify ID in default objects too.
      }
    }],
    {
      ID : "a",
      Ref : {
        table1 : "item2"
      }
    },
    {
      ID : "b",
      // When ID is specified in the default object, you can omit "Ref" in items
    }
  ],

  // You can refer two tables at once

  mlist : [
    "MList",[{
      Ref : {
        table1 : "",
        "table2?" : null, // Ref's variables can be nullable too.
      }
    }],
    {
      Ref : {
        table1 : "item1", // When the default value is empty string, existing ID must be set.
        table2 : "a", // Other than default objects, the suffix "?" is not necessary.
      }
    },
    {
      Ref : {
        table1 : "item2",
        // When the default value is "null", you don't have to set ID.
      }
    }
  ]
}"#)]

/-- dochy_manual/src/b1_save_dochy_files/src_dir -/
def manualB1SaveDochyFilesSrcDir : List (String × String) := [("root.json5", r#"{
  message : "Hello World"
}"#)]

/-- dochy_manual/src/b2_save_history_files/src_dir -/
def manualB2SaveHistoryFilesSrcDir : List (String × String) := [("root.json5", r#"{
  d0 : "aaaaa",
  d1 : "aaaaa",
  d2 : "aaaaa",
  d3 : "aaaaa",
  d4 : "aaaaa",
  d5 : "aaaaa",
  d6 : "aaaaa",
  d7 : "aaaaa",
  d8 : "aaaaa",
  d9 : "aaaaa"
}"#)]

/-- dochy_manual/src/b3_1_clist_and_mlist/jsons/clist_new -/
def manualB31ClistAndMlistJsonsClistNew : List (String × String) := [("root.json5", r#"{
  list : [
    "CList",
    [{
      foo : -1,
    }],
    {
      foo : 3,
    },
    {
      foo : 4,
    },
    {
    },
    {
      foo : 5
    }
  ]
}"#)]

/-- dochy_manual/src/b3_1_clist_and_mlist/jsons/clist_old -/
def manualB31ClistAndMlistJsonsClistOld : List (String × String) := [("root.json5", r#"{
  list : [
    "CList",
    // every list must have the default object.
    [{
      //The variables must be defined in the default object with its initial value
      foo : 0,
    }],
    {
      foo : 1,
    },
    {
      foo : 2,
    },
    {
      //if a value is not written, logically its value is the default value,
      //but this object actually doesn't have the value.
      //No memory is used and no storage space consumed
    }
  ]
}"#)]

/-- dochy_manual/src/b3_1_clist_and_mlist/jsons/mlist_new -/
def manualB31ClistAndMlistJsonsMlistNew : List (String × String) := [("root.json5", r#"{
  mlist : [
    "MList",
    [{
      //bar is removed,
      baz : 100, // baz's default is changed to 100
      qux : -1, //new value "qux" is defined
    }],
    {
      baz : 1001,
      qux : 2
    },
    {
      baz : 1002,
      qux : 3
    }
  ]
}"#)]

/-- dochy_manual/src/b3_1_clist_and_mlist/jsons/mlist_old -/
def manualB31ClistAndMlistJsonsMlistOld : List (String × String) := [("root.json5", r#"{
  mlist : [
    "MList",
    [{
      bar : 0,
      baz : 1
    }],
    {
      bar : 1,
      baz : 2
    },
    {
      // not set
      baz : 3,
    },
    {
      bar : 3,
      // not set
    }
  ]
}"#)]

/-- dochy_manual/src/b3_1_clist_and_mlist/jsons/undefiable_list_separated -/
def manualB31ClistAndMlistJsonsUndefiableListSeparated : List (String × String) := [("list!.json5", r#"[
	"MList",
	[{
		v: 1,
	}],
	{
		v: 2
	},
	{
		v: 3
	}
]"#),
  ("root.json5", r#"{

}"#)]

/-- dochy_manual/src/b3_conversion/jsons/new -/
def manualB3ConversionJsonsNew : List (String × String) := [("root.json5", r#"{
  "oldValue?" : ["Int", null],
  "newValue!" : 100,
}"#)]

/-- dochy_manual/src/b3_conversion/jsons/new2 -/
def manualB3ConversionJsonsNew2 : List (String × String) := [("root.json5", r#"{
  "oldValue?" : ["Int", null],
  "newValue!?" : ["Int", null],
  "newValue2!" : 280,
}"#)]

/-- dochy_manual/src/b3_conversion/jsons/old -/
def manualB3ConversionJsonsOld : List (String × String) := [("root.json5", r#"{
  oldValue : 10,
}"#)]

/-- dochy_manual/src/make_manual/manual -/
def manualMakeManualManual : List (String × String) := [("root.json5", r#"{
  list : [
    "CList",
    [{
      title : "",
      "src?" : ["Str",null],
    }],
    {
      title : "1. Dochy Lang"
    },
    {
      title : "1-1. Basic Params",
      src : "a3_dochy_langs_basics/dochy_params/root.json5"
    },
    {
      title : "1-1-1. Generate Source Code To Access Params",
      src : "a3_dochy_langs_basics/dochy_params_generate.rs"
    },
    {
      title : "1-1-2. Use Generated Source Code",
      src : "a3_dochy_langs_basics/params_test.rs"
    },
    {
      title : "2. CList",
      src : "a4_clist/clist/root.json5"
    },
    {
      title : "2-1. Cil (Const Inner List)",
      src : "a4_clist/cil/root.json5"
    },
    {
      title : "2-2. Use Clist And Cil",
      src : "a4_clist/use_cil.rs"
    },
    {
      title : "3. MList",
      src : "a5_mlist/mlist/root.json5"
    },
    {
      title : "3-1. Mil(Mut Inner List)",
      src : "a5_mlist/mil/root.json5"
    },
    {
      title : "3-2. Use Mil",
      src : "a5_mlist/use_mil.rs"
    },
    {
      title : "4. Table",
      src : "a6_table/table/root.json5"
    },
    {
      title : "4-1. Use Table",
      src : "a6_table/use_table.rs"
    },
    {
      title : "5. Split Dochy Src",
      src : "a7_split_dochy_src/split_src.md"
    },
    {
      title : "6. Dochy File",
      src : "b1_save_dochy_files/save_dochy_files.md"
    },
    {
      title : "6-1. Save Dochy File",
      src : "b1_save_dochy_files/save_dochy_file_test.rs"
    },
    {
      title : "6-2. Load And Remove Dochy File",
      src : "b1_save_dochy_files/load_dochy_file.rs"
    },
    {
      title : "7. Dochy History",
      src : "b2_save_history_files/whats_dochy_history.md"
    },
    {
      title : "7-1. Save History File",
      src : "b2_save_history_files/save_history_file_test.rs"
    },
    {
      title : "7-2. Load And Remove History File",
      src : "b2_save_history_files/load_history_file_test.rs"
    },
    {
      title : "7-3. Algorithm Of Dochy History",
      src : "b2_save_history_files/algorithm_of_history.md"
    },
    {
      title : "8. Directory Composition And How To Handle",
      src : "b2_save_history_files/directory_composition_and_how_to_handle.md"
    },
    {
      title : "9. Conversion",
      src : "b3_conversion/conversion.md"
    },
    {
      title : "9-1. Convert CList And MList",
      src : "b3_1_clist_and_mlist/clist_and_mlist.md"
    },
    {
      title : "9-2. Undefined MList",
      src : "b3_1_clist_and_mlist/separate_undefined_list.md"
    }
  ]
}"#)]

/-- dochy_manual/src/sample_test/sample_code_json/clist_new -/
def manualSampleTestSampleCodeJsonClistNew : List (String × String) := [("root.json5", r#"{
  list : [
    "CList",
    [{
      foo : -1,
    }],
    {
      foo : 3,
    },
    {
      foo : 4,
    },
    {
    },
    {
      foo : 5
    }
  ]
}"#)]

/-- dochy_manual/src/sample_test/sample_code_json/clist_old -/
def manualSampleTestSampleCodeJsonClistOld : List (String × String) := [("root.json5", r#"{
  list : [
    "CList",
    // every list must have the default object.
    [{
      //The variables must be defined in the default object with its initial value
      foo : 0,
    }],
    {
      foo : 1,
    },
    {
      foo : 2,
    },
    {
      //if a value is not written, logically its value is the default value,
      //but this object actually doesn't have the value.
      //No memory is used and no storage space consumed
    }
  ]
}"#)]

/-- dochy_manual/src/sample_test/sample_code_json/mlist_new -/
def manualSampleTestSampleCodeJsonMlistNew : List (String × String) := [("root.json5", r#"{
  mlist : [
    "MList",
    [{
      //bar is removed,
      baz : 100, // baz's default is changed to 100
      qux : -1, //new value "qux" is defined
    }],
    {
      baz : 1001,
      qux : 2
    },
    {
      baz : 1002,
      qux : 3
    }
  ]
}"#)]

/-- dochy_manual/src/sample_test/sample_code_json/mlist_old -/
def manualSampleTestSampleCodeJsonMlistOld : List (String × String) := [("root.json5", r#"{
  mlist : [
    "MList",
    [{
      bar : 0,
      baz : 1
    }],
    {
      bar : 1,
      baz : 2
    },
    {
      // not set
      baz : 3,
    },
    {
      bar : 3,
      // not set
    }
  ]
}"#)]

/-- dochy_manual/src/sample_test/sample_code_json/ref1 -/
def manualSampleTestSampleCodeJsonRef1 : List (String × String) := [("root.json5", r#"{
  list : [
    "MList",
    [{
      Ref : {
        //Ref's initial value must be a ID, empty string, or null
        //If it's empty string, you must set ID, otherwise an error will occur.
        tableA : "",
      },
      bar : -1,
    }],
    {
      Ref : {
        tableA : "item2", //reference item2 of the table below
        //IDs must be exists, otherwise an error will occur.
      },
      //bar is not set
    },
    {
      Ref : {
        tableA : "item1"
      },
      bar : 30,
    }
  ],
  tableA : [
    "Table",
    [{
      foo : 0
    }],
    {
      ID : "item1",
      foo : 33,
    },
    {
      ID : "item2",
      //not set
    }
  ]
}"#)]

/-- dochy_manual/src/sample_test/sample_code_json/ref2 -/
def manualSampleTestSampleCodeJsonRef2 : List (String × String) := [("root.json5", r#"{
  list : [
    "MList",
    [{
      Ref : {
        tableA : "",
      },
      "foo?" : ["Int",null],
    }],
    {
      Ref : {
        tableA : "item1",
      },
      // The value is updated here
      foo : 22,
    },
  ],
  tableA : [
    "Table",
    [{
      foo : 0
    }],
    {
      ID : "item1",
      foo : 33,
    },
  ]
}"#)]

/-- dochy_manual/src/sample_test/sample_code_json/rpg2 -/
def manualSampleTestSampleCodeJsonRpg2 : List (String × String) := [("herb.json5", r#"[
  "Table",
  [{
    restore : 0,
    price : 0,
  }],
  {
    ID : "low",
    restore : 30,
    price : 10,
  },
  {
    ID : "middle",
    restore : 80,
    price : 50,
  }
]
"#),
  ("root.json5", r#"{
  pcList : [
    "MList",
    [{
      name : "",
      items : [
        // "Mil" stands for "Mut Inner List"
        "MilDef",
        // In a default object, inner list's default object is defined.
        // The name "MilDef" stresses the fact.
        [{
          //"Enum" is a keyword
          // Enum is basically the programming language Rust's "enum"
          Enum : {
            //Enum's variables must be nullable, and the default values must be null
            "sword?" : null,
            "herb?" : null,
          }
        }]
      ]
    }],
    {
      name : "Elvis",
      //Elvis has a bronze sword and a middle healing
      items : [
        //Mil stands for "Mut Inner List"
        "Mil",
        //In an item, we need to write inner list's items without the default object
        {
          Enum : {
            //You must set only one variable to define Enum,
            sword : "bronze",
          }
        },
        {
          Enum : {
            herb : "middle",
          }
        }
      ]
    },
    {
      name : "George",
      //George has a low herb and an iron sword
      items : [
        "Mil",
        {
          Enum : {
            herb : "low",
          }
        },
        {
          Enum : {
            sword : "iron",
          }
        },

      ]
    },
  ],
}"#),
  ("sword.json5", r#"[
  "Table",
  [{
    attack : 0,
    price : 0,
  }],
  {
    ID : "bronze",
    attack : 10,
    price : 100,
  },
  {
    ID : "iron",
    attack : 40,
    price :500,
  }
]
"#)]

/-- dochy_manual/src/sample_test/sample_code_json/version_aware/new -/
def manualSampleTestSampleCodeJsonVersionAwareNew : List (String × String) := [("root.json5", r#"{
  "oldValue?" : ["Int", null],
  "newValue!" : 100,
}"#)]

/-- dochy_manual/src/sample_test/sample_code_json/version_aware/new2 -/
def manualSampleTestSampleCodeJsonVersionAwareNew2 : List (String × String) := [("root.json5", r#"{
  "oldValue?" : ["Int", null],
  "newValue!?" : ["Int", null],
  "newValue2!" : 280,
}"#)]

/-- dochy_test/src/diff/diff_big_structure -/
def testDiffDiffBigStructure : List (String × String) := [("root.json5", r#"{
  mem1 : 2,
  mem2 : 2,
  mem3 : 2,
  mem4 : 2,
  mem5 : 2,
  mem6 : 2,
  mem7 : 2,
  mem8 : 2,
  mem9 : 2,
  mem10 : 2,
  mem11 : 2,
  mem12 : 2,
  mem13 : 2,
  mem14 : 2,
  mem15 : 2,
  mem16 : 2,
  mem17 : 2,
  mem18 : 2,
  mem19 : 2,
  mem20 : 2,
  mem21 : 2,
  mem22 : 2,
  mem23 : 2,
  mem24 : 2,
  mem25 : 2,
  mem26 : 2,
  mem27 : 2,
  mem28 : 2,
  mem29 : 2,
  mem30 : 2,
  mem31 : 2,
  mem32 : 2,
  mem33 : 2,
  mem34 : 2,
  mem35 : 2,
  mem36 : 2,
  mem37 : 2,
  mem38 : 2,
  mem39 : 2,
  mem40 : 2,
  mem41 : 2,
  mem42 : 2,
  mem43 : 2,
  mem44 : 2,
  mem45 : 2,
  mem46 : 2,
  mem47 : 2,
  mem48 : 2,
  mem49 : 2,
  mem50 : 2,
  mem51 : 2,
  mem52 : 2,
  mem53 : 2,
  mem54 : 2,
  mem55 : 2,
  mem56 : 2,
  mem57 : 2,
  mem58 : 2,
  mem59 : 2,
  mem60 : 2,
  mem61 : 2,
  mem62 : 2,
  mem63 : 2,
  mem64 : 2,
  mem65 : 2,
  mem66 : 2,
  mem67 : 2,
  mem68 : 2,
  mem69 : 2,
  mem70 : 2,
  mem71 : 2,
  mem72 : 2,
  mem73 : 2,
  mem74 : 2,
  mem75 : 2,
  mem76 : 2,
  mem77 : 2,
  mem78 : 2,
  mem79 : 2,
  mem80 : 2,
  mem81 : 2,
  mem82 : 2,
  mem83 : 2,
  mem84 : 2,
  mem85 : 2,
  mem86 : 2,
  mem87 : 2,
  mem88 : 2,
  mem89 : 2,
  mem90 : 2,
  mem91 : 2,
  mem92 : 2,
  mem93 : 2,
  mem94 : 2,
  mem95 : 2,
  mem96 : 2,
  mem97 : 2,
  mem98 : 2,
  mem99 : 2,
  mem100 : 2,
  mem101 : 2,
  mem102 : 2,
  mem103 : 2,
  mem104 : 2,
  mem105 : 2,
  mem106 : 2,
  mem107 : 2,
  mem108 : 2,
  mem109 : 2,
  mem110 : 2,
  mem111 : 2,
  mem112 : 2,
  mem113 : 2,
  mem114 : 2,
  mem115 : 2,
  mem116 : 2,
  mem117 : 2,
  mem118 : 2,
  mem119 : 2,
  mem120 : 2,
  mem121 : 2,
  mem122 : 2,
  mem123 : 2,
  mem124 : 2,
  mem125 : 2,
  mem126 : 2,
  mem127 : 2,
  mem128 : 2,
  mem129 : 2,
  mem130 : 2,
  mem131 : 2,
}"#)]

/-- dochy_test/src/diff/diff_list -/
def testDiffDiffList : List (String × String) := [("root.json5", r#"{
  refed1 : ["Table",
    [{
      notImportant : 0
    }],
    {
      ID : "a1"
    },
    {
      ID : "a2"
    }],

  refed2 : ["Table",
    [{
      notVeryImportant : 0,
    }],
    {
      ID : "b1",
    },
    {
      ID : "b2",
    }
  ],

  list : ["MList",
    [{
      Ref : {
        refed1 : "a1",
      },
      mem : 0,
      inList : ["MilDef",
        [{
          Ref : {
            refed2 : ""
          },
          inMem : 0,
          inList2 : ["MilDef",
            [{
              inMem2 : 0,
            }]
          ]
        }]
      ]
    }],
    {
      Ref : {
        refed1 : "a1",
      },
      mem : 0,
      inList : ["Mil",
        {
          Ref : {
            refed2 : "b1",
          },
          inList2 : ["Mil",
            {
              inMem2 : 0,
            }
          ]
        }
      ]
    },
  ],


}"#)]

/-- dochy_test/src/diff/diff_param -/
def testDiffDiffParam : List (String × String) := [("root.json5", r#"{
  hogeInt : 10,
  hogeFloat : 11.0,
  hogeString : "hoge",
  hogeBool : true,
  hogeIntArray : [10, 20, 30],
  hogeFloatArray : ["FloatArray", 2.0, 3, 4.0],
  hogeBinary : ["Binary", 1,2,3],
  "hogeIntHatena?" : 12,
  "hogeIntHatenaToNull?" : 120,
  "hogeIntHatenaNull?" : ["Int", null],
  "hogeUndefined!" : 13,
  "hogeUndefinedToUndef!" : 130,
  "hogeUndefinedUndef!" : ["Int",undefined],
  "hogeUndefNullToNull!?" : 14,
  "hogeUndefNullToUndef!?" : 15,
  "hogeUndefNullNull!?" : ["Int",null],
  "hogeUndefNullUndef!?" : ["Int",undefined],
  "hogeUndefNullNullToUndef!?" : ["Int",null],
  "hogeUndefNullUndefToNull!?" : ["Int",undefined],
}"#)]

/-- dochy_test/src/diff/diff_ref -/
def testDiffDiffRef : List (String × String) := [("root.json5", r#"{
  refed1 : ["Table",
    [{
      notImportant : 0
    }],
    {
      ID : "a1"
    },
    {
      ID : "a2"
    }],

  refed2 : ["Table",
    [{
      notVeryImportant : 0,
    }],
    {
      ID : "b1",
    },
    {
      ID : "b2",
    }
  ],
  refed3 : ["Table",
    [{
      notSoImportant : 0,
    }],
    {
      ID : "c1",
    },
    {
      ID : "c2",
    }
  ],
  refed4 : ["Table",
    [{
      notImportant : 0,
    }],
    {
      ID : "d1",
    },
    {
      ID : "d2",
    }
  ],

  list1 : ["MList",
    [{
      Ref : {
        refed1 : "a1",
        "refed2?" : "b1",
        "refed3!" : "c1",
        "refed4!?" : "d1",
      },
    }],
    {
    },
    {
      Ref : {
        refed1 : "a2",
        refed2 : "b2",
        refed3 : "c2",
        refed4 : "d2",
      },
    }
  ],

  list2 : ["MList",
    [{
      Ref : {
        refed1 : "",
        "refed2?" : null,
        "refed3!" : undefined,
        "refed4!?" : null,
      },
    }],
    {
      Ref : {
        refed1 : "a1",
      }
    },
    {
      Ref : {
        refed1 : "a2",
        refed2 : "b2",
        refed3 : "c2",
        refed4 : "d2",
      },
    }
  ],

  list3 : ["MList",
    [{
      Ref : {
        refed1 : "",
        "refed2?" : null,
        "refed3!" : undefined,
        "refed4!?" : undefined,
      },
    }],
    {
      Ref : {
        refed1 : "a1",
      }
    },
    {
      Ref : {
        refed1 : "a2",
        refed2 : "b2",
        refed3 : "c2",
        refed4 : "d2",
      },
    }
  ]

}"#)]

/-- dochy_test/src/fs_test/history_accum_test/src_dir -/
def testFsTestHistoryAccumTestSrcDir : List (String × String) := [("root.json5", r#"{
  data0 : ["IntArray"],
  data1 : ["IntArray"],
  data2 : ["IntArray"],
  data3 : ["IntArray"],
  data4 : ["IntArray"],
  data5 : ["IntArray"],
  data6 : ["IntArray"],
  data7 : ["IntArray"],
  data8 : ["IntArray"],
  data9 : ["IntArray"],
}"#)]

/-- dochy_test/src/fs_test/test_save_async/src_dir -/
def testFsTestTestSaveAsyncSrcDir : List (String × String) := [("root.json5", r#"{
  data0 : 0,
}"#)]

/-- dochy_test/src/fs_test/test_save_history_nb/src_dir -/
def testFsTestTestSaveHistoryNbSrcDir : List (String × String) := [("root.json5", r#"{
  data0 : 0,
}"#)]

/-- dochy_test/src/fs_test/test_save_history_vacant/src_dir -/
def testFsTestTestSaveHistoryVacantSrcDir : List (String × String) := [("root.json5", r#"{
  data0 : 0,
}"#)]

end Verif.Tests
