import Verif.Tests.Sources
import Verif.Model.Export
/-!
# The tests of the export and of the adjustment of versions, run on the model

dochy_core/src/testing. The tests print errors instead of failing, and one of them is commented out; here is what the model gives. These are tests,
not proofs.
-/
namespace Verif.Tests
open Pipeline Source Core Codec VarInt Diff Export

/-- how numbers are printed: those of the samples are integers or among `decimals` -/
def display (b : BitVec 64) : List Char :=
  let f := Float.ofBits (UInt64.ofNat b.toNat)
  let i := if f < 0 then -(Int.ofNat (-f).toUInt64.toNat) else Int.ofNat f.toUInt64.toNat
  if Float.ofInt i == f then (toString i).toList
  else match decimals.find? fun e => e.2.toNat == b.toNat with
    | some e => e.1.toList
    | none => []

/-- `root_to_json_new_default` and `to_string_pretty` -/
def exported (r : Root) : Res (List Char) := (rootToJson r).map (pretty display)
/-- `json_root_to_rust` -/
def reloaded (t : List Char) : Res Root := loadText lib.env lib.uni lib.pf lib.fromU32 t

-- json_to_rust_and_json.rs:6-20 `it_works`
#guard match (load coreJsonDirJsonSiyou true).bind exported with
  | .ok _ => true
  | _ => false

-- json_to_rust_and_json.rs:25-66 `it_works2`: the text is the same after loading and exporting twice; it is so already after the first time
#guard match (load coreJsonDirJsonSiyou true).bind fun a => (exported a).bind fun at' => (reloaded at').bind fun b => (exported b).bind fun bt =>
    (reloaded bt).bind fun c => (exported c).map fun ct => (at', bt, ct) with
  | .ok (x, y, z) => y = z && x = y
  | _ => false

/-- dochy_core/src/json_dir/version_adjuster/old -/
def adjusterOld : List (String × String) := [("root.json5", r#"{
	num : -2, //numとかstrは今は書き換える方法がないので、テスト出来ませんね・・・
	str : "old",

	refedData: [
		"Table",
		[{
			oldMem1 : 1,
			mem2 : 2,
		}],
		{
			ID : "first",
			oldMem1 : 10,
			mem2 : 20,
		},
		{
			ID : "second",
			oldMem1 : 100,
			mem2 : 200,
		}
	],

	oldRefedData : [
		"Table",
		[{}],
		{
			ID : "hogehoge",
		}
	],

	constList: [
		"CList",
		["Default",{
			Ref : { refedData : "", oldRefedData : "" },
			mem : 0,
			hoge : 20,
		}],
		{
			mem : 100,
			Ref : { refedData : "first", oldRefedData : "hogehoge" }
		},
		{
			Ref : { refedData :  "second", oldRefedData : "hogehoge" },
			mem : 200,
			hoge : 30,
		}
	],

	mutList : [
		"MList",
		["Default",{
			mem : 0,
			hoge : 0,
			Ref: { refedData : "", oldRefedData: "", },
		}],
		{
			mem : 100,
			hoge : 30,
			Ref : { refedData : "first", oldRefedData : "hogehoge" }
		},
		{
			Ref : { refedData :  "second", oldRefedData : "hogehoge" },
			hoge : 40,
		}
	]
}"#)]

/-- dochy_core/src/json_dir/version_adjuster/new -/
def adjusterNew : List (String × String) := [("root.json5", r#"{
	num : 10,
	str : "a",
	"undef!" : "undef",

	refedData: [
		"Table",
		[{
			//MutListとCompatibleでない場合、oldメンバが使われることはないので、old指定する必要はなく単に消せばいいはず
			//Compatibleかどうかの判断が難しいので、oldをつけて消さないという選択もあるかもしれないが・・・？
			//そもそもDataとCompatibleにする必要があるのか・・・？
			newMem : 10,
			mem2 : 9,
		}],
		["Old", "first"],
		{
			ID : "first",
		},
		{
			ID : "second",
		},
		{
			ID : "newItem",
		}

	],

	constList: [
		"CList",
		["Default",{
			Ref : {
				refedData : "",
				"oldRefedData?" : null,
				"newRefedData!" : "",
				Old : ["oldRefedData"]
			},
			mem : -100,
			tuikaMem : 20,
			"hoge?" : ["Int",null],
			"hogeNew!" : 80,
			Old : ["hoge"],
		}],
		//firstはold化されているので、ここではrefしない。しかし、旧バージョンのmutlistを読みだした時には、firstは入っている
		//どうするのがいいんでしょうね。参照先が消えているとExceptionするしかないのでなんかしら入れとく必要はあるだろうけど、
		//oldが入ってるのが有効なデータともいい難い気はする。かなり中途半端な存在になってしまう
		{
			Ref : { refedData :  "second", newRefedData : "hugahuga" },
			mem : 4000,
			tuikaMem : 30,
		},
		{
			Ref : { refedData : "newItem", newRefedData : "hogehoge" },
			mem : 5000,
			hogeNew : 90,
		},
	],


	mutList : [
		"MList",
		[{
			Ref : {
				refedData : "",
				"oldRefedData?" : null,
				"newRefedData!" : "",
				Old : ["oldRefedData"],
			},
			mem : 0,
			tuikaMem : 0, //新メンバ。旧バージョンのデータではこのデフォルト値が使われる
			"hoge?" : ["Int",null], //新定義にしたいので旧定義はnullにし、old指定して上書きできなくする。旧バージョンではここに値が残っている,
			"hogeNew!" : 0, //新定義はundefined可能にする。旧バージョンのデータではundefinedになるので、適切な値を計算して代入。計算のために旧定義の値も残す
			Old : ["hoge"],
		}],
	],

	Old : ["oldRefedData"],

	oldRefedData : [
		"Table",
		[{}],
		{
			ID : "hogehoge",
		}
	],

	//これでDataのRenameは可能になっている・・・Renameは重要・・・
	newRefedData : [
		"Table",
		[{}],
		{
			ID : "hogehoge",
		},
		{
			ID : "hugahuga",
		}
	]
}"#)]

/-- test_version_adjuster.rs:10-36: both versions are loaded, and the old object is adjusted -/
def adjusted : Res Root := (load adjusterNew true).bind fun new => (load adjusterOld true).bind fun old => adjust new old true

/-- a column of the mutable list, read from the adjusted object -/
def mutColumn (name : String) : Res (List Param) := adjusted.bind fun r => column r.erase "mut_list" name true

#guard okEq ((load adjusterOld true).map fun _ => ()) ()
#guard okEq (adjusted.map fun _ => ()) ()
-- the comments of new/root.json5: new members have their default values, `hoge` keeps the old values, `hogeNew` is undefined
#guard okEq (mutColumn "mem") [int 100, int 0]
#guard okEq (mutColumn "tuika_mem") [int 0, int 0]
#guard okEq (mutColumn "hoge_new") [.int .undef, .int .undef]
#guard okEq (adjusted.map fun r => match r.sabun.get "mutList" with
  | some (.list (some l)) => l.1.map fun x => match x.2.values.get "hoge" with | some (.param p) => p | _ => int (-1)
  | _ => []) [int 30, int 40]
-- and the references that became old are kept
#guard okEq (adjusted.map fun r => match r.sabun.get "mutList" with
  | some (.list (some l)) => l.1.map fun x => (x.2.refs.get "refedData", x.2.refs.get "oldRefedData", x.2.refs.get "newRefedData")
  | _ => []) [(some (.val "first"), some (.val "hogehoge"), some .undef), (some (.val "second"), some (.val "hogehoge"), some .undef)]

-- test_version_adjuster.rs:39-58: the text of an object with items in a mutable list is refused (C68), so that the test prints an error
#guard match adjusted.bind exported with
  | .ok t => (match reloaded t with | .err => true | _ => false)
  | _ => false

end Verif.Tests
