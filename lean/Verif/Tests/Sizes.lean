import Verif.Tests.Support
import Verif.Model.CacheFiles
import Verif.Model.HashDir
import Verif.Model.Remover
import Verif.Model.Shift
/-!
# The sizes the manual gives

The manual gives the sizes of files that the program wrote: dochy_manual/src/sample_test/sample_code/efficiency.md those of differences,
dochy_manual/src/b2_save_history_files/save_history_file_test.rs and load_history_file_test.rs the names and sizes of history files. The
model writes files with the same names and the same numbers of bytes.

These are tests of the model against the program: they are evaluated, not proved.
-/
namespace Verif.Tests
open Pipeline Source Core Intf Codec VarInt Diff

/-- dochy_manual/src/sample_test/sample_code_json/users/users_initial -/
def usersInitial : List (String × String) := [("root.json5", r#"{
	users: [
		"MList",
		[{
			id: 0,
			name: "",
			created: "",
			is_active: false,
			"thumbnail?" : ["Str", null],
		}]
	]
}"#)]

/-- `dochy_diff::get_diff` -/
def getDiff (ptr : Ptr) (a b : Root) : Res Bytes := (kvals { lib with ptr } (tableDepth a.table) a b).bind encodeVals

/-- an item of users.rs:26-32 -/
def user (id : Int) (name created : String) (active : Bool) : Item :=
  .mk [("id", .param (int id)), ("name", .param (.string (.val name))), ("created", .param (.string (.val created))),
    ("is_active", .param (.bool (.val active))), ("thumbnail", .param (.string .null))] []

/-- an item of users_omitted.rs:26-29 and 31-35 -/
def userOmitted (id : Int) (name created : String) (active : Bool) : Item :=
  .mk ([("id", .param (int id)), ("name", .param (.string (.val name))), ("created", .param (.string (.val created)))] ++
    if active then [("is_active", .param (.bool (.val true)))] else []) []

def users (mk : Int → String → String → Bool → Item) : List Item :=
  [mk 1 "Holt Gianuzzi" "2/24/2021" false, mk 2 "Sansone Gerard" "5/28/2020" true, mk 3 "Max Mangan" "3/14/2020" false,
    mk 4 "Brice Bartosch" "11/24/2020" false, mk 5 "Lauretta Tyt" "4/26/2020" true]

def withUsers (r : Root) (l : List Item) : Root :=
  { r with sabun := [("users", .list (some ((List.range l.length).zip l, l.length)))] }

/-- efficiency.md:179 "157 bytes" -/
def usersTest : Res Nat := (load usersInitial false).bind fun r => (getDiff (fun _ => false) r (withUsers r (users user))).map (·.length)
#guard okEq usersTest 157

/-- efficiency.md:183 "155 bytes" -/
def usersOmittedTest : Res Nat :=
  (load usersInitial false).bind fun r => (getDiff (fun _ => false) r (withUsers r (users userOmitted))).map (·.length)
#guard okEq usersOmittedTest 155

/-- efficiency.md:255 "37 bytes": users_omitted.rs:54-74 clones the object and adds an item; the strings of the old items are shared -/
def usersAddedTest : Res Nat :=
  (load usersInitial false).bind fun r =>
    (getDiff (fun path => 2 ≤ path.length) (withUsers r (users userOmitted))
      (withUsers r (users userOmitted ++ [userOmitted 6 "Pete Blincow" "6/11/2020" true]))).map (·.length)
#guard okEq usersAddedTest 37

/-! ## History files -/

/-- dochy_manual/src/b2_save_history_files/src_dir -/
def histSrc : List (String × String) := [("root.json5", r#"{
  d0 : "aaaaa",
  d1 : "aaaaa",
  d2 : "aaaaa",
  d3 : "aaaaa",
  d4 : "aaaaa",
  d5 : "aaaaa",
  d6 : "aaaaa",
  d7 : "aaaaa",
  d8 : "aaaaa",
  d9 : "aaaaa"
}"#)]

/-- an object, and which memory the values of its members are in: strings are compared by their address -/
structure Obj where
  root : Root
  mem : AMap Nat

/-- the members that two objects share -/
def shared (a b : Obj) : Ptr := fun path =>
  match path with
  | [id] =>
    match a.root.defs.find? fun e => e.2.1 = id with
    | some e => decide (a.mem.get e.1 = b.mem.get e.1)
    | none => false
  | _ => false

/-- The functions of a history; what is read from files is put into new memory, which is named by the number of the operation. -/
def histOps (src : Root) (now : Nat) : History.Ops Obj where
  src := ⟨src, []⟩
  diff a b := getDiff (shared a b) a.root b.root
  app a d :=
    (decodeVals d).bind fun v => (applyVals lib (tableDepth a.root.table) a.root v.1).bind fun r =>
    (applyVals lib (tableDepth a.root.table) { a.root with sabun := [] } v.1).map fun c =>
      ⟨r, c.sabun.foldl (fun m e => m.insert e.1 now) a.mem⟩

/-- save_history_file_test.rs:208-225 `modify` -/
def modify (o : Obj) (count now : Nat) : Obj :=
  let k := "d" ++ toString (count % 10)
  let old := match o.root.sabun.get k with | some (.param (.string (.val s))) => s | _ => "aaaaa"
  ⟨{ o.root with sabun := o.root.sabun.insert k (.param (.string (.val (old ++ "0123456789")))) }, o.mem.insert k now⟩

/-- save_history_file_test.rs:19-26 -/
def histOpts : Phase.Opts := ⟨2, true, some ⟨some 1, some 3⟩⟩

/-- the object, the cache and the folder -/
abbrev Run := Obj × History.Cache Obj × History.BSt

/-- `modify` and `save_history_file` -/
def step (src : Root) (rid count now : Nat) (tag : Option Bytes) (x : Run) : Run :=
  let o := modify x.1 count now
  let s := History.bsaveC histOpts Phase.shouldShift (histOps src now) x.2.2 x.2.1 rid tag o
  (o, s.1, s.2.1)

def saves (src : Root) : Nat → Run
  | 0 => (⟨src, []⟩, [], ⟨[], none⟩)
  | n + 1 => step src 0 n n none (saves src n)

/-- `print_dir` -/
def printDir (st : History.BSt) : List (String × Nat) := st.dir.map fun f => ((strOfBytes f.1).getD "", f.2.length)

/-- save_history_file_test.rs:36-189: nine saves -/
def historyTest : Res (List (String × Nat)) := (load histSrc false).map fun r => printDir (saves r 9).2.2
#guard okEq historyTest [("_0_0.his", 28), ("_0_0_0.his", 33), ("_0_0_0_0.his", 37), ("_0_1.his", 77), ("_0_1_0.his", 33),
  ("_0_1_0_0.his", 37), ("_0_1_0_1.his", 38), ("_0_1_0_2.his", 40), ("_0_1_1.his", 101)]

/-- save_history_file_test.rs:44 "created_time.dat 12 bytes" -/
example (t : HashDir.Time) (b : Bytes) (h : HashDir.createTimeDat t = .ok b) : b.length = 12 := by
  unfold HashDir.createTimeDat at h
  split at h <;> cases h
  simp [leBytes]

/-- save_history_file_test.rs:193-199: a save with a tag -/
def tagged (src : Root) : Run := step src 0 9 9 (some (strBytes "You_Can_Append_Tag")) (saves src 9)
#guard okEq ((load histSrc false).map fun r => (printDir (tagged r).2.2).getLast?) (some ("#You_Can_Append_Tag#_0_1_1_0.his", 40))

/-- load_history_file_test.rs:32-47: the file "_0_1_0.his" is loaded, and the object is changed and saved -/
def loaded (src : Root) : Res Run :=
  let x := tagged src
  x.2.2.history.bind fun h =>
  match h.listFiles.find? fun p => p.filename = strBytes "_0_1_0.his" with
  | none => .err
  | some p =>
    let l := History.bloadFileC histOpts (histOps src 10) x.2.2 x.2.1 h p 1
    l.2.map fun o => step src 1 0 11 none (o, x.2.1, l.1)
/-- load_history_file_test.rs:50 "(0)_1_1_0_0.his 64 bytes": the string that was read from "_0_1_0.his" is not shared with what the save
reads from the same file, so it is written again; the strings of "_0_1.his" come from the cache both times -/
def loadTest : Res (Option (String × Nat)) :=
  (load histSrc false).bind fun r => (loaded r).map fun x => (printDir x.2.2).getLast?
#guard okEq loadTest (some ("(0)_1_1_0_0.his", 64))

/-! load_history_file_test.rs:64-143: removing. The history was listed before the last save; the file with the tag is not in it (C26), so
that the latest two files are the ones the manual names. -/

def left (keep : FileHistory.History → List FileName.Props) : Res (List String) :=
  (load histSrc false).bind fun r => (tagged r).2.2.history.map fun h =>
    let rem := Remover.fromHistory histOpts.maxPhase histOpts.cumulative.isSome h
    let gone := Remover.removableProps rem ((keep h).foldl (Remover.keepFile rem) [])
    (h.listFiles.filter fun p => p ∉ gone).map fun p => (strOfBytes p.filename).getD ""

/-- lines 68-89 -/
def oldTest : Res (List String) :=
  (load histSrc false).bind fun r => (tagged r).2.2.history.map fun h =>
    let gone := Remover.removableOldItems histOpts.maxPhase histOpts.cumulative.isSome h 2
    (h.listFiles.filter fun p => p ∉ gone).map fun p => (strOfBytes p.filename).getD ""
#guard okEq oldTest ["_0_1.his", "_0_1_0.his", "_0_1_0_0.his", "_0_1_0_1.his", "_0_1_0_2.his", "_0_1_1.his"]
/-- lines 90-116 -/
def keepTest : Res (List String) := left fun h => h.listFiles.filter fun p => p.order = [1, 0, 1]
#guard okEq keepTest ["_0_1.his", "_0_1_0.his", "_0_1_0_0.his", "_0_1_0_1.his"]
/-- lines 117-141 -/
def phase0Test : Res (List String) := left fun h => h.listFiles.filter fun p => p.order.length = 1
#guard okEq phase0Test ["_0_0.his", "_0_1.his"]

end Verif.Tests
