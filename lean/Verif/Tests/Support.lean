import Verif.Model.Pipeline
import Verif.Model.Accessor
/-!
# Running the project's tests on the model

The tests of the project load a source folder, change the object through the generated accessor, and read it through the accessor. Here the
texts of the source files are those of the project, and a function of the accessor is found by its generated name.
-/
namespace Verif.Tests
open Pipeline Source Core Intf Codec VarInt Diff

/-- Characters are classified as in ASCII: the sources have no other ones outside of strings and comments. -/
def ascii : Json5.Uni where
  letter := Char.isAlpha
  mark c := c.isDigit || c == '_'

/-- the values of the decimals in the tests -/
def decimals : List (String × UInt64) :=
  [("0.0", 0x0000000000000000), ("1.0", 0x3ff0000000000000), ("2.0", 0x4000000000000000), ("4.0", 0x4010000000000000),
   ("5.8", 0x4017333333333333), ("11.0", 0x4026000000000000), ("30.08", 0x403e147ae147ae14)]

/-- Library code. Nothing is compressed; the hash is the number of bytes; hash maps are walked in the order of insertion. -/
def lib : Lib where
  env := ⟨fun m => m⟩
  uni := ascii
  pf := fun s => (decimals.find? fun e => e.1.toList = s).map (·.2)
  fromU32 := fun _ => 0
  float := ⟨id, id, fun _ => 0, fun _ => 0⟩
  compress := some
  decompress := some
  hash := fun b => b.length % 2 ^ 128
  ptr := fun _ => false

/-- `json_dir_to_root(path, validation)` of a folder with these files -/
def load (files : List (String × String)) (validation : Bool) : Res Root :=
  (dirRoot lib "d" (files.map fun f => .file f.1 (strBytes f.2))).bind fun r =>
  if validation then (validateRoot r.1.erase false).map fun _ => r.1 else .ok r.1

/-- the body of the function with this name -/
def fn (fns : List Fn) (name : String) : Res Body :=
  match fns.find? fun f => f.name = name.toList with
  | some f => .ok f.body
  | none => .err

/-- a call of a function of the root -/
def root (r : RootObj) (name : String) : Res Out := (fn (rootFns r) name).bind (readRoot r)

/-- a call that returns a parameter -/
def asParam : Out → Res Param
  | .param p => .ok p
  | _ => .err

def rootParam (r : RootObj) (name : String) : Res Param := (root r name).bind asParam

/-- a call of a setter of the root -/
def rootSet (r : RootObj) (name : String) (q : Param) : Res RootObj := (fn (rootFns r) name).map fun b => writeRoot r b q

/-- the definition and the items of a list, in order -/
def rootItems (r : RootObj) (name : String) : Res (ListDef × List Item) :=
  (root r name).bind fun o =>
    match o with
    | .clist d l => .ok (d, l)
    | .mlist d (some l) => .ok (d, l.map (·.2))
    | _ => .err

/-- a call of a function of each item of a list of the root that returns a parameter -/
def column (r : RootObj) (list name : String) (isMut : Bool) : Res (List Param) :=
  (rootItems r list).bind fun l => (fn (if isMut then mitemFns l.1 else citemFns l.1) name).bind fun b =>
    l.2.foldr (fun it acc => (readItem r.defs l.1 it b).bind fun o => (asParam o).bind fun p => acc.map (p :: ·)) (.ok [])

def okEq {α : Type} [DecidableEq α] (r : Res α) (v : α) : Bool := match r with | .ok x => decide (x = v) | _ => false

/-- an integer -/
def int (i : Int) : Param := .int (.val i)

end Verif.Tests
