import Verif.Model.Core
/-!
# Reading and assigning members

Model of `dochy_core/src/imp/structs/util/set_sabun.rs`, `structs/root_obj.rs:85-100`, `structs/rust_list.rs:185-198`,
`intf/root.rs` and `intf/mitem.rs`.

The typed accessors (`get_int`, `set_int`, …) only wrap a value in its `RustParam`, or take it out of it.
`get_mutable_*` hand out a reference to a vector or string inside a value; what the caller does with it is the function `f` below.
-/
namespace Verif.Core
open Diff

/-- util/set_sabun.rs:13-15 -/
inductive SetError where
  | notFound | typeMismatch | qvMismatch
  deriving DecidableEq

/-- util/set_sabun.rs:4-12 `verify_set_sabun` -/
def verifySet (p : Param) (vt : VType) (sab : Param) : Option SetError :=
  if paramAcceptable p sab = false then some .typeMismatch
  else if varAcceptable vt sab.qvType = false then some .qvMismatch
  else none

/-- root_obj.rs:85-100 `set_sabun_param`: the object afterwards, and the value that was replaced or an error. (If something that is not a
parameter is replaced, it returns an error after the insertion.) -/
def setRoot (r : RootObj) (name : String) (q : Param) : RootObj × Except SetError (Option Param) :=
  match r.defs.get name with
  | some (.param p vt) =>
    match verifySet p vt q with
    | some e => (r, .error e)
    | none =>
      let r' := { r with sabun := r.sabun.insert name (.param q) }
      match r.sabun.get name with
      | some (.param old) => (r', .ok (some old))
      | some (.list _) => (r', .error .notFound)
      | none => (r', .ok none)
  | _ => (r, .error .notFound)

/-- rust_list.rs:185-198 `set_sabun`: the item afterwards, and the value that was replaced; replacing something that is not a parameter
panics. -/
def setItem (d : ListDef) (it : Item) (name : String) (q : Param) : Item × Res (Except SetError (Option Param)) :=
  match d.members.get name with
  | some (.param p vt) =>
    match verifySet p vt q with
    | some e => (it, .ok (.error e))
    | none =>
      let it' := Item.mk (it.values.insert name (.param q)) it.refs
      match it.values.get name with
      | some (.param old) => (it', .ok (.ok (some old)))
      | some _ => (it', .panic)
      | none => (it', .ok (.ok none))
  | _ => (it, .ok (.error .notFound))

/-- intf/root.rs:298-308 `get_param` -/
def getRootParam (r : RootObj) (name : String) : Option Param :=
  match r.sabun.get name with
  | some (.param p) => some p
  | _ =>
    match r.defs.get name with
    | some (.param p _) => some p
    | _ => none

/-- intf/root.rs:330-336 `get_param_def` -/
def getRootParamDef (r : RootObj) (name : String) : Option Param :=
  match r.defs.get name with
  | some (.param p _) => some p
  | _ => none

/-- intf/mitem.rs:336-345 `get_param` -/
def getItemParam (d : ListDef) (it : Item) (name : String) : Option Param :=
  match it.values.get name with
  | some (.param p) => some p
  | _ =>
    match d.members.get name with
    | some (.param p _) => some p
    | _ => none

/-- intf/root.rs:309-329 `get_param_mut`, followed by the change `f` of the referenced value; `none` if there is no such parameter. -/
def modifyRoot (r : RootObj) (name : String) (f : Param → Param) : Option RootObj :=
  match r.sabun.get name with
  | some (.param p) => some { r with sabun := r.sabun.insert name (.param (f p)) }
  | _ =>
    match r.defs.get name with
    | some (.param p _) => some { r with sabun := r.sabun.insert name (.param (f p)) }
    | _ => none

/-- intf/mitem.rs:357-373 `get_param_mut`, followed by the change `f` of the referenced value. -/
def modifyItem (d : ListDef) (it : Item) (name : String) (f : Param → Param) : Option Item :=
  match it.values.get name with
  | some (.param p) => some (.mk (it.values.insert name (.param (f p))) it.refs)
  | _ =>
    match d.members.get name with
    | some (.param p _) => some (.mk (it.values.insert name (.param (f p))) it.refs)
    | _ => none

/-- intf/root.rs:370-379 `set_initial_value` -/
def setInitialRoot (r : RootObj) (name : String) (len : Nat) : RootObj × Bool :=
  match r.defs.get name with
  | some (.param p _) => ({ r with sabun := r.sabun.insert name (.param (toDefaultValue len p)) }, true)
  | _ => (r, false)

/-- intf/mitem.rs:408-416 `set_initial_value` -/
def setInitialItem (d : ListDef) (it : Item) (name : String) (len : Nat) : Item × Bool :=
  match d.members.get name with
  | some (.param p _) => (.mk (it.values.insert name (.param (toDefaultValue len p))) it.refs, true)
  | _ => (it, false)

/-- intf/mitem.rs:375-379 `set_ref` (it always returns `true`) -/
def setRef (it : Item) (table : String) (id : Qv String) : Item × Bool := (.mk it.values (it.refs.insert table id), true)

/-- intf/citem.rs:224-236 `get_ref_id_impl` -/
def getRefId (d : ListDef) (it : Item) (table : String) : Option (Qv String) :=
  match it.refs.get table with
  | some q => some q
  | none => (d.refs.refs.get table).map (·.1)

/-- intf/mitem.rs:399-403 `set_enum` -/
def setEnum (it : Item) (table : String) (id : String) : Item × Bool := setRef (.mk it.values []) table (.val id)

/-- intf/citem.rs:243-250 `get_enum_impl` -/
def getEnum (it : Item) : Option (String × String) :=
  it.refs.findSome? fun e => match e.2 with | .val v => some (e.1, v) | _ => none

/-- intf/root.rs:259-281 `get_mlist_mut`: asking for a list that is undefined or not stored stores an empty one. -/
def touchRoot (r : RootObj) (name : String) : Option RootObj :=
  match r.defs.get name with
  | some (.mlist _ _) =>
    match r.sabun.get name with
    | some (.list (some _)) => some r
    | _ => some { r with sabun := r.sabun.insert name (.list (some ([], 0))) }
  | _ => none

/-- intf/mitem.rs:43-67 `get_mil_mut` -/
def touchMil (d : ListDef) (it : Item) (name : String) : Option Item :=
  match d.members.get name with
  | some (.milDef _ _) =>
    match it.values.get name with
    | some (.mil _ _) => some it
    | _ => some (.mk (it.values.insert name (.mil [] 0)) it.refs)
  | _ => none

end Verif.Core
