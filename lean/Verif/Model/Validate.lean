import Verif.Model.Core
/-!
# Validation of an object

Model of `dochy_core/src/imp/json_to_rust/validation/*.rs`. `Ok(())` is `ok ()`; error messages are left out.
-/
namespace Verif.Core
open Diff

/-- rust_value.rs:28-31 `RustMemberType`, as far as members of list items have it -/
inductive MemberType where
  | param (t : PType)
  | cil
  | mil
  deriving DecidableEq

/-- list_value.rs:54-62 `type_num` -/
def DefVal.type : DefVal → MemberType
  | .param p _ => .param (ptype p)
  | .cilDef _ => .cil
  | .milDef _ _ => .mil

/-- list_sab_value.rs:18-27 `type_num` -/
def SabVal.type : SabVal → MemberType
  | .param p => .param (ptype p)
  | .cil _ => .cil
  | .milNone => .mil
  | .mil _ _ => .mil

/-- list_value.rs:46-52 `value_type` -/
def DefVal.varType : DefVal → VType
  | .param _ vt => vt
  | .milDef _ true => .undefiable
  | _ => .normal

/-- list_sab_value.rs:40-46 `qv_type` -/
def SabVal.qvType : SabVal → QvType
  | .param p => p.qvType
  | .milNone => .undef
  | _ => .val

/-- list_value.rs:27-34 `acceptable` -/
def DefVal.acceptable (d : DefVal) (v : SabVal) : Bool := decide (d.type = v.type) && varAcceptable d.varType v.qvType

/-- `for x in l { f(x)? }` -/
def forEach {α : Type} (l : List α) (f : α → Res Unit) : Res Unit :=
  match l with
  | [] => .ok ()
  | x :: r => (f x).bind fun _ => forEach r f

/-- `if c { Err(..)? }` -/
def failIf (c : Bool) : Res Unit := if c then .err else .ok ()

/-- validate_refs.rs:12-73: the check of one reference -/
def validateRef (defs : AMap RootVal) (d : RefDef) (canUseOld : Bool) (e : String × Qv String) : Res Unit :=
  (failIf (!canUseOld && decide (e.1 ∈ d.old))).bind fun _ =>
  match d.refs.get e.1 with
  | none => .err
  | some h =>
    (failIf (!varAcceptable h.2 e.2.type)).bind fun _ =>
    match e.2 with
    | .val id =>
      (failIf (decide (id = ""))).bind fun _ =>
      match defs.get e.1 with
      | some (.table _ list old) =>
        (failIf (list.get id).isNone).bind fun _ => failIf (!canUseOld && decide (id ∈ old))
      | _ => .err
    | _ => .ok ()

/-- validate_refs.rs:12-73 `validate_refs` -/
def validateRefs (defs : AMap RootVal) (d : RefDef) (sabun : AMap (Qv String)) (canUseOld : Bool) : Res Unit :=
  (if d.isEnum then failIf (decide (sabun.length ≠ 1))
    else forEach d.refs fun e =>
      failIf ((sabun.get e.1).isNone && (match e.2.1 with | .val v => decide (v = "") | _ => false))).bind fun _ =>
  forEach sabun (validateRef defs d canUseOld)

mutual
/-- validate_list_item.rs:13-60 `validate_list_item` -/
def validateItem (defs : AMap RootVal) (canUseOld : Bool) (d : ListDef) : Item → Res Unit
  | .mk values refs =>
    (validateRefs defs d.refs refs canUseOld).bind fun _ => validateValues defs canUseOld d values
/-- validate_list_item.rs:18-58: the loop over the values -/
def validateValues (defs : AMap RootVal) (canUseOld : Bool) (d : ListDef) : List (String × SabVal) → Res Unit
  | [] => .ok ()
  | (name, v) :: r =>
    (failIf (!canUseOld && decide (name ∈ d.old))).bind fun _ =>
    match d.members.get name with
    | none => .err
    | some dv =>
      (failIf (!dv.acceptable v)).bind fun _ =>
      (validateValue defs canUseOld dv v).bind fun _ => validateValues defs canUseOld d r
/-- validate_list_item.rs:29-57: the lists inside an item; `unreachable!()` is a panic -/
def validateValue (defs : AMap RootVal) (canUseOld : Bool) (dv : DefVal) : SabVal → Res Unit
  | .param _ =>
    match dv with
    | .param _ _ => .ok ()
    | _ => .panic
  | .cil items =>
    match dv with
    | .cilDef d => validateList defs canUseOld d items
    | .milDef _ _ => .panic
    | .param _ _ => .ok ()
  | .milNone =>
    match dv with
    | .milDef _ undefiable => failIf (!undefiable)
    | .cilDef _ => .panic
    | .param _ _ => .ok ()
  | .mil items _ =>
    match dv with
    | .milDef d _ => validateMutList defs canUseOld d items
    | .cilDef _ => .panic
    | .param _ _ => .ok ()
/-- validate_list.rs:8-14 `validate_const_list` -/
def validateList (defs : AMap RootVal) (canUseOld : Bool) (d : ListDef) : List Item → Res Unit
  | [] => .ok ()
  | it :: r => (validateItem defs canUseOld d it).bind fun _ => validateList defs canUseOld d r
/-- validate_mut_list.rs:9-16 `validate_mut_list` -/
def validateMutList (defs : AMap RootVal) (canUseOld : Bool) (d : ListDef) : List (Nat × Item) → Res Unit
  | [] => .ok ()
  | (_, it) :: r => (validateItem defs canUseOld d it).bind fun _ => validateMutList defs canUseOld d r
end

/-- validate_ref_def.rs:8-23 `validate_ref_def` with validate_old_def_mem.rs:28-35 -/
def validateRefDef (d : RefDef) : Res Unit :=
  (if d.isEnum then forEach d.refs fun e => failIf (match e.2.1 with | .null => false | _ => true) else .ok ()).bind fun _ =>
  forEach d.old fun n => failIf (d.refs.get n).isNone

mutual
/-- validate_list_def.rs:12-43 `validate_list_def` -/
def validateListDef (isMut : Bool) : ListDef → Res Unit
  | .mk members refs old =>
    (validateRefDef refs).bind fun _ =>
    (forEach old fun n => failIf (AMap.get members n).isNone).bind fun _ => validateMembers isMut members
/-- validate_list_def.rs:16-41: the loop -/
def validateMembers (isMut : Bool) : List (String × DefVal) → Res Unit
  | [] => .ok ()
  | (_, v) :: r => (validateDefVal isMut v).bind fun _ => validateMembers isMut r
def validateDefVal (isMut : Bool) : DefVal → Res Unit
  | .param _ _ => .ok ()
  | .cilDef d => (failIf isMut).bind fun _ => validateListDef isMut d
  | .milDef d _ => (failIf (!isMut)).bind fun _ => validateListDef isMut d
end

/-- validate_root.rs:33-72: one member of the root object (validate_data.rs:11-19 `validate_table`) -/
def validateMember (r : RootObj) (canUseOld : Bool) (e : String × RootVal) : Res Unit :=
  match e.2 with
  | .param p _ =>
    match r.sabun.get e.1 with
    | none => .ok ()
    | some (.param q) => failIf (!paramAcceptable p q)
    | some (.list _) => .err
  | .table d list old =>
    (validateListDef false d).bind fun _ =>
    (forEach old fun n => failIf (list.get n).isNone).bind fun _ =>
    forEach list fun x => validateItem r.defs canUseOld d x.2
  | .clist d list => (validateListDef false d).bind fun _ => validateList r.defs canUseOld d list
  | .mlist d undefiable =>
    (validateListDef true d).bind fun _ =>
    match r.sabun.get e.1 with
    | none => .ok ()
    | some (.list (some l)) => validateMutList r.defs canUseOld d l.1
    | some (.list none) => failIf (!undefiable)
    | some (.param _) => .err

/-- validate_root.rs:28-75 `validate_root` -/
def validateRoot (r : RootObj) (canUseOld : Bool) : Res Unit :=
  (forEach r.old fun n => failIf (r.defs.get n).isNone).bind fun _ => forEach r.defs (validateMember r canUseOld)

end Verif.Core
