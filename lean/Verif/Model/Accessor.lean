import Verif.Model.SetGet
/-!
# The generated accessor

Model of `dochy_intf/src/imp/**` (the generator), of `dochy_core/src/imp/intf/{member_desc,ref_desc}.rs` and of the functions of
`dochy_core/src/imp/intf/{root,citem,mitem,table}.rs` that the generated functions call.

The generator writes Rust source text. Here its output is a list of type declarations with the functions of their `impl` blocks: a
function has its name and what its body calls. Layout, attributes and the text of the types are left out; the functions whose bodies do
not look at the object (`new`, `to_num`, …) have the body `fixed`. The descriptions (`MemberDesc`, `MemberSource`) hold what the
definitions hold; the functions here read the definitions. Members come in the order of the maps.
-/
namespace Verif.Intf
open Core Diff

/-! ## Names -/

/-- to_type_name.rs:14-25: the characters after the first one; `up` is `to_upper_case` -/
def typeTail : Bool → List Char → List Char
  | _, [] => []
  | up, c :: r =>
    if c = '_' then typeTail true r
    else if up then c.toUpper :: typeTail false r
    else c :: typeTail false r

/-- to_type_name.rs:3-28 `to_type_name` -/
def typeName : List Char → List Char
  | [] => []
  | c :: r => (if c = '@' then ['A', 't'] else [c.toUpper]) ++ typeTail false r

/-- to_type_name.rs:41-46: a character after the first one -/
def snakeChar (c : Char) : List Char := if c.isUpper then ['_', c.toLower] else [c]

/-- to_type_name.rs:31-50 `to_snake_name` -/
def snakeName : List Char → List Char
  | [] => []
  | c :: r => (if c = '@' then ['a', 't'] else [c.toLower]) ++ r.flatMap snakeChar

/-- with_old.rs:1-7 `with_old` -/
def withOld (name : List Char) (isOld : Bool) : List Char := if isOld then name ++ "_old".toList else name

/-- the name of the getter of a member -/
def fnName (n : String) (isOld : Bool) : List Char := withOld (snakeName n.toList) isOld

/-- to_type_name.rs:52-54 -/
def citemName (stem : String) : List Char := typeName stem.toList ++ "CItem".toList
/-- to_type_name.rs:55-57 -/
def mitemName (stem : String) : List Char := typeName stem.toList ++ "MItem".toList
/-- to_type_name.rs:59-61 -/
def tableName (stem : String) : List Char := typeName stem.toList ++ "Table".toList
/-- to_type_name.rs:63-65 -/
def idsName (stem : String) : List Char := typeName stem.toList ++ "TableID".toList
/-- to_type_name.rs:67 -/
def enumName (stem : String) : List Char := typeName stem.toList ++ "Enum".toList
/-- to_type_name.rs:69 -/
def kindName (stem : String) : List Char := typeName stem.toList ++ "Kind".toList

/-! ## Declarations -/

/-- what a generated function does -/
inductive Body where
  /-- param_source.rs:33-92: `get_*`, `get_immutable_*` -/
  | get (n : String) (t : PType) (vt : VType)
  /-- param_source.rs:93-122 `get_mutable_*` -/
  | getMut (n : String) (t : PType) (vt : VType)
  /-- param_source.rs:123-181 `get_*_def` -/
  | getDef (n : String) (t : PType) (vt : VType)
  /-- param_source.rs:183-196 `set_*` -/
  | set (n : String) (t : PType) (vt : VType)
  | table (n : String)
  | clist (n : String)
  | mlist (n : String) (undefiable : Bool)
  | mlistMut (n : String)
  | cil (n : String)
  | mil (n : String) (undefiable : Bool)
  | milMut (n : String)
  /-- ref_source.rs:44-53 -/
  | ref (t : String) (vt : VType)
  /-- ref_source.rs:54-63 -/
  | refId (t : String) (vt : VType)
  /-- ref_source.rs:66-83 -/
  | setRef (t : String) (vt : VType)
  /-- refs_source.rs:23-27; the variants of the enum are the tables in `ts` -/
  | getEnum (ts : List String)
  /-- refs_source.rs:28-30 -/
  | getEnumIds
  /-- refs_source.rs:43-46 -/
  | setEnum
  /-- table_source.rs:89-97 `table::get_value(..).unwrap()` -/
  | entry (id : String)
  /-- a function that does not look at the object -/
  | fixed

structure Fn where
  name : List Char
  body : Body

structure Decl where
  name : List Char
  /-- the variants, if it is an `enum` -/
  variants : Option (List (List Char))
  /-- whether the enum has the attribute `#[repr(u64)]` -/
  repr : Bool
  fns : List Fn
  /-- the generated types that are used -/
  uses : List (List Char)

/-- the generated types in the signature and the body of a function, in the declaration of the list `stem` -/
def fnUses (stem : String) : Body → List (List Char)
  | .table n => [tableName n]
  | .clist n => [citemName n]
  | .mlist n _ => [mitemName n]
  | .mlistMut n => [mitemName n]
  | .cil n => [citemName n]
  | .mil n _ => [mitemName n]
  | .milMut n => [mitemName n]
  | .ref t _ => [citemName t]
  | .setRef t _ => [idsName t]
  | .getEnum _ => [enumName stem]
  | .setEnum => [kindName stem]
  | .entry _ => [citemName stem, idsName stem]
  | _ => []

/-- the generated types in functions -/
def usesOf (stem : String) (fns : List Fn) : List (List Char) := fns.flatMap fun f => fnUses stem f.body

/-- param_type.rs: strings, arrays and binaries are handed out by reference -/
def byRef : PType → Bool
  | .string => true
  | .intArray => true
  | .floatArray => true
  | .binary => true
  | _ => false

/-- root_source.rs:43-59, mitem_source.rs:49-65, citem_source.rs:47-59: the functions of a parameter; `isMut` is `false` for constant items -/
def paramFns (isMut : Bool) (n : String) (isOld : Bool) (p : Param) (vt : VType) : List Fn :=
  let f := fnName n isOld
  let t := ptype p
  let def_ : Fn := ⟨f ++ "_def_val".toList, .getDef n t vt⟩
  let get : Fn := ⟨f, .get n t vt⟩
  let mut_ : Fn := ⟨f ++ "_mut".toList, .getMut n t vt⟩
  let set : Fn := ⟨"set_".toList ++ f, .set n t vt⟩
  if byRef t then [def_, get] ++ (if isMut then [mut_, set] else [])
  else [get, def_] ++ (if isMut then [set] else [])

/-- refs_source.rs:18-37 `get` with ref_source.rs:35-65 -/
def refGetFns (d : RefDef) : List Fn :=
  if d.isEnum then
    [⟨"get_enum".toList, .getEnum (d.refs.map (·.1))⟩, ⟨"get_enum_ids".toList, .getEnumIds⟩]
  else d.refs.flatMap fun e =>
    let f := fnName e.1 (decide (e.1 ∈ d.old))
    [⟨"ref_".toList ++ f, .ref e.1 e.2.2⟩, ⟨"ref_id_".toList ++ f, .refId e.1 e.2.2⟩]

/-- refs_source.rs:39-53 `set` with ref_source.rs:66-83 -/
def refSetFns (d : RefDef) : List Fn :=
  if d.isEnum then [⟨"set_enum".toList, .setEnum⟩]
  else d.refs.map fun e => ⟨"set_ref_".toList ++ fnName e.1 (decide (e.1 ∈ d.old)), .setRef e.1 e.2.2⟩

/-- citem_source.rs:45-68, cil_source.rs:31-46: the functions of the members of a constant item -/
def citemMemberFns (old : List String) (e : String × DefVal) : List Fn :=
  match e.2 with
  | .param p vt => paramFns false e.1 (decide (e.1 ∈ old)) p vt
  | .cilDef _ => [⟨fnName e.1 (decide (e.1 ∈ old)), .cil e.1⟩]
  | .milDef _ _ => []

/-- citem_source.rs:40-71: the functions of a constant item (`from` is the one of `From<CItemPtr>`, which is called as `X::from`) -/
def citemFns (d : ListDef) : List Fn :=
  ⟨"from".toList, .fixed⟩ :: (d.members.flatMap (citemMemberFns d.old) ++ refGetFns d.refs)

/-- mitem_source.rs:47-76: the functions of the members of a mutable item, with mil_source.rs:36-60 -/
def mitemMemberFns (old : List String) (e : String × DefVal) : List Fn :=
  match e.2 with
  | .param p vt => paramFns true e.1 (decide (e.1 ∈ old)) p vt
  | .cilDef _ => []
  | .milDef _ undefiable =>
    let f := fnName e.1 (decide (e.1 ∈ old))
    [⟨f, .mil e.1 undefiable⟩, ⟨f ++ "_mut".toList, .milMut e.1⟩]

/-- mitem_source.rs:40-80: the functions of a mutable item -/
def mitemFns (d : ListDef) : List Fn :=
  ⟨"from".toList, .fixed⟩ :: (d.members.flatMap (mitemMemberFns d.old) ++ refGetFns d.refs ++ refSetFns d.refs)

/-- refs_source.rs:55-105: the types of the references of an item -/
def enumDecls (stem : String) (d : RefDef) (fromCItem : Bool) : List Decl :=
  if d.isEnum then
    let vs := d.refs.map fun e => typeName e.1.toList
    ⟨enumName stem, some vs, false, [⟨"new".toList, .fixed⟩], d.refs.map fun e => citemName e.1⟩ ::
      (if fromCItem then [] else [⟨kindName stem, some vs, false, [⟨"id".toList, .fixed⟩], d.refs.map fun e => idsName e.1⟩])
  else []

mutual
/-- citem_source.rs:30-90 `to_string` -/
def citemDecls (stem : String) : ListDef → List Decl
  | .mk members refs old =>
    ⟨citemName stem, none, false, citemFns (.mk members refs old), usesOf stem (citemFns (.mk members refs old))⟩ ::
      (cilDecls members ++ enumDecls stem refs true)
/-- citem_source.rs:73-84: the types of the lists in a constant item -/
def cilDecls : List (String × DefVal) → List Decl
  | [] => []
  | (n, v) :: r => cilDeclsVal n v ++ cilDecls r
def cilDeclsVal (n : String) : DefVal → List Decl
  | .cilDef d => citemDecls n d
  | .milDef _ _ => []
  | .param _ _ => []
end

mutual
/-- mitem_source.rs:30-100 `to_string` -/
def mitemDecls (stem : String) : ListDef → List Decl
  | .mk members refs old =>
    ⟨mitemName stem, none, false, mitemFns (.mk members refs old), usesOf stem (mitemFns (.mk members refs old))⟩ ::
      (milDecls members ++ enumDecls stem refs false)
/-- mitem_source.rs:82-95: the types of the lists in a mutable item -/
def milDecls : List (String × DefVal) → List Decl
  | [] => []
  | (n, v) :: r => milDeclsVal n v ++ milDecls r
def milDeclsVal (n : String) : DefVal → List Decl
  | .milDef d _ => mitemDecls n d
  | .cilDef _ => []
  | .param _ _ => []
end

/-- table_source.rs:24-26 `key_name` -/
def keyName (key : String) (isOld : Bool) : List Char := fnName key isOld

/-- table_source.rs:27-29 `enum_name` -/
def keyVariant (key : String) (isOld : Bool) : List Char := if isOld then typeName key.toList ++ "Old".toList else typeName key.toList

/-- table_source.rs:83-115: the functions of a table -/
def tableFns (list : AMap Item) (old : List String) : List Fn :=
  ⟨"new".toList, .fixed⟩ :: (list.flatMap (fun e =>
    let f := keyName e.1 (decide (e.1 ∈ old))
    [⟨f ++ "_us".toList, .entry e.1⟩, ⟨f, .entry e.1⟩]) ++
  (if list.isEmpty then [] else [⟨"get_by_id_us".toList, .fixed⟩, ⟨"get_by_id".toList, .fixed⟩]))

/-- table_source.rs:123-162: the functions of the ids of a table -/
def idsFns : List Fn :=
  ["from_str", "from_num", "len", "to_num", "metadata", "to_str"].map fun s => ⟨s.toList, .fixed⟩

/-- table_source.rs:72-166 `to_string` -/
def tableDecls (stem : String) (d : ListDef) (list : AMap Item) (old : List String) : List Decl :=
  [⟨tableName stem, none, false, tableFns list old, usesOf stem (tableFns list old)⟩,
   ⟨idsName stem, some (list.map fun e => keyVariant e.1 (decide (e.1 ∈ old))), true, idsFns, []⟩] ++ citemDecls stem d

/-- root_source.rs:41-72: the functions of the members of the root, with table_source.rs:54-71, clist_source.rs:31-46, mlist_source.rs:34-58 -/
def rootMemberFns (old : List String) (e : String × RootVal) : List Fn :=
  let f := fnName e.1 (decide (e.1 ∈ old))
  match e.2 with
  | .param p vt => paramFns true e.1 (decide (e.1 ∈ old)) p vt
  | .table _ _ _ => [⟨f, .table e.1⟩]
  | .clist _ _ => [⟨f, .clist e.1⟩]
  | .mlist _ undefiable => [⟨f, .mlist e.1 undefiable⟩, ⟨f ++ "_mut".toList, .mlistMut e.1⟩]

/-- root_source.rs:21-73: the functions of the root -/
def rootFns (r : RootObj) : List Fn :=
  (["new", "root_obj_ref", "root_obj_ref_mut", "deconstruct"].map fun s => ⟨s.toList, .fixed⟩) ++ r.defs.flatMap (rootMemberFns r.old)

/-- root_source.rs:75-90: the types of the lists of the root -/
def rootMemberDecls (e : String × RootVal) : List Decl :=
  match e.2 with
  | .param _ _ => []
  | .table d list old => tableDecls e.1 d list old
  | .clist d _ => citemDecls e.1 d
  | .mlist d _ => mitemDecls e.1 d

/-- generate_interface.rs:12-16 `generate_interface` with root_source.rs:17-93 `to_string` -/
def accessor (r : RootObj) : List Decl :=
  ⟨"RootIntf".toList, none, false, rootFns r, usesOf "" (rootFns r)⟩ :: r.defs.flatMap rootMemberDecls

/-! ## What the functions do -/

/-- null_or.rs:61-67, 116-122 `from_qv`, qv.rs:55-60 `into_value`: whether `unwrap` finds a value -/
def unwraps : VType → QvType → Bool
  | .normal, .val => true
  | .normal, _ => false
  | .undefiable, .null => false
  | .undefiable, _ => true
  | .nullable, .undef => false
  | .nullable, _ => true
  | .undefNullable, _ => true

/-- what a function returns -/
inductive Out where
  | param (p : Param)
  | table (d : ListDef) (list : AMap Item)
  | clist (d : ListDef) (items : List Item)
  | mlist (d : ListDef) (items : Option (List (Nat × Item)))
  | item (i : Qv (ListDef × Item))
  | id (i : Qv String)
  | enum (table : String) (d : ListDef) (i : Item)
  | ids (table id : String)
  | none

/-- `get_*(..).unwrap()` and what follows, when `get_param` has returned `p` (root.rs:26-240, citem.rs:39-188, mitem.rs:89-303) -/
def takeParam (t : PType) (vt : VType) (p : Option Param) : Res Out :=
  match p with
  | .none => .panic
  | some p => if ptype p = t then (if unwraps vt p.qvType then .ok (.param p) else .panic) else .panic

/-- the functions of the root -/
def readRoot (r : RootObj) : Body → Res Out
  | .get n t vt => takeParam t vt (getRootParam r n)
  | .getMut n t vt => takeParam t vt (getRootParam r n)
  | .getDef n t vt => takeParam t vt (getRootParamDef r n)
  -- root.rs:242-247
  | .table n =>
    match r.defs.get n with
    | some (.table d list _) => .ok (.table d list)
    | _ => .panic
  -- root.rs:250-257
  | .clist n =>
    match r.defs.get n with
    | some (.clist d list) => .ok (.clist d list)
    | _ => .panic
  -- root.rs:283-296 `get_mlist_const`, mlist_source.rs:42-52
  | .mlist n undefiable =>
    match r.defs.get n with
    | some (.mlist d _) =>
      match r.sabun.get n with
      | some (.list (some l)) => .ok (.mlist d (some l.1))
      | some (.list .none) => if undefiable then .ok (.mlist d .none) else .panic
      | _ => .panic
    | _ => .panic
  -- root.rs:259-281 `get_mlist_mut`
  | .mlistMut n =>
    match r.defs.get n with
    | some (.mlist d _) =>
      match r.sabun.get n with
      | some (.list (some l)) => .ok (.mlist d (some l.1))
      | _ => .ok (.mlist d (some []))
    | _ => .panic
  | _ => .ok .none

/-- citem.rs:201-208 `get_param_def`, mitem.rs:347-355 -/
def getItemParamDef (d : ListDef) (n : String) : Option Param :=
  match d.members.get n with
  | some (.param p _) => some p
  | _ => .none

/-- citem.rs:210-217 `get_ref`, mitem.rs:381-388; table.rs:59-61 -/
def getRef (defs : AMap RootVal) (d : ListDef) (it : Item) (t : String) : Res (Option (Qv (ListDef × Item))) :=
  match getRefId d it t with
  | .none => .ok .none
  | some (.val id) =>
    match defs.get t with
    | some (.table td list _) => .ok ((list.get id).map fun i => .val (td, i))
    | _ => .panic
  | some .null => .ok (some .null)
  | some .undef => .ok (some .undef)

/-- the functions of an item -/
def readItem (defs : AMap RootVal) (d : ListDef) (it : Item) : Body → Res Out
  | .get n t vt => takeParam t vt (getItemParam d it n)
  | .getMut n t vt => takeParam t vt (getItemParam d it n)
  | .getDef n t vt => takeParam t vt (getItemParamDef d n)
  -- citem.rs:27-37 `get_cil`
  | .cil n =>
    match d.members.get n with
    | some (.cilDef d') =>
      match it.values.get n with
      | some (.cil items) => .ok (.clist d' items)
      | _ => .ok (.clist d' [])
    | _ => .panic
  -- mitem.rs:70-87 `get_mil_const`, mil_source.rs:44-54
  | .mil n undefiable =>
    match d.members.get n with
    | some (.milDef d' _) =>
      match it.values.get n with
      | some (.mil items _) => .ok (.mlist d' (some items))
      | some .milNone => if undefiable then .ok (.mlist d' .none) else .panic
      | _ => .ok (.mlist d' (some []))
    | _ => .panic
  -- mitem.rs:43-67 `get_mil_mut`
  | .milMut n =>
    match d.members.get n with
    | some (.milDef d' _) =>
      match it.values.get n with
      | some (.mil items _) => .ok (.mlist d' (some items))
      | _ => .ok (.mlist d' (some []))
    | _ => .panic
  | .ref t vt => (getRef defs d it t).bind fun o =>
    match o with
    | some q => if unwraps vt q.type then .ok (.item q) else .panic
    | .none => .panic
  | .refId t vt =>
    match getRefId d it t with
    | some q => if unwraps vt q.type then .ok (.id q) else .panic
    | .none => .panic
  -- refs_source.rs:24-26, 72-80
  | .getEnum ts =>
    match Core.getEnum it with
    | some (t, _) => (getRef defs d it t).bind fun o =>
      match o with
      | some (.val i) => if t ∈ ts then .ok (.enum t i.1 i.2) else .panic
      | _ => .panic
    | .none => .panic
  | .getEnumIds =>
    match Core.getEnum it with
    | some (t, id) => .ok (.ids t id)
    | .none => .panic
  | _ => .ok .none

/-- the functions of a table -/
def readTable (list : AMap Item) (d : ListDef) : Body → Res Out
  | .entry id =>
    match list.get id with
    | some i => .ok (.item (.val (d, i)))
    | .none => .panic
  | _ => .ok .none

/-! ## What the setters do

A setter takes a value of the type of the member: `with_var.rs:3-10`, `into_qv.rs:3-9`. -/

/-- param_source.rs:183-196, root.rs:338-366: the object after `root::set_*`, whose result is not looked at -/
def writeRoot (r : RootObj) (b : Body) (q : Param) : RootObj :=
  match b with
  | .set n _ _ => (setRoot r n q).1
  | _ => r

/-- param_source.rs:183-196, mitem.rs:305-333: the item after `mitem::set_*`, whose result is not looked at -/
def writeItem (d : ListDef) (it : Item) (b : Body) (q : Param) : Res Item :=
  match b with
  | .set n _ _ => (setItem d it n q).2.map fun _ => (setItem d it n q).1
  | _ => .ok it

/-- ref_source.rs:66-83 -/
def writeRef (it : Item) (b : Body) (id : Qv String) : Item :=
  match b with
  | .setRef t _ => (Core.setRef it t id).1
  | _ => it

/-- refs_source.rs:43-46 -/
def writeEnum (it : Item) (b : Body) (t id : String) : Item :=
  match b with
  | .setEnum => (Core.setEnum it t id).1
  | _ => it

/-! ## The ids of a table

A variant of the enum is its place among the keys. -/

/-- table_source.rs:123-131 `from_str` -/
def idFromStr : List String → String → Option Nat
  | [], _ => .none
  | k :: r, s => if s = k then some 0 else (idFromStr r s).map (· + 1)

/-- table_source.rs:133-141 `from_num` -/
def idFromNum (keys : List String) (n : Nat) : Res Nat := if n < keys.length then .ok n else .panic

/-- table_source.rs:143-149 `to_num` -/
def idToNum (v : Nat) : Nat := v

/-- table_source.rs:150-162 `metadata`, `to_str` -/
def idToStr (keys : List String) (v : Nat) : Res String :=
  match keys[idToNum v]? with
  | some s => .ok s
  | .none => .panic

end Verif.Intf
