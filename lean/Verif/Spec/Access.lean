import Verif.Spec.Accessor
/-!
# What the functions of an accessor have to do
-/
namespace Verif.Intf
open Core Diff

/-- the reference fits its nullability -/
def FitsRef (vt : VType) (q : Qv String) : Prop :=
  (q = .null → vt = .nullable ∨ vt = .undefNullable) ∧ (q = .undef → vt = .undefiable ∨ vt = .undefNullable)

/-- `q` is the present value of the member `k` of the root: what is stored, or else the default. -/
inductive RootHas (r : RootObj) (k : String) : Param → Prop
  | stored {q} : r.sabun.get k = some (.param q) → RootHas r k q
  | default {p vt} : (∀ q, r.sabun.get k ≠ some (.param q)) → r.defs.get k = some (.param p vt) → RootHas r k p

/-- `q` is the present value of the member `k` of an item. -/
inductive ItemHas (d : ListDef) (it : Item) (k : String) : Param → Prop
  | stored {q} : it.values.get k = some (.param q) → ItemHas d it k q
  | default {p vt} : (∀ q, it.values.get k ≠ some (.param q)) → d.members.get k = some (.param p vt) → ItemHas d it k p

/-- `q` is the present reference of an item to the table `t`. -/
inductive RefHas (d : ListDef) (it : Item) (t : String) : Qv String → Prop
  | stored {q} : it.refs.get t = some q → RefHas d it t q
  | default {q vt} : it.refs.get t = none → d.refs.refs.get t = some (q, vt) → RefHas d it t q

/-- the table `t` has the entry `id` -/
def HasEntry (defs : AMap RootVal) (t id : String) : Prop :=
  ∃ td list old i, defs.get t = some (.table td list old) ∧ list.get id = some i

/-- the maps have no name twice (they are hash maps) -/
structure Maps (r : RootObj) : Prop where
  defs : r.defs.Wf
  members : ∀ d, HasDef r d → d.members.Wf
  refs : ∀ d, HasDef r d → d.refs.refs.Wf
  tables : ∀ k d list old, (k, RootVal.table d list old) ∈ r.defs → list.Wf

/-- Every parameter of the root, stored or not, fits its declaration, and so do the defaults; every mutable list is stored. -/
structure RootOk (r : RootObj) : Prop where
  defaults : ∀ k p vt, r.defs.get k = some (.param p vt) → Fits p vt p
  stored : ∀ k p vt q, r.defs.get k = some (.param p vt) → r.sabun.get k = some (.param q) → Fits p vt q
  lists : ∀ k d u, r.defs.get k = some (.mlist d u) → ∃ l, r.sabun.get k = some (.list l) ∧ (l = none → u = true)

/-- the defaults of the members of an item fit their declarations -/
def DefaultsOk (d : ListDef) : Prop := ∀ k p vt, d.members.get k = some (.param p vt) → Fits p vt p

/-- What is stored in an item fits its definition; its references name entries. -/
structure ItemOk (defs : AMap RootVal) (d : ListDef) (it : Item) : Prop where
  params : it.ParamsOk d
  values : ∀ k p vt q, d.members.get k = some (.param p vt) → it.values.get k = some (.param q) → Fits p vt q
  lists : ∀ k d' u, d.members.get k = some (.milDef d' u) → it.values.get k = some .milNone → u = true
  refs : d.refs.isEnum = false → ∀ t q0 vt, d.refs.refs.get t = some (q0, vt) → ∀ q, RefHas d it t q →
    FitsRef vt q ∧ ∀ id, q = .val id → HasEntry defs t id
  enum : d.refs.isEnum = true → ∃ t id, it.refs = [(t, .val id)] ∧ t ∈ d.refs.refs.map (·.1) ∧ HasEntry defs t id

/-! ## Which functions there are -/

/-- the type and the definition of a list of constant items of an object, at any depth -/
inductive ConstDef (r : RootObj) : String → ListDef → Prop
  | table {k d list old} : (k, RootVal.table d list old) ∈ r.defs → ConstDef r k d
  | clist {k d list} : (k, RootVal.clist d list) ∈ r.defs → ConstDef r k d
  | cil {s d k d'} : ConstDef r s d → (k, DefVal.cilDef d') ∈ d.members → ConstDef r k d'

/-- the type and the definition of a list of mutable items of an object, at any depth -/
inductive MutDef (r : RootObj) : String → ListDef → Prop
  | mlist {k d u} : (k, RootVal.mlist d u) ∈ r.defs → MutDef r k d
  | mil {s d k d' u} : MutDef r s d → (k, DefVal.milDef d' u) ∈ d.members → MutDef r k d'

/-- the names and the bodies of the functions of a parameter -/
inductive ParamFn (isMut : Bool) (n : String) (old : List String) (p : Param) (vt : VType) : List Char → Body → Prop
  | get : ParamFn isMut n old p vt (snakeName n.toList ++ (if n ∈ old then "_old".toList else [])) (.get n (ptype p) vt)
  | default : ParamFn isMut n old p vt (snakeName n.toList ++ (if n ∈ old then "_old".toList else []) ++ "_def_val".toList)
      (.getDef n (ptype p) vt)
  | getMut : isMut = true → ptype p ∈ [PType.string, .intArray, .floatArray, .binary] →
      ParamFn isMut n old p vt (snakeName n.toList ++ (if n ∈ old then "_old".toList else []) ++ "_mut".toList) (.getMut n (ptype p) vt)
  | set : isMut = true → ParamFn isMut n old p vt ("set_".toList ++ (snakeName n.toList ++ (if n ∈ old then "_old".toList else [])))
      (.set n (ptype p) vt)

/-- the names and the bodies of the functions of the references of an item -/
inductive RefFn (isMut : Bool) (d : RefDef) : List Char → Body → Prop
  | ref {t q vt} : d.isEnum = false → (t, q, vt) ∈ d.refs →
      RefFn isMut d ("ref_".toList ++ (snakeName t.toList ++ (if t ∈ d.old then "_old".toList else []))) (.ref t vt)
  | refId {t q vt} : d.isEnum = false → (t, q, vt) ∈ d.refs →
      RefFn isMut d ("ref_id_".toList ++ (snakeName t.toList ++ (if t ∈ d.old then "_old".toList else []))) (.refId t vt)
  | set {t q vt} : isMut = true → d.isEnum = false → (t, q, vt) ∈ d.refs →
      RefFn isMut d ("set_ref_".toList ++ (snakeName t.toList ++ (if t ∈ d.old then "_old".toList else []))) (.setRef t vt)
  | enum : d.isEnum = true → RefFn isMut d "get_enum".toList (.getEnum (d.refs.map (·.1)))
  | enumIds : d.isEnum = true → RefFn isMut d "get_enum_ids".toList .getEnumIds
  | setEnum : isMut = true → d.isEnum = true → RefFn isMut d "set_enum".toList .setEnum

/-- the names and the bodies of the functions of the members of the root -/
inductive RootFn (r : RootObj) : List Char → Body → Prop
  | param {k p vt n b} : (k, RootVal.param p vt) ∈ r.defs → ParamFn true k r.old p vt n b → RootFn r n b
  | table {k d list old} : (k, RootVal.table d list old) ∈ r.defs →
      RootFn r (snakeName k.toList ++ (if k ∈ r.old then "_old".toList else [])) (.table k)
  | clist {k d list} : (k, RootVal.clist d list) ∈ r.defs →
      RootFn r (snakeName k.toList ++ (if k ∈ r.old then "_old".toList else [])) (.clist k)
  | mlist {k d u} : (k, RootVal.mlist d u) ∈ r.defs →
      RootFn r (snakeName k.toList ++ (if k ∈ r.old then "_old".toList else [])) (.mlist k u)
  | mlistMut {k d u} : (k, RootVal.mlist d u) ∈ r.defs →
      RootFn r (snakeName k.toList ++ (if k ∈ r.old then "_old".toList else []) ++ "_mut".toList) (.mlistMut k)

/-- the names and the bodies of the functions of the members of an item -/
inductive ItemFn (isMut : Bool) (d : ListDef) : List Char → Body → Prop
  | param {k p vt n b} : (k, DefVal.param p vt) ∈ d.members → ParamFn isMut k d.old p vt n b → ItemFn isMut d n b
  | cil {k d'} : isMut = false → (k, DefVal.cilDef d') ∈ d.members →
      ItemFn isMut d (snakeName k.toList ++ (if k ∈ d.old then "_old".toList else [])) (.cil k)
  | mil {k d' u} : isMut = true → (k, DefVal.milDef d' u) ∈ d.members →
      ItemFn isMut d (snakeName k.toList ++ (if k ∈ d.old then "_old".toList else [])) (.mil k u)
  | milMut {k d' u} : isMut = true → (k, DefVal.milDef d' u) ∈ d.members →
      ItemFn isMut d (snakeName k.toList ++ (if k ∈ d.old then "_old".toList else []) ++ "_mut".toList) (.milMut k)
  | ref {n b} : RefFn isMut d.refs n b → ItemFn isMut d n b

/-- the names and the bodies of the functions of a table -/
inductive TableFn (list : AMap Item) (old : List String) : List Char → Body → Prop
  | entry {id i} : (id, i) ∈ list → TableFn list old (snakeName id.toList ++ (if id ∈ old then "_old".toList else [])) (.entry id)
  | entryUs {id i} : (id, i) ∈ list →
      TableFn list old (snakeName id.toList ++ (if id ∈ old then "_old".toList else []) ++ "_us".toList) (.entry id)

end Verif.Intf
