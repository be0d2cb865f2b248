import Verif.Model.Accessor
import Verif.Spec.Names
import Verif.Spec.SetGet
import Verif.Spec.Validate
/-!
# What generated source has to satisfy
-/
namespace Verif.Intf
open Core Diff

/-! ## Declarations that can be compiled -/

/-- the keywords of Rust (strict and reserved) -/
def keywords : List (List Char) :=
  ["as", "break", "const", "continue", "crate", "else", "enum", "extern", "false", "fn", "for", "if", "impl", "in", "let", "loop",
   "match", "mod", "move", "mut", "pub", "ref", "return", "self", "Self", "static", "struct", "super", "trait", "true", "type", "unsafe",
   "use", "where", "while", "async", "await", "dyn", "abstract", "become", "box", "do", "final", "macro", "override", "priv", "typeof",
   "unsized", "virtual", "yield", "try"].map String.toList

/-- letters, digits and `_`, not starting with a digit -/
def Word (s : List Char) : Prop :=
  ∃ c r, s = c :: r ∧ (Names.Lower c ∨ Names.Upper c ∨ c = '_') ∧ ∀ x ∈ r, Names.Lower x ∨ Names.Upper x ∨ Names.Digit x ∨ x = '_'

/-- an identifier of Rust (without letters other than ASCII) -/
def RustIdent (s : List Char) : Prop := Word s ∧ s ≠ ['_'] ∧ s ∉ keywords

/-- Every name is declared once where it is declared, and is an identifier; an enum with a representation has a variant (E0084). Every
type that is used is declared. -/
structure Declarable (ds : List Decl) : Prop where
  types : (ds.map (·.name)).Nodup
  fns : ∀ d ∈ ds, (d.fns.map (·.name)).Nodup
  variants : ∀ d ∈ ds, ∀ vs, d.variants = some vs → vs.Nodup
  inhabited : ∀ d ∈ ds, d.repr = true → d.variants ≠ some []
  typeIdents : ∀ d ∈ ds, RustIdent d.name
  fnIdents : ∀ d ∈ ds, ∀ f ∈ d.fns, RustIdent f.name
  variantIdents : ∀ d ∈ ds, ∀ vs, d.variants = some vs → ∀ v ∈ vs, RustIdent v
  used : ∀ d ∈ ds, ∀ u ∈ d.uses, u ∈ ds.map (·.name)

/-! ## The names of the lists -/

mutual
/-- the names of the constant lists in the definition of a list, with its own -/
def constStems (stem : String) : ListDef → List String
  | .mk members _ _ => stem :: constStemsIn members
def constStemsIn : List (String × DefVal) → List String
  | [] => []
  | (n, v) :: r => constStemsVal n v ++ constStemsIn r
def constStemsVal (n : String) : DefVal → List String
  | .cilDef d => constStems n d
  | .milDef _ _ => []
  | .param _ _ => []
end

mutual
/-- the names of the mutable lists in the definition of a list, with its own -/
def mutStems (stem : String) : ListDef → List String
  | .mk members _ _ => stem :: mutStemsIn members
def mutStemsIn : List (String × DefVal) → List String
  | [] => []
  | (n, v) :: r => mutStemsVal n v ++ mutStemsIn r
def mutStemsVal (n : String) : DefVal → List String
  | .milDef d _ => mutStems n d
  | .cilDef _ => []
  | .param _ _ => []
end

mutual
/-- the names of the constant lists whose items have an `Enum` -/
def constEnums (stem : String) : ListDef → List String
  | .mk members refs _ => constEnumsIn members ++ (if refs.isEnum then [stem] else [])
def constEnumsIn : List (String × DefVal) → List String
  | [] => []
  | (n, v) :: r => constEnumsVal n v ++ constEnumsIn r
def constEnumsVal (n : String) : DefVal → List String
  | .cilDef d => constEnums n d
  | .milDef _ _ => []
  | .param _ _ => []
end

mutual
/-- the names of the mutable lists whose items have an `Enum` -/
def mutEnums (stem : String) : ListDef → List String
  | .mk members refs _ => mutEnumsIn members ++ (if refs.isEnum then [stem] else [])
def mutEnumsIn : List (String × DefVal) → List String
  | [] => []
  | (n, v) :: r => mutEnumsVal n v ++ mutEnumsIn r
def mutEnumsVal (n : String) : DefVal → List String
  | .milDef d _ => mutEnums n d
  | .cilDef _ => []
  | .param _ _ => []
end

/-- the names of all lists of an object with constant items, at every depth -/
def rootConst (r : RootObj) : List String := r.defs.flatMap fun e =>
  match e.2 with
  | .table d _ _ => constStems e.1 d
  | .clist d _ => constStems e.1 d
  | _ => []

/-- the names of all lists of an object with mutable items, at every depth -/
def rootMut (r : RootObj) : List String := r.defs.flatMap fun e =>
  match e.2 with
  | .mlist d _ => mutStems e.1 d
  | _ => []

/-- the names of all lists of an object whose items have an `Enum` -/
def rootEnums (r : RootObj) : List String := r.defs.flatMap fun e =>
  match e.2 with
  | .table d _ _ => constEnums e.1 d
  | .clist d _ => constEnums e.1 d
  | .mlist d _ => mutEnums e.1 d
  | _ => []

/-! ## Names without clashes -/

/-- The name of a member gives functions with names of their own: `set` and `ref` are not its first word, it does not end in `_old`,
`_def_val` or `_mut`, and it is not the name of something else. -/
structure GoodName (n : String) : Prop where
  ident : Names.Ident n.toList
  first : ∀ w ∈ ["set_", "ref_"], ¬ w.toList <+: snakeName n.toList ++ ['_']
  last : ∀ w ∈ ["_old", "_def_val", "_mut"], ¬ w.toList <:+ snakeName n.toList
  fixed : snakeName n.toList ∉ ["new", "root_obj_ref", "deconstruct", "from", "get_enum", "get_enum_ids"].map String.toList
  keyword : snakeName n.toList ∉ keywords
  underscore : snakeName n.toList ≠ ['_']

/-- The name of a reference gives functions and a variant with names of their own. -/
structure GoodRef (n : String) : Prop where
  ident : Names.Ident n.toList
  first : ¬ "id_".toList <+: snakeName n.toList ++ ['_']
  last : ¬ "_old".toList <:+ snakeName n.toList
  variant : typeName n.toList ∉ keywords ∧ typeName n.toList ≠ ['_']

/-- The id of an entry of a table gives functions and a variant with names of their own. -/
structure GoodKey (n : String) : Prop where
  ident : Names.Ident n.toList
  last : ∀ w ∈ ["_old", "_us"], ¬ w.toList <:+ snakeName n.toList
  fixed : snakeName n.toList ∉ ["new", "get_by_id"].map String.toList
  keyword : snakeName n.toList ∉ keywords
  underscore : snakeName n.toList ≠ ['_']
  variantLast : ¬ "Old".toList <:+ typeName n.toList
  variant : typeName n.toList ∉ keywords ∧ typeName n.toList ≠ ['_']

/-- the definition of a list -/
structure GoodDef (d : ListDef) : Prop where
  members : ∀ e ∈ d.members, GoodName e.1
  membersDistinct : (d.members.map fun e => snakeName e.1.toList).Nodup
  refs : ∀ e ∈ d.refs.refs, GoodRef e.1
  refsDistinct : (d.refs.refs.map fun e => snakeName e.1.toList).Nodup
  variantsDistinct : d.refs.isEnum = true → (d.refs.refs.map fun e => typeName e.1.toList).Nodup

/-- the entries of a table -/
structure GoodTable (list : AMap Item) : Prop where
  keys : ∀ e ∈ list, GoodKey e.1
  distinct : (list.map fun e => snakeName e.1.toList).Nodup
  variantsDistinct : (list.map fun e => typeName e.1.toList).Nodup
  inhabited : list ≠ []

/-- the definitions of lists in an object, at every depth -/
inductive HasDef (r : RootObj) : ListDef → Prop
  | table {k d list old} : (k, RootVal.table d list old) ∈ r.defs → HasDef r d
  | clist {k d list} : (k, RootVal.clist d list) ∈ r.defs → HasDef r d
  | mlist {k d u} : (k, RootVal.mlist d u) ∈ r.defs → HasDef r d
  | cil {d k d'} : HasDef r d → (k, DefVal.cilDef d') ∈ d.members → HasDef r d'
  | mil {d k d' u} : HasDef r d → (k, DefVal.milDef d' u) ∈ d.members → HasDef r d'

/-- an object whose names do not clash, and whose references are references to tables -/
structure Good (r : RootObj) : Prop where
  members : ∀ e ∈ r.defs, GoodName e.1
  membersDistinct : (r.defs.map fun e => snakeName e.1.toList).Nodup
  defs : ∀ d, HasDef r d → GoodDef d
  tables : ∀ k d list old, (k, RootVal.table d list old) ∈ r.defs → GoodTable list
  const : ((rootConst r).map fun n => typeName n.toList).Nodup
  mutable : ((rootMut r).map fun n => typeName n.toList).Nodup
  enums : ((rootEnums r).map fun n => typeName n.toList).Nodup
  refs : ∀ d, HasDef r d → ∀ e ∈ d.refs.refs, ∃ td list old, (e.1, RootVal.table td list old) ∈ r.defs

end Verif.Intf
