import Mathlib.Data.List.Forall2
import Verif.Model.Source
import Verif.Spec.Names
/-! # What a source declares -/
namespace Verif.Source
open Diff Core

/-- Iterating a map visits each of its entries once, in any order. -/
def Env.Sound (env : Env) : Prop := ∀ {α : Type} (m : AMap α), (env.order m).Perm m

/-- `key` is the member name `name` with the suffix of the nullability `vt` -/
def Written (key name : String) (vt : VType) : Prop :=
  ∃ suf, key.toList = name.toList ++ suf ∧ Names.Ident name.toList ∧ Names.Suffix suf vt

/-- the declaration of a member -/
structure Decl where
  name : String
  vt : VType
  val : JVal

/-- the declarations of an object, in order -/
inductive MapDecls : List (String × JVal) → List Decl → Prop
  | nil : MapDecls [] []
  | member {k n : String} {vt : VType} {v : JVal} {r : List (String × JVal)} {l : List Decl} :
      Written k n vt → MapDecls r l → MapDecls ((k, v) :: r) (⟨n, vt, v⟩ :: l)
  | special {k : String} {v : JVal} {r : List (String × JVal)} {l : List Decl} :
      Names.Special k.toList → MapDecls r l → MapDecls ((k, v) :: r) l

/-- the declarations by files of their own, in the order of the paths -/
inductive FileDecls : List (String × JVal) → List Decl → Prop
  | nil : FileDecls [] []
  | root {v : JVal} {r : List (String × JVal)} {l : List Decl} : FileDecls r l → FileDecls (("root", v) :: r) l
  | member {s n : String} {vt : VType} {v : JVal} {r : List (String × JVal)} {l : List Decl} :
      s ≠ "root" → Written s n vt → FileDecls r l → FileDecls ((s, v) :: r) (⟨n, vt, v⟩ :: l)

/-- `l'` is `l` sorted by name; declarations of the same name keep their order -/
def SortedFrom (l l' : List Decl) : Prop :=
  l'.Pairwise (fun a b => ¬ b.name < a.name) ∧ ∀ n, l'.filter (fun d => d.name = n) = l.filter (fun d => d.name = n)

/-- the declarations of a source: those of the root object, and those of the files by name -/
def DeclsOf (files : List (String × JVal)) (lr lf : List Decl) : Prop :=
  ∃ m l, ("root", .map m) ∈ files ∧ MapDecls m lr ∧ FileDecls files l ∧ SortedFrom l lf

/-- the declarations of a source in the order of the ids -/
def SourceDecls (files : List (String × JVal)) (l : List Decl) : Prop := ∃ lr lf, DeclsOf files lr lf ∧ l = lr ++ lf

/-- the names of declarations -/
def names (l : List Decl) : List String := l.map (·.name)

/-- The names are declared once. -/
def Distinct (l : List Decl) : Prop := (l.map (·.name)).Nodup

/-- The ids of `n` members are 0 to `n - 1`, each once. -/
def IdsFill (ids : List Nat) : Prop := ids.Perm (List.range ids.length)

/-- The members and the references of a list definition have distinct names and ids without gaps, at every depth. -/
inductive Numbered : LDef → Prop
  | mk {members : List (String × Nat × LDefVal)} {refs : RefDefI} {old : List String} :
      (members.map (·.1)).Nodup → IdsFill (members.map (·.2.1)) →
      (refs.refs.map (·.1)).Nodup → IdsFill (refs.refs.map (·.2.1)) →
      (∀ k id d, (k, id, LDefVal.cilDef d) ∈ members → Numbered d) →
      (∀ k id d u, (k, id, LDefVal.milDef d u) ∈ members → Numbered d) → Numbered (.mk members refs old)

/-- a table has the references, each at its id -/
def RefsIn (refs : AMap (Nat × Qv String × VType)) (t : MetaTable) : Prop :=
  t.length = refs.length ∧ ∀ k id q vt, (k, id, q, vt) ∈ refs → t[id]? = some (some (k, .param .string vt))

mutual
/-- a table has the members of a list that can change, each at its id, with what is known about it -/
def TableOf : LDef → MetaTable → Prop
  | .mk members _ _, t => t.length = members.length ∧ MembersIn members t
def MembersIn : List (String × Nat × LDefVal) → MetaTable → Prop
  | [], _ => True
  | (k, id, v) :: r, t => PlaceOf k v (t[id]?) ∧ MembersIn r t
def PlaceOf : String → LDefVal → Option (Option (String × Meta)) → Prop
  | k, .param p vt, x => x = some (some (k, .param (ptype p) vt))
  | _, .cilDef _, x => x = some none
  | k, .milDef (.mk m rs o) u, x =>
    ∃ i r, TableOf (.mk m rs o) i ∧ RefsIn rs.refs r ∧ x = some (some (k, if u then .optMil i r else .mlist i r))
end

/-- the place of a member of the root in its table -/
def RootPlace (k : String) : RootValI → Option (Option (String × Meta)) → Prop
  | .param p vt, x => x = some (some (k, .param (ptype p) vt))
  | .table _ _ _, x => x = some none
  | .clist _ _, x => x = some none
  | .mlist d u, x => ∃ i r, TableOf d i ∧ RefsIn d.refs.refs r ∧ x = some (some (k, if u then .optMil i r else .mlist i r))

/-- the definition of a list that is a member of the root -/
def RootValI.ldef : RootValI → Option LDef
  | .param _ _ => none
  | .table d _ _ => some d
  | .clist d _ => some d
  | .mlist d _ => some d

/-- Ids are counted from 0 and the next id is the number of items. -/
def SeqIds (l : MutList) : Prop := l.1.map (·.1) = List.range l.1.length ∧ l.2 = l.1.length

/-- All mutable lists inside an item are numbered like that. -/
inductive SeqItem : Item → Prop
  | mk {values : List (String × SabVal)} {refs : List (String × Qv String)} :
      (∀ k items, (k, SabVal.cil items) ∈ values → ∀ i ∈ items, SeqItem i) →
      (∀ k items n, (k, SabVal.mil items n) ∈ values → SeqIds (items, n)) →
      (∀ k items n, (k, SabVal.mil items n) ∈ values → ∀ e ∈ items, SeqItem e.2) → SeqItem (.mk values refs)

/-- a number is given as `ID` -/
def IsNumId (e : String × JVal) : Prop := e.1 = "ID" ∧ ∃ f, e.2 = .double f

/-- No numeric `ID` and no `NextID` is given. -/
inductive Plain : JVal → Prop
  | null : Plain .null
  | undef : Plain .undef
  | bool (b) : Plain (.bool b)
  | string (s) : Plain (.string s)
  | int (i) : Plain (.int i)
  | double (f) : Plain (.double f)
  | array {a : List JVal} : a.head? ≠ some (.string "NextID") → (∀ v ∈ a, Plain v) → Plain (.array a)
  | map {m : List (String × JVal)} : (∀ e ∈ m, ¬ IsNumId e) → (∀ e ∈ m, Plain e.2) → Plain (.map m)

/-! ## Items -/

/-- what is written in a list after its kind: attributes, then items -/
def ListSyntax (r : List JVal) (attrs : List (List JVal)) (items : List (List (String × JVal))) : Prop :=
  r = attrs.map .array ++ items.map .map

/-- the id of the `i`-th item of a mutable list: the number given as `ID`, or `i` if there is none -/
def IdIs (m : List (String × JVal)) (i id : Nat) : Prop :=
  (∃ f, ("ID", .double f) ∈ m ∧ id = f64ToU64 f) ∨ ((∀ v, ("ID", v) ∉ m) ∧ id = i)

/-- the next id of a list of `len` items: the number given as `NextID`, or `len` if there is none; always 0 for an empty list -/
def NextIs (attrs : List (List JVal)) (len next : Nat) : Prop :=
  (len = 0 ∧ next = 0) ∨
  (len ≠ 0 ∧ ((∃ n, [.string "NextID", .int n] ∈ attrs ∧ next = i64ToU64 n) ∨
    ((∀ a ∈ attrs, a.head? ≠ some (.string "NextID")) ∧ next = len)))

/-- The ids are distinct and below the next id. -/
def FreshIds (l : MutList) : Prop := (l.1.map (·.1)).Nodup ∧ ∀ id ∈ l.1.map (·.1), id < l.2

/-! ## Values -/

/-- an element of an array of floats -/
inductive FloatElem : JVal → BitVec 64 → Prop
  | double (f) : FloatElem (.double f) f
  | int (i) : FloatElem (.int i) (i64ToF64 i)
  | taggedDouble (f) : FloatElem (.array [.string "Float", .double f]) f
  | taggedInt (i) : FloatElem (.array [.string "Float", .int i]) (i64ToF64 i)

/-- the value that is written -/
inductive Means : JVal → Param → Prop
  | bool (b) : Means (.bool b) (.bool (.val b))
  | int (i) : Means (.int i) (.int (.val i))
  | double (f) : Means (.double f) (.float (.val f))
  | string (s) : Means (.string s) (.string (.val s))
  | floatDouble (f) : Means (.array [.string "Float", .double f]) (.float (.val f))
  | floatInt (i) : Means (.array [.string "Float", .int i]) (.float (.val (i64ToF64 i)))
  | intNull : Means (.array [.string "Int", .null]) (.int .null)
  | intUndef : Means (.array [.string "Int", .undef]) (.int .undef)
  | floatNull : Means (.array [.string "Float", .null]) (.float .null)
  | floatUndef : Means (.array [.string "Float", .undef]) (.float .undef)
  | strNull : Means (.array [.string "Str", .null]) (.string .null)
  | strUndef : Means (.array [.string "Str", .undef]) (.string .undef)
  | boolNull : Means (.array [.string "Bool", .null]) (.bool .null)
  | boolUndef : Means (.array [.string "Bool", .undef]) (.bool .undef)
  | ints {a : List Int} : a ≠ [] → Means (.array (a.map .int)) (.intArray (.val (a.map (BitVec.ofInt 64))))
  | intArray (a : List Int) : Means (.array (.string "IntArray" :: a.map .int)) (.intArray (.val (a.map (BitVec.ofInt 64))))
  | intArrayNull : Means (.array [.string "IntArray", .null]) (.intArray .null)
  | intArrayUndef : Means (.array [.string "IntArray", .undef]) (.intArray .undef)
  | floatArray {a : List JVal} {l : List (BitVec 64)} : List.Forall₂ FloatElem a l →
      Means (.array (.string "FloatArray" :: a)) (.floatArray (.val l))
  | floatArrayNull : Means (.array [.string "FloatArray", .null]) (.floatArray .null)
  | floatArrayUndef : Means (.array [.string "FloatArray", .undef]) (.floatArray .undef)
  | binary (l : List UInt8) : Means (.array (.string "Binary" :: l.map fun b => .int b.toNat)) (.binary (.val l))
  | binaryNull : Means (.array [.string "Binary", .null]) (.binary .null)
  | binaryUndef : Means (.array [.string "Binary", .undef]) (.binary .undef)

end Verif.Source
