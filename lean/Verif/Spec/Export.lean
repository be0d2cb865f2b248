import Verif.Spec.Json5
import Verif.Spec.Source
import Verif.Model.Export
/-!
# What is written, and what it should mean

What the standard library says about floats and texts is stated here as `Printer`. `f64::to_string` (`disp`) prints the shortest decimal
number that is read as the same float, without exponent and without `.0`; `str::parse::<f64>` (`pf`) rounds to the nearest.
-/
namespace Verif.Export
open Source (JVal i64ToF64)
open Json5 (LineTerm)
open Number (DecInt Lit signed denotes exponent IsDigit)

/-- the bits of -0.0 -/
def negZero : BitVec 64 := 0x8000000000000000#64

/-- a float as the parser has it -/
def toU (f : BitVec 64) : UInt64 := ⟨f⟩

/-- what is assumed of the printer and of the reader of floats -/
structure Printer (disp : BitVec 64 → List Char) (pf : List Char → Option UInt64) : Prop where
  /-- below 2^63 a number is printed as a decimal integer below 2^63 or with a fraction -/
  form : ∀ f, exponent (toU f) < 1086 →
    (∃ s i, disp f = Lit.text ⟨s, .int i⟩ ∧ s ≠ some true ∧ DecInt i ∧ denotes 10 i < 2 ^ 63) ∨
    ∃ s i fr, disp f = Lit.text ⟨s, .frac i fr none⟩ ∧ s ≠ some true ∧ DecInt i ∧ fr ≠ [] ∧ ∀ x ∈ fr, IsDigit x
  /-- what is printed is read as the same number -/
  back : ∀ f, exponent (toU f) ≠ 2047 → pf (disp f) = some (toU f)
  /-- integers are read as the nearest float -/
  near : ∀ s i, DecInt i → denotes 10 i < 2 ^ 63 →
    pf (Lit.text ⟨s, .int i⟩) = some (if s = some false ∧ denotes 10 i = 0 then toU negZero else toU (i64ToF64 (signed s (denotes 10 i))))
  /-- integers up to 2^53 are printed as they are -/
  exact : ∀ n : Int, n.natAbs ≤ 2 ^ 53 →
    ∃ s i, disp (i64ToF64 n) = Lit.text ⟨s, .int i⟩ ∧ s ≠ some true ∧ DecInt i ∧ signed s (denotes 10 i) = n

/-- a string that does not need escapes -/
def CleanStr (s : String) : Prop := ∀ c ∈ s.toList, c ≠ '"' ∧ c ≠ '\\' ∧ ¬ LineTerm c

/-- a number that the format can express -/
def CleanNum (f : BitVec 64) : Prop := exponent (toU f) < 1086 ∧ f ≠ negZero

/-- a value that the format can express -/
inductive Clean : JV → Prop
  | null : Clean .null
  | undef : Clean .undef
  | bool {b} : Clean (.bool b)
  | string {s} : CleanStr s → Clean (.string s)
  | number {f} : CleanNum f → Clean (.number f)
  | array {a} : (∀ v ∈ a, Clean v) → Clean (.array a)
  | map {m} : (m.map Prod.fst).Nodup → (∀ e ∈ m, CleanStr e.1) → (∀ e ∈ m, Clean e.2) → Clean (.map m)

mutual
/-- the same value: a number comes back as the same float, or as an integer that is the same float -/
inductive Same : JV → JVal → Prop
  | null : Same .null .null
  | undef : Same .undef .undef
  | bool {b} : Same (.bool b) (.bool b)
  | string {s} : Same (.string s) (.string s)
  | double {f} : Same (.number f) (.double f)
  | int {f n} : i64ToF64 n = f → Same (.number f) (.int n)
  | array {a l} : SameL a l → Same (.array a) (.array l)
  | map {m l} : SameM m l → Same (.map m) (.map l)
inductive SameL : List JV → List JVal → Prop
  | nil : SameL [] []
  | cons {v j a l} : Same v j → SameL a l → SameL (v :: a) (j :: l)
inductive SameM : List (String × JV) → List (String × JVal) → Prop
  | nil : SameM [] []
  | cons {k v j a l} : Same v j → SameM a l → SameM ((k, v) :: a) ((k, j) :: l)
end

section
variable (disp : BitVec 64 → List Char) (pf : List Char → Option UInt64)

mutual
/-- the value that the written text means -/
inductive Means : JV → JVal → Prop
  | null : Means .null .null
  | undef : Means .undef .undef
  | bool {b} : Means (.bool b) (.bool b)
  | string {s} : CleanStr s → Means (.string s) (.string s)
  | int {f s i} : disp f = Lit.text ⟨s, .int i⟩ → DecInt i → -(2 ^ 63) ≤ signed s (denotes 10 i) → signed s (denotes 10 i) < 2 ^ 63 →
      Means (.number f) (.int (signed s (denotes 10 i)))
  | float {f s i fr b} : disp f = Lit.text ⟨s, .frac i fr none⟩ → DecInt i → (∀ x ∈ fr, IsDigit x) → pf (disp f) = some b →
      exponent b ≠ 2047 → Means (.number f) (.double b.toBitVec)
  | array {a l} : MeansL a l → Means (.array a) (.array l)
  | map {m l} : MeansM m l → (m.map Prod.fst).Nodup → Means (.map m) (.map l)
inductive MeansL : List JV → List JVal → Prop
  | nil : MeansL [] []
  | cons {v j a l} : Means v j → MeansL a l → MeansL (v :: a) (j :: l)
inductive MeansM : List (String × JV) → List (String × JVal) → Prop
  | nil : MeansM [] []
  | cons {k v j a l} : CleanStr k → Means v j → MeansM a l → MeansM ((k, v) :: a) ((k, j) :: l)
end

end

/-! ## Objects -/
section
open Source (Root RootValI)
open Diff (Param VType)

/-- the value of a parameter of the root now, with its nullability -/
def current (r : Root) (k : String) : Option (Param × VType) :=
  match r.defs.get k with
  | some (_, .param p vt) =>
    match r.sabun.get k with
    | some (.param q) => some (q, vt)
    | _ => some (p, vt)
  | _ => none

/-- a value that the format can express: strings that need no escapes, integers up to 2^53, floats below 2^63 that are not -0.0 -/
def Fits : Param → Prop
  | .string (.val s) => CleanStr s
  | .float (.val f) => CleanNum f
  | .int (.val i) => i.natAbs ≤ 2 ^ 53
  | .intArray (.val l) => ∀ b ∈ l, b.toInt.natAbs ≤ 2 ^ 53
  | .floatArray (.val l) => ∀ f ∈ l, CleanNum f
  | _ => True

/-! ## Definitions of lists -/

open Source (LDef LDefVal RefDefI)
open Core (AMap)
open Diff (Qv)

/-- references that the format can express: what they refer to is empty or a name. (That `Ref` can have old names is not expressed.) -/
def PlainRefs (r : RefDefI) : Prop :=
  (r.refs.map (·.1)).Nodup ∧ (∀ e ∈ r.refs, Names.Ident e.1.toList) ∧ ∀ e ∈ r.refs, ∀ s, e.2.2.1 = .val s → s = "" ∨ Names.Ident s.toList

mutual
/-- a definition of a list that the format can express -/
def PlainDef : LDef → Prop
  | .mk members refs old => (members.map (·.1)).Nodup ∧ PlainMembers members ∧ PlainRefs refs ∧ ∀ n ∈ old, Names.Ident n.toList
def PlainMembers : List (String × Nat × LDefVal) → Prop
  | [] => True
  | (k, _, v) :: r => Names.Ident k.toList ∧ PlainVal v ∧ PlainMembers r
def PlainVal : LDefVal → Prop
  | .param p _ => Fits p
  | .cilDef d => PlainDef d
  | .milDef d _ => PlainDef d
end

/-- the same references, except for their ids and for the old names; if there are none they are neither of `Ref` nor of `Enum` -/
def SameRefs (r r' : RefDefI) : Prop :=
  (∀ k, (r'.refs.get k).map (·.2) = (r.refs.get k).map (·.2)) ∧ (r.refs ≠ [] → r'.isEnum = r.isEnum)

mutual
/-- the same definition, except for the ids of the members -/
def SameDef : LDef → LDef → Prop
  | .mk members refs old, d' => SameMembers members d'.members ∧ (∀ k, k ∈ d'.members.map (·.1) ↔ k ∈ members.map (·.1)) ∧
      SameRefs refs d'.refs ∧ ∀ n, n ∈ d'.old ↔ n ∈ old
def SameMembers : List (String × Nat × LDefVal) → AMap (Nat × LDefVal) → Prop
  | [], _ => True
  | (k, _, v) :: r, m => (∃ i v', m.get k = some (i, v') ∧ SameVal v v') ∧ SameMembers r m
def SameVal : LDefVal → LDefVal → Prop
  | .param p vt, v' => v' = .param p vt
  | .cilDef d, v' => ∃ d', v' = .cilDef d' ∧ SameDef d d'
  | .milDef d u, v' => ∃ d', v' = .milDef d' u ∧ SameDef d d'
end

/-- a list that the format can express: a constant list has no entry among the present values, a mutable list has no items -/
def PlainList (r : Root) (k : String) : RootValI → Prop
  | .param _ _ => True
  | .table _ _ _ => r.sabun.get k = none
  | .clist _ _ => r.sabun.get k = none
  | .mlist d _ => PlainDef d ∧ ∃ l, r.sabun.get k = some (.list l) ∧ ∀ x, l = some x → x.1 = [] ∧ x.2 ≤ 2 ^ 53

/-- an object that the format can express -/
structure Plain (r : Root) : Prop where
  wf : (r.defs.map (·.1)).Nodup
  names : ∀ e ∈ r.defs, Names.Ident e.1.toList
  old : ∀ n ∈ r.old, Names.Ident n.toList
  lists : ∀ k id v, (k, id, v) ∈ r.defs → PlainList r k v
  values : ∀ k p vt, current r k = some (p, vt) → Fits p

/-- what comes back as the member `k` of the object -/
inductive Back (r : Root) (k : String) : Option RootValI → Option Core.RootSab → Prop
  /-- a parameter, with its present value as the default -/
  | param {p vt} : current r k = some (p, vt) → Back r k (some (.param p vt)) none
  /-- a mutable list, which cannot be undefined -/
  | mlist {i d u d'} : r.defs.get k = some (i, .mlist d u) → SameDef d d' → Back r k (some (.mlist d' false)) (some (.list (some ([], 0))))
  /-- nothing else -/
  | gone : current r k = none → (∀ i d u, r.defs.get k ≠ some (i, .mlist d u)) → Back r k none none

end

end Verif.Export
