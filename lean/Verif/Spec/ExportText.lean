import Verif.Spec.Export
/-!
# What is in the JSON of an object

Hash maps are walked in an order that is not part of the object. `Shuffled…`: two objects that differ only in the order in which the entries of
their hash maps come, at every level. `…Shown`: what should be in the JSON of a list of the root, with every value of every item.
-/
namespace Verif.Export
open Diff Core Source

/-! ## The same but for the order of the maps -/

mutual
inductive ShuffledItem : Item → Item → Prop
  | mk {vs ws us refs refs'} : ShuffledVals vs ws → ws.Perm us → refs.Perm refs' → ShuffledItem (.mk vs refs) (.mk us refs')
inductive ShuffledVals : List (String × SabVal) → List (String × SabVal) → Prop
  | nil : ShuffledVals [] []
  | cons {k v w r s} : ShuffledSab v w → ShuffledVals r s → ShuffledVals ((k, v) :: r) ((k, w) :: s)
inductive ShuffledSab : SabVal → SabVal → Prop
  | param {p} : ShuffledSab (.param p) (.param p)
  | cil {l m} : ShuffledItems l m → ShuffledSab (.cil l) (.cil m)
  | milNone : ShuffledSab .milNone .milNone
  | mil {l m next} : ShuffledMut l m → ShuffledSab (.mil l next) (.mil m next)
/-- the order of a list is part of the object -/
inductive ShuffledItems : List Item → List Item → Prop
  | nil : ShuffledItems [] []
  | cons {i j r s} : ShuffledItem i j → ShuffledItems r s → ShuffledItems (i :: r) (j :: s)
inductive ShuffledMut : List (Nat × Item) → List (Nat × Item) → Prop
  | nil : ShuffledMut [] []
  | cons {id i j r s} : ShuffledItem i j → ShuffledMut r s → ShuffledMut ((id, i) :: r) ((id, j) :: s)
end

/-- references -/
def ShuffledRefs (r s : RefDefI) : Prop := r.refs.Perm s.refs ∧ r.isEnum = s.isEnum

mutual
inductive ShuffledDef : LDef → LDef → Prop
  | mk {ms ns us refs refs' old old'} : ShuffledMembers ms ns → ns.Perm us → ShuffledRefs refs refs' → old.Perm old' →
      ShuffledDef (.mk ms refs old) (.mk us refs' old')
inductive ShuffledMembers : List (String × Nat × LDefVal) → List (String × Nat × LDefVal) → Prop
  | nil : ShuffledMembers [] []
  | cons {k id v w r s} : ShuffledDefVal v w → ShuffledMembers r s → ShuffledMembers ((k, id, v) :: r) ((k, id, w) :: s)
inductive ShuffledDefVal : LDefVal → LDefVal → Prop
  | param {p vt} : ShuffledDefVal (.param p vt) (.param p vt)
  | cil {d e} : ShuffledDef d e → ShuffledDefVal (.cilDef d) (.cilDef e)
  | mil {d e u} : ShuffledDef d e → ShuffledDefVal (.milDef d u) (.milDef e u)
end

/-- the items of a table, by their names -/
inductive ShuffledTable : List (String × Item) → List (String × Item) → Prop
  | nil : ShuffledTable [] []
  | cons {k i j r s} : ShuffledItem i j → ShuffledTable r s → ShuffledTable ((k, i) :: r) ((k, j) :: s)

inductive ShuffledVal : RootValI → RootValI → Prop
  | param {p vt} : ShuffledVal (.param p vt) (.param p vt)
  | table {d e l m n old old'} : ShuffledDef d e → ShuffledTable l m → m.Perm n → old.Perm old' → ShuffledVal (.table d l old) (.table e n old')
  | clist {d e l m} : ShuffledDef d e → ShuffledItems l m → ShuffledVal (.clist d l) (.clist e m)
  | mlist {d e u} : ShuffledDef d e → ShuffledVal (.mlist d u) (.mlist e u)

inductive ShuffledDefs : List (String × Nat × RootValI) → List (String × Nat × RootValI) → Prop
  | nil : ShuffledDefs [] []
  | cons {k id v w r s} : ShuffledVal v w → ShuffledDefs r s → ShuffledDefs ((k, id, v) :: r) ((k, id, w) :: s)

inductive ShuffledNow : RootSab → RootSab → Prop
  | param {p} : ShuffledNow (.param p) (.param p)
  | undef : ShuffledNow (.list none) (.list none)
  | list {l m next} : ShuffledMut l m → ShuffledNow (.list (some (l, next))) (.list (some (m, next)))

inductive ShuffledSabun : List (String × RootSab) → List (String × RootSab) → Prop
  | nil : ShuffledSabun [] []
  | cons {k v w r s} : ShuffledNow v w → ShuffledSabun r s → ShuffledSabun ((k, v) :: r) ((k, w) :: s)

/-- the same object, with the entries of its maps in another order -/
structure Shuffled (r r' : Root) : Prop where
  defs : ∃ ds, ShuffledDefs r.defs ds ∧ ds.Perm r'.defs
  sabun : ∃ ss, ShuffledSabun r.sabun ss ∧ ss.Perm r'.sabun
  old : r.old.Perm r'.old

/-! ## Maps have each name once -/

mutual
def ItemWf : Item → Prop
  | .mk vs refs => (vs.map (·.1)).Nodup ∧ (refs.map (·.1)).Nodup ∧ ValsWf vs
def ValsWf : List (String × SabVal) → Prop
  | [] => True
  | (_, v) :: r => SabWf v ∧ ValsWf r
def SabWf : SabVal → Prop
  | .param _ => True
  | .cil l => ItemsWf l
  | .milNone => True
  | .mil l _ => MutWf l
def ItemsWf : List Item → Prop
  | [] => True
  | i :: r => ItemWf i ∧ ItemsWf r
def MutWf : List (Nat × Item) → Prop
  | [] => True
  | (_, i) :: r => ItemWf i ∧ MutWf r
end

mutual
def DefWf : LDef → Prop
  | .mk ms refs _ => (ms.map (·.1)).Nodup ∧ ((refs.refs.map fun e => withSuffix e.1 e.2.2.2)).Nodup ∧ MembersWf ms
def MembersWf : List (String × Nat × LDefVal) → Prop
  | [] => True
  | (_, _, v) :: r => DefValWf v ∧ MembersWf r
def DefValWf : LDefVal → Prop
  | .param _ _ => True
  | .cilDef d => DefWf d
  | .milDef d _ => DefWf d
end

def ValWf : RootValI → Prop
  | .param _ _ => True
  | .table d l _ => DefWf d ∧ (l.map (·.1)).Nodup ∧ ∀ e ∈ l, ItemWf e.2
  | .clist d l => DefWf d ∧ ItemsWf l
  | .mlist d _ => DefWf d

structure RootWf (r : Root) : Prop where
  defs : (r.defs.map (·.1)).Nodup
  vals : ∀ e ∈ r.defs, ValWf e.2.2
  sabun : (r.sabun.map (·.1)).Nodup
  items : ∀ e ∈ r.sabun, ∀ l, e.2 = .list (some l) → MutWf l.1

/-! ## What should be shown -/

/-- the map of the references -/
def RefsShown (refs : AMap (Qv String)) (j : JV) : Prop :=
  ∃ m, j = .map m ∧ (m.map (·.1)).Pairwise (· < ·) ∧ ∀ k v, (k, v) ∈ m ↔ ∃ q, refs.get k = some q ∧
    v = match q with | .val s => .string s | .null => .null | .undef => .undef

mutual
/-- An item is a map, sorted by names: its values, its id as `ID` if it has one, its references as `Ref` if it has any, and nothing else. -/
def ItemShown (id : Option JV) : Item → JV → Prop
  | .mk vs refs, j => ∃ m, j = .map m ∧ (m.map (·.1)).Pairwise (· < ·) ∧ ValsShown vs m ∧
      (∀ v, ("ID", v) ∈ m ↔ id = some v) ∧ (refs ≠ [] → ∃ v, ("Ref", v) ∈ m ∧ RefsShown refs v) ∧
      ∀ k, k ∈ m.map (·.1) ↔ k ∈ vs.map (·.1) ∨ (k = "ID" ∧ id.isSome) ∨ (k = "Ref" ∧ refs ≠ [])
/-- each value is in the map under its name -/
def ValsShown : List (String × SabVal) → List (String × JV) → Prop
  | [], _ => True
  | (k, v) :: r, m => (∃ j, (k, j) ∈ m ∧ SabShown v j) ∧ ValsShown r m
/-- Parameters are written as those of the root are (C68). An undefined list has a word of its own. -/
def SabShown : SabVal → JV → Prop
  | .param p, j => j = getParam p
  | .cil l, j => ∃ a, j = .array (.string "Cil" :: a) ∧ ItemsShown l a
  | .milNone, j => j = .array [.string "__InnerMutUndefined"]
  | .mil l _, j => ∃ a, j = .array (.string "Mil" :: a) ∧ MutShown l a
/-- the items of a list in their order -/
def ItemsShown : List Item → List JV → Prop
  | [], a => a = []
  | i :: r, a => ∃ j s, a = j :: s ∧ ItemShown none i j ∧ ItemsShown r s
/-- the items of a mutable list in their order, with their ids as floats -/
def MutShown : List (Nat × Item) → List JV → Prop
  | [], a => a = []
  | (id, i) :: r, a => ∃ j s, a = j :: s ∧ ItemShown (some (.number (i64ToF64 id))) i j ∧ MutShown r s
end

mutual
/-- the names in an item are names -/
def ItemNames : Item → Prop
  | .mk vs _ => ValsNames vs
def ValsNames : List (String × SabVal) → Prop
  | [] => True
  | (k, v) :: r => Names.Ident k.toList ∧ SabNames v ∧ ValsNames r
def SabNames : SabVal → Prop
  | .param _ => True
  | .cil l => ItemsNames l
  | .milNone => True
  | .mil l _ => MutNames l
def ItemsNames : List Item → Prop
  | [] => True
  | i :: r => ItemNames i ∧ ItemsNames r
def MutNames : List (Nat × Item) → Prop
  | [] => True
  | (_, i) :: r => ItemNames i ∧ MutNames r
end

end Verif.Export
