import Verif.Lemmas.Adjust
import Verif.Spec.SetGet
/-!
# Adjusting to a new source version (C18, C19)
-/
namespace Verif.Core
open Diff

/-! ## C18: the root -/

/-- **C18, root members.** What is stored for a parameter of the root after adjusting an object to a new version: the stored value if there
was one; 'undefined' if the member may be undefined and the old version did not have it; nothing otherwise. Nothing is stored for members
that the new version does not have. -/
theorem C18_root (new old r : RootObj) (b : Bool) (hw : new.defs.Wf) (hn : new.sabun = [])
    (hold : ∀ k x, old.sabun.get k = some x → ∃ v, old.defs.get k = some v) (h : adjustVersions new old b = .ok r) :
    r.defs = new.defs ∧ r.old = new.old ∧
    (∀ k p vt, new.defs.get k = some (.param p vt) →
      (∀ x, old.sabun.get k = some x → r.sabun.get k = some x) ∧
      (old.sabun.get k = none → ∀ x, r.sabun.get k = some x ↔
        old.defs.get k = none ∧ (vt = .undefiable ∨ vt = .undefNullable) ∧ ∃ q, x = .param q ∧ SameKind p q ∧ IsUndef q)) ∧
    (∀ k, new.defs.get k = none → r.sabun.get k = none) := by
  obtain ⟨sabun, h1, rfl⟩ := adjustWith_ok h
  refine ⟨rfl, rfl, ?_, ?_⟩
  · intro k p vt hk
    have hg := (adjustMembers_get hw h1 k).2.1 p vt hk
    refine ⟨?_, ?_⟩
    · intro x hx
      obtain ⟨v, hv⟩ := hold k x hx
      change sabun.get k = _
      rw [hg, hv, hx]
      simp
    · intro hs x
      change sabun.get k = some x ↔ _
      rw [hg, hs, hn]
      have hq : ∀ q, q = toUndefined p ↔ SameKind p q ∧ IsUndef q := by
        intro q
        constructor
        · rintro rfl
          cases p <;> exact ⟨by constructor, by simp [IsUndef, toUndefined]⟩
        · rintro ⟨hk, hu⟩
          cases hk <;> simp [IsUndef] at hu <;> rw [hu] <;> rfl
      by_cases hc : (canUndef vt && (old.defs.get k).isNone) = true
      · rw [if_pos hc]
        simp only [Bool.and_eq_true, canUndef_iff, Option.isNone_iff_eq_none] at hc
        constructor
        · rintro ⟨⟩
          exact ⟨hc.2, hc.1, _, rfl, (hq _).1 rfl⟩
        · rintro ⟨_, _, q, rfl, hh⟩
          rw [(hq q).2 hh]
      · rw [if_neg hc]
        constructor
        · intro h; cases h
        · rintro ⟨ho, hv, _⟩
          exact absurd (by simp [ho, (canUndef_iff vt).2 hv]) hc
  · intro k hk
    change sabun.get k = none
    rw [(adjustMembers_get hw h1 k).1 hk, hn]
    rfl

/-! ## C18: lists -/

/-- Lists, whatever the rule for nested lists is: they become what the relation `AdjItems` says *for that rule*. -/
theorem C18_any_rule (inner : ListDef → String → ListDef) (new old r : RootObj) (b : Bool) (hw : new.defs.Wf) (hn : new.sabun = [])
    (h : adjustWith inner new old b = .ok r) (k : String) (d o : ListDef) (u u' : Bool) (hk : new.defs.get k = some (.mlist d u))
    (ho : old.defs.get k = some (.mlist o u')) (hd : WfUnder inner d) :
    (old.sabun.get k = none → r.sabun.get k = none) ∧
    (old.sabun.get k = some (.list none) → r.sabun.get k = some (.list none)) ∧
    (∀ l next, old.sabun.get k = some (.list (some (l, next))) → FullItems inner o d l →
      ∃ l' next', r.sabun.get k = some (.list (some (l', next'))) ∧ AdjItems inner o d l l' ∧ (next' = next ∨ l = [])) := by
  obtain ⟨sabun, h1, rfl⟩ := adjustWith_ok h
  have hg := (adjustMembers_get hw h1 k).2.2.1 d u hk
  rw [if_neg (by rw [ho]; simp)] at hg
  change (_ → sabun.get k = none) ∧ (_ → sabun.get k = _) ∧ (∀ l next, _ → _ → ∃ l' next', sabun.get k = _ ∧ _)
  refine ⟨?_, ?_, ?_⟩
  · intro hs
    rw [hs] at hg
    rw [hg, hn]
    rfl
  · intro hs
    rw [hs] at hg
    obtain ⟨y, hy, hg⟩ := hg
    unfold adjustMlist at hy
    cases hy
    exact hg
  · intro l next hs hf
    rw [hs] at hg
    obtain ⟨y, hy, hg⟩ := hg
    unfold adjustMlist at hy
    obtain ⟨l', hl, hy⟩ := Res.map_eq_ok hy
    rw [← hy] at hg
    exact ⟨l', _, hg, adjustItems_adj inner o d hd l l' hl hf, constructNext_eq l next⟩

/-- **C18, lists.** The items of a list keep their ids and their order. In each item every stored value and reference whose member exists
in the new definition is kept, the others are dropped, and 'undefined' is stored for members that the old definition did not have.

Partial. (1) No item may have items in a list of its own (`FlatItems`); see `C18_negation_nested`. (2) Every member that may be undefined
and that the old definition has is stored in every item (`FullItems`); see `C18_negation_invented`. -/
theorem C18_lists_partial (new old r : RootObj) (b : Bool) (hw : new.defs.Wf) (hn : new.sabun = [])
    (h : adjustVersions new old b = .ok r) (k : String) (d o : ListDef) (u u' : Bool) (hk : new.defs.get k = some (.mlist d u))
    (ho : old.defs.get k = some (.mlist o u')) (hd : d.members.Wf ∧ d.refs.refs.Wf) :
    (old.sabun.get k = none → r.sabun.get k = none) ∧
    (old.sabun.get k = some (.list none) → r.sabun.get k = some (.list none)) ∧
    (∀ l next, old.sabun.get k = some (.list (some (l, next))) → FlatItems l → FullItems declared o d l →
      ∃ l' next', r.sabun.get k = some (.list (some (l', next'))) ∧ AdjItems declared o d l l' ∧ (next' = next ∨ l = [])) := by
  have hwf : WfUnder innerDef d := by
    intro d' hd'
    have : d' = d := by
      induction hd' with
      | refl => rfl
      | step _ _ ih => exact ih
    rw [this]
    exact hd
  obtain ⟨h1, h2, h3⟩ := C18_any_rule innerDef new old r b hw hn h k d o u u' hk ho hwf
  refine ⟨h1, h2, ?_⟩
  intro l next hs hflat hf
  obtain ⟨l', next', hr, ha, hx⟩ := h3 l next hs (full_flat hflat hf)
  exact ⟨l', next', hr, adj_flat hflat ha, hx⟩

/-- If nested lists were adjusted with the definition of their member, C18 would hold for lists at every depth (up to
`C18_negation_invented`). -/
theorem C18_repaired_partial (new old r : RootObj) (b : Bool) (hw : new.defs.Wf) (hn : new.sabun = [])
    (h : adjustWith declared new old b = .ok r) (k : String) (d o : ListDef) (u u' : Bool) (hk : new.defs.get k = some (.mlist d u))
    (ho : old.defs.get k = some (.mlist o u')) (hd : WfUnder declared d) (l : List (Nat × Item)) (next : Nat)
    (hs : old.sabun.get k = some (.list (some (l, next)))) (hf : FullItems declared o d l) :
    ∃ l' next', r.sabun.get k = some (.list (some (l', next'))) ∧ AdjItems declared o d l l' ∧ (next' = next ∨ l = []) :=
  (C18_any_rule declared new old r b hw hn h k d o u u' hk ho hd).2.2 l next hs hf

/-! ## Adjusting succeeds -/

theorem adjustLoop_some (ms : AMap DefVal) (old : AMap (Res SabVal)) (res : AMap SabVal) (hm : ∀ k dv, (k, dv) ∈ ms → ∀ x, dv ≠ .cilDef x)
    (ho : ∀ k o, (k, o) ∈ old → ∃ v, o = .ok v) : ∃ out, adjustLoop ms old res = .ok out := by
  induction ms generalizing old res with
  | nil => exact ⟨res, rfl⟩
  | cons e ms ih =>
    obtain ⟨k, dv⟩ := e
    have hm' : ∀ k dv, (k, dv) ∈ ms → ∀ x, dv ≠ .cilDef x := fun k dv h => hm k dv (List.mem_cons_of_mem _ h)
    unfold adjustLoop
    cases hg : old.get k with
    | some o =>
      obtain ⟨v, rfl⟩ := ho k o (AMap.mem_of_get hg)
      exact ih (old.remove k) (res.insert k v) hm' fun k' o' h => ho k' o' ((AMap.sublist_remove old k).subset h)
    | none =>
      cases dv with
      | param p vt => exact ih _ _ hm' ho
      | milDef d u => exact ih _ _ hm' ho
      | cilDef d => exact absurd rfl (hm k _ List.mem_cons_self d)

theorem validateMembers_no_cil {ms : List (String × DefVal)} (h : validateMembers true ms = .ok ()) :
    ∀ k dv, (k, dv) ∈ ms → validateDefVal true dv = .ok () := by
  induction ms with
  | nil => intro k dv hm; cases hm
  | cons e r ih =>
    obtain ⟨k0, v0⟩ := e
    unfold validateMembers at h
    obtain ⟨_, h1, h2⟩ := Res.bind_eq_ok h
    intro k dv hm
    rcases List.mem_cons.1 hm with he | hm
    · cases he; exact h1
    · exact ih h2 k dv hm

theorem validateListDef_members {d : ListDef} (h : validateListDef true d = .ok ()) :
    ∀ k dv, (k, dv) ∈ d.members → validateDefVal true dv = .ok () := by
  obtain ⟨members, refs, old⟩ := d
  unfold validateListDef at h
  obtain ⟨_, _, h⟩ := Res.bind_eq_ok h
  obtain ⟨_, _, h⟩ := Res.bind_eq_ok h
  exact validateMembers_no_cil h

/-- Definitions of mutable lists that pass validation have no constant lists. -/
theorem not_cil {dv : DefVal} (h : validateDefVal true dv = .ok ()) : ∀ x, dv ≠ .cilDef x := by
  rintro x rfl
  unfold validateDefVal at h
  cases h

mutual
theorem adjustItems_some (D : ListDef) (hD : ∀ k dv, (k, dv) ∈ D.members → ∀ x, dv ≠ .cilDef x) (defs : AMap RootVal) (b : Bool) :
    (l : List (Nat × Item)) → ∀ d, validateListDef true d = .ok () → validateMutList defs b d l = .ok () →
    ∃ l', adjustItems innerDef D l = .ok l'
  | [] => by
    intro d _ _
    exact ⟨[], by unfold adjustItems; rfl⟩
  | (id, it) :: r => by
    intro d hd h
    unfold validateMutList at h
    obtain ⟨_, h1, h2⟩ := Res.bind_eq_ok h
    obtain ⟨it', hi⟩ := adjustItem_some D hD defs b it d hd h1
    obtain ⟨r', hr⟩ := adjustItems_some D hD defs b r d hd h2
    refine ⟨(id, it') :: r', ?_⟩
    unfold adjustItems
    rw [hi, hr]
    rfl
theorem adjustItem_some (D : ListDef) (hD : ∀ k dv, (k, dv) ∈ D.members → ∀ x, dv ≠ .cilDef x) (defs : AMap RootVal) (b : Bool) :
    (it : Item) → ∀ d, validateListDef true d = .ok () → validateItem defs b d it = .ok () → ∃ it', adjustItem innerDef D it = .ok it'
  | .mk values refs => by
    intro d hd h
    unfold validateItem at h
    obtain ⟨_, _, h⟩ := Res.bind_eq_ok h
    obtain ⟨out, ho⟩ := adjustLoop_some D.members (adjustValues innerDef D values) [] hD (adjustVals_some D hD defs b values d hd h)
    refine ⟨.mk out (adjustRefs D.refs.refs refs []), ?_⟩
    unfold adjustItem
    rw [ho]
    rfl
theorem adjustVals_some (D : ListDef) (hD : ∀ k dv, (k, dv) ∈ D.members → ∀ x, dv ≠ .cilDef x) (defs : AMap RootVal) (b : Bool) :
    (vs : List (String × SabVal)) → ∀ d, validateListDef true d = .ok () → validateValues defs b d vs = .ok () →
    ∀ k o, (k, o) ∈ adjustValues innerDef D vs → ∃ v, o = .ok v
  | [] => by intro d _ _ k o hm; unfold adjustValues at hm; cases hm
  | (k0, v0) :: r => by
    intro d hd h k o hm
    unfold validateValues at h
    obtain ⟨_, _, h⟩ := Res.bind_eq_ok h
    unfold adjustValues at hm
    cases hg : d.members.get k0 with
    | none => rw [hg] at h; cases h
    | some dv =>
      rw [hg] at h
      obtain ⟨_, ha, h⟩ := Res.bind_eq_ok h
      obtain ⟨_, h1, h2⟩ := Res.bind_eq_ok h
      rcases List.mem_cons.1 hm with he | hm
      · have he : o = adjustValue innerDef D v0 := (Prod.mk.inj he).2
        rw [he]
        exact adjustVal_some D hD defs b v0 dv (validateListDef_members hd k0 dv (AMap.mem_of_get hg)) (by simpa using failIf_ok ha) h1
      · exact adjustVals_some D hD defs b r d hd h2 k o hm
theorem adjustVal_some (D : ListDef) (hD : ∀ k dv, (k, dv) ∈ D.members → ∀ x, dv ≠ .cilDef x) (defs : AMap RootVal) (b : Bool) :
    (v : SabVal) → ∀ dv, validateDefVal true dv = .ok () → dv.acceptable v = true → validateValue defs b dv v = .ok () →
    ∃ v', adjustValue innerDef D v = .ok v'
  | .param p => by intro _ _ _ _; exact ⟨.param p, by unfold adjustValue; rfl⟩
  | .milNone => by intro _ _ _ _; exact ⟨.milNone, by unfold adjustValue; rfl⟩
  | .cil items => by
    intro dv hd ha _
    cases dv with
    | param p vt => simp [DefVal.acceptable, DefVal.type, SabVal.type] at ha
    | cilDef d => exact absurd rfl (not_cil hd d)
    | milDef d u => simp [DefVal.acceptable, DefVal.type, SabVal.type] at ha
  | .mil items next => by
    intro dv hd ha h
    cases dv with
    | param p vt => simp [DefVal.acceptable, DefVal.type, SabVal.type] at ha
    | cilDef d => simp [DefVal.acceptable, DefVal.type, SabVal.type] at ha
    | milDef d u =>
      unfold validateDefVal at hd
      obtain ⟨_, _, hd⟩ := Res.bind_eq_ok hd
      unfold validateValue at h
      obtain ⟨l', hl⟩ := adjustItems_some D hD defs b items d hd h
      refine ⟨.mil l' (constructNext items next), ?_⟩
      unfold adjustValue
      rw [hl]
      rfl
end

theorem adjustMembers_some (oldDefs ms : AMap RootVal) (old res : AMap RootSab)
    (ho : ∀ k d u, (k, RootVal.mlist d u) ∈ ms → ∀ x, (k, x) ∈ old → ∃ y, adjustMlist innerDef d x = .ok y) :
    ∃ out, adjustMembers innerDef oldDefs ms old res = .ok out := by
  induction ms generalizing old res with
  | nil => exact ⟨res, by unfold adjustMembers; rfl⟩
  | cons e ms ih =>
    obtain ⟨k0, v0⟩ := e
    have hrec : ∀ old', old'.Sublist old → ∀ res', ∃ out, adjustMembers innerDef oldDefs ms old' res' = .ok out :=
      fun old' hs res' => ih old' res' fun k d u hm x hx => ho k d u (List.mem_cons_of_mem _ hm) x (hs.subset hx)
    have hself := hrec old (List.Sublist.refl _)
    have hrem := hrec (old.remove k0) (AMap.sublist_remove _ _)
    unfold adjustMembers
    cases v0 with
    | param p vt =>
      simp only
      by_cases hc : (canUndef vt && (oldDefs.get k0).isNone) = true
      · rw [if_pos hc]; exact hself _
      · rw [if_neg hc]
        cases old.get k0 with
        | none => exact hself _
        | some x => exact hrem _
    | mlist d u =>
      simp only
      by_cases hc : (u && (oldDefs.get k0).isNone) = true
      · rw [if_pos hc]; exact hself _
      · rw [if_neg hc]
        cases hg : old.get k0 with
        | none => exact hself _
        | some x =>
          obtain ⟨y, hy⟩ := ho k0 d u List.mem_cons_self x (AMap.mem_of_get hg)
          simp only [hy]
          exact hrem _
    | table d l o => exact hself _
    | clist d l => exact hself _

/-- Only parameters and mutable lists are stored, where they are declared. -/
def RootObj.Declared (r : RootObj) : Prop :=
  ∀ k x, r.sabun.get k = some x →
    ((∃ p vt, r.defs.get k = some (.param p vt)) ∧ ∃ q, x = .param q) ∨ ((∃ d u, r.defs.get k = some (.mlist d u)) ∧ ∃ l, x = .list l)

/-- Adjusting a valid object to a valid new version succeeds. -/
theorem C18_succeeds (new old : RootObj) (b b' : Bool) (hnew : validateRoot new b = .ok ()) (hold : validateRoot old b' = .ok ())
    (hw : old.sabun.Wf) (hdecl : old.Declared) :
    ∃ r, adjustVersions new old false = .ok r := by
  obtain ⟨_, _, hnew⟩ := Res.bind_eq_ok hnew
  obtain ⟨_, _, hold⟩ := Res.bind_eq_ok hold
  obtain ⟨out, ho⟩ := adjustMembers_some old.defs new.defs old.sabun new.sabun (by
    intro k D u hm x hx
    have hm := forEach_ok hnew _ hm
    obtain ⟨_, hD, _⟩ := Res.bind_eq_ok hm
    have hD : ∀ k dv, (k, dv) ∈ D.members → ∀ x, dv ≠ .cilDef x := fun k dv h => not_cil (validateListDef_members hD k dv h)
    have hx := AMap.get_of_mem hw hx
    unfold adjustMlist
    cases x with
    | param p => exact ⟨_, rfl⟩
    | list l =>
      cases l with
      | none => exact ⟨_, rfl⟩
      | some l =>
        rcases hdecl k _ hx with ⟨_, q, hq⟩ | ⟨⟨d, u', hv⟩, _⟩
        · cases hq
        · have hmem := forEach_ok hold _ (AMap.mem_of_get hv)
          obtain ⟨_, hd, hmem⟩ := Res.bind_eq_ok hmem
          simp only [hx] at hmem
          obtain ⟨l', hl⟩ := adjustItems_some D hD old.defs b' l.1 d hd hmem
          simp only [hl]
          exact ⟨_, rfl⟩)
  refine ⟨{ new with sabun := out }, ?_⟩
  unfold adjustVersions adjustWith
  rw [ho]
  rfl

/-- With validation, what is returned is valid. -/
theorem C18_validated (new old r : RootObj) (h : adjustVersions new old true = .ok r) : validateRoot r true = .ok () := by
  obtain ⟨sabun, h1, h⟩ := Res.bind_eq_ok h
  obtain ⟨_, h2, h⟩ := Res.map_eq_ok h
  rw [← h]
  exact h2

/-! ## C18: counterexamples -/

def noRefs : RefDef := ⟨[], false, []⟩

/-- a list whose items have the list `in`, whose items have the integer `x` with the default 0 -/
def nestedDef : ListDef := .mk [("in", .milDef (.mk [("x", .param (.int (.val 0)) .normal)] noRefs []) false)] noRefs []
/-- an object with one such item, in whose list one item has `x = 5` -/
def nestedRoot : RootObj :=
  { defs := [("l", .mlist nestedDef false)]
    sabun := [("l", .list (some ([(0, .mk [("in", .mil [(0, .mk [("x", .param (.int (.val 5)))] [])] 1)] [])], 1)))], old := [] }

/-- **C18 and C19 do not hold at depth 2.** The object is valid. Adjusting it to its own version, with validation, succeeds. The item of the
nested list loses its value: `x` was 5 and is 0 afterwards. (adjust_mut_list_item_sabun.rs:53 adjusts nested lists with the definition of
the outer item, which has no member `x`.) -/
theorem C18_negation_nested : validateRoot nestedRoot true = .ok () ∧
    ∃ r, adjustVersions { nestedRoot with sabun := [] } nestedRoot true = .ok r ∧
      r.sabun.get "l" = some (.list (some ([(0, .mk [("in", .mil [(0, .mk [] [])] 1)] [])], 1))) ∧
      getItemParam (declared nestedDef "in") (.mk [("x", .param (.int (.val 5)))] []) "x" = some (.int (.val 5)) ∧
      getItemParam (declared nestedDef "in") (.mk [] []) "x" = some (.int (.val 0)) :=
  ⟨by decide +kernel, _, rfl, rfl, rfl, rfl⟩

/-- a list whose items have an integer that may be undefined, with the default 5 -/
def undefDef : ListDef := .mk [("x", .param (.int (.val 5)) .undefiable)] noRefs []
/-- an object with one item in which it was never assigned -/
def undefRoot : RootObj :=
  { defs := [("l", .mlist undefDef false)], sabun := [("l", .list (some ([(0, .mk [] [])], 1)))], old := [] }

/-- **C18 and C19 do not hold for members that may be undefined and were never assigned.** The item has `x = 5` by default. Adjusting the
object to its own version, with validation, makes it undefined, though the old version has the member. -/
theorem C18_negation_invented : validateRoot undefRoot true = .ok () ∧
    ∃ r, adjustVersions { undefRoot with sabun := [] } undefRoot true = .ok r ∧
      r.sabun.get "l" = some (.list (some ([(0, .mk [("x", .param (.int .undef))] [])], 1))) ∧
      getItemParam undefDef (.mk [] []) "x" = some (.int (.val 5)) ∧
      getItemParam undefDef (.mk [("x", .param (.int .undef))] []) "x" = some (.int .undef) :=
  ⟨by decide +kernel, _, rfl, rfl, rfl, rfl⟩

/-- **The next id of an emptied list is lost**: the list whose next id was 3 gives out the id 0 again. -/
theorem C19_negation_next_id :
    ∃ r, adjustVersions { undefRoot with sabun := [] } { undefRoot with sabun := [("l", .list (some ([], 3)))] } true = .ok r ∧
      r.sabun.get "l" = some (.list (some ([], 0))) := ⟨_, rfl, rfl⟩

/-! ## C19 -/

/-- **C19.** Adjusting an object to its own version leaves every stored value: parameters of the root exactly, lists with all their ids,
values and references.

Partial, for the reasons of `C18_lists_partial`: `FlatItems`, `FullItems`. -/
theorem C19_same_version_partial (r r' : RootObj) (b : Bool) (hw : r.defs.Wf) (hdecl : r.Declared)
    (hlists : ∀ k d u l next, r.defs.get k = some (.mlist d u) → r.sabun.get k = some (.list (some (l, next))) →
      d.members.Wf ∧ d.refs.refs.Wf ∧ FlatItems l ∧ FullItems declared d d l ∧ DeclItems declared d l)
    (h : adjustVersions { r with sabun := [] } r b = .ok r') :
    r'.defs = r.defs ∧ r'.old = r.old ∧
    (∀ k p, r.sabun.get k = some (.param p) → r'.sabun.get k = some (.param p)) ∧
    (∀ k, r.sabun.get k = none → r'.sabun.get k = none) ∧
    (∀ k, r.sabun.get k = some (.list none) → r'.sabun.get k = some (.list none)) ∧
    (∀ k l next, r.sabun.get k = some (.list (some (l, next))) →
      ∃ l' next', r'.sabun.get k = some (.list (some (l', next'))) ∧ SameItems l l' ∧ (next' = next ∨ l = [])) := by
  have hd : ∀ k x, r.sabun.get k = some x → ∃ v, r.defs.get k = some v := by
    intro k x hx
    rcases hdecl k x hx with ⟨⟨p, vt, h⟩, _⟩ | ⟨⟨d, u, h⟩, _⟩ <;> exact ⟨_, h⟩
  obtain ⟨g1, g2, g3, g4⟩ := C18_root { r with sabun := [] } r r' b hw rfl hd h
  refine ⟨g1, g2, ?_, ?_, ?_, ?_⟩
  · intro k p hk
    rcases hdecl k _ hk with ⟨⟨p', vt, hp⟩, _⟩ | ⟨_, l, hl⟩
    · exact (g3 k p' vt hp).1 _ hk
    · cases hl
  · intro k hk
    obtain ⟨sabun, h1, rfl⟩ := adjustWith_ok h
    have hm := adjustMembers_get hw h1 k
    change sabun.get k = none
    cases hv : r.defs.get k with
    | none => exact g4 k hv
    | some v =>
      cases v with
      | param p vt =>
        rw [hm.2.1 p vt hv, hv, hk]
        simp [AMap.get]
      | mlist d u =>
        have := hm.2.2.1 d u hv
        rw [hv, hk, if_neg (by simp)] at this
        exact this
      | table d l o => exact hm.2.2.2.1 d l o hv
      | clist d l => exact hm.2.2.2.2 d l hv
  · intro k hk
    rcases hdecl k _ hk with ⟨_, q, hq⟩ | ⟨⟨d, u, hv⟩, _⟩
    · cases hq
    · obtain ⟨sabun, h1, rfl⟩ := adjustWith_ok h
      have := (adjustMembers_get hw h1 k).2.2.1 d u hv
      rw [hv, hk, if_neg (by simp)] at this
      obtain ⟨y, hy, hg⟩ := this
      unfold adjustMlist at hy
      cases hy
      exact hg
  · intro k l next hk
    rcases hdecl k _ hk with ⟨_, q, hq⟩ | ⟨⟨d, u, hv⟩, _⟩
    · cases hq
    · obtain ⟨w1, w2, hflat, hfull, hdi⟩ := hlists k d u l next hv hk
      obtain ⟨l', next', hr, ha, hx⟩ :=
        (C18_lists_partial { r with sabun := [] } r r' b hw rfl h k d d u u hv hv ⟨w1, w2⟩).2.2 l next hk hflat hfull
      exact ⟨l', next', hr, same_of_adjItems ha rfl hdi, hx⟩

/-- If nested lists were adjusted with the definition of their member, the lists would stay the same at every depth. -/
theorem C19_repaired_partial (r r' : RootObj) (b : Bool) (hw : r.defs.Wf)
    (h : adjustWith declared { r with sabun := [] } r b = .ok r') (k : String) (d : ListDef) (u : Bool)
    (hv : r.defs.get k = some (.mlist d u)) (hd : WfUnder declared d) (l : List (Nat × Item)) (next : Nat)
    (hk : r.sabun.get k = some (.list (some (l, next)))) (hfull : FullItems declared d d l) (hdi : DeclItems declared d l) :
    ∃ l' next', r'.sabun.get k = some (.list (some (l', next'))) ∧ SameItems l l' ∧ (next' = next ∨ l = []) := by
  obtain ⟨l', next', hr, ha, hx⟩ :=
    (C18_any_rule declared { r with sabun := [] } r r' b hw rfl h k d d u u hv hv hd).2.2 l next hk hfull
  exact ⟨l', next', hr, same_of_adjItems ha rfl hdi, hx⟩

/-! ## Examples -/

/-- an old version: the member `gone` vanishes, `kept` stays -/
def oldVersion : RootObj :=
  { defs := [("p", .param (.int (.val 1)) .normal), ("gone", .param (.int (.val 1)) .normal),
      ("l", .mlist (.mk [("kept", .param (.int (.val 0)) .normal), ("gone", .param (.int (.val 0)) .normal)] noRefs []) false)]
    sabun := [("p", .param (.int (.val 9))), ("gone", .param (.int (.val 8))),
      ("l", .list (some ([(4, .mk [("kept", .param (.int (.val 7))), ("gone", .param (.int (.val 6)))] [])], 5)))], old := [] }
/-- the new version, in which `fresh` was not before -/
def newVersion : RootObj :=
  { defs := [("p", .param (.int (.val 2)) .normal), ("fresh", .param (.int (.val 1)) .undefiable),
      ("l", .mlist (.mk [("kept", .param (.int (.val 0)) .normal), ("fresh", .param (.int (.val 0)) .undefiable)] noRefs []) false)]
    sabun := [], old := [] }

example : validateRoot oldVersion false = .ok () ∧ validateRoot newVersion false = .ok () ∧
    ∃ r, adjustVersions newVersion oldVersion true = .ok r ∧ r.sabun.get "p" = some (.param (.int (.val 9))) ∧
      r.sabun.get "fresh" = some (.param (.int .undef)) ∧ r.sabun.get "gone" = none ∧
      r.sabun.get "l" = some (.list (some ([(4, .mk [("kept", .param (.int (.val 7))), ("fresh", .param (.int .undef))] [])], 5))) :=
  ⟨by decide +kernel, by decide +kernel, _, rfl, rfl, rfl, rfl, rfl⟩

/-- the list of the old version meets the conditions of `C18_lists_partial` -/
example : FlatItems [(4, .mk [("kept", .param (.int (.val 7))), ("gone", .param (.int (.val 6)))] [])] ∧
    FullItems declared (.mk [("kept", .param (.int (.val 0)) .normal), ("gone", .param (.int (.val 0)) .normal)] noRefs [])
      (.mk [("kept", .param (.int (.val 0)) .normal), ("fresh", .param (.int (.val 0)) .undefiable)] noRefs [])
      [(4, .mk [("kept", .param (.int (.val 7))), ("gone", .param (.int (.val 6)))] [])] := by
  have hno : ∀ k l next, AMap.get [("kept", SabVal.param (.int (.val 7))), ("gone", .param (.int (.val 6)))] k ≠ some (.mil l next) := by
    intro k l next h
    have := AMap.mem_of_get h
    simp at this
  refine ⟨?_, .cons (.mk ?_ ?_ ?_) .nil⟩
  · intro id it hm k l next hk
    simp only [List.mem_singleton] at hm
    cases hm
    exact absurd hk (hno k l next)
  · intro k dv v hd hu _
    have := AMap.mem_of_get hd
    simp only [ListDef.members, List.mem_cons, List.not_mem_nil, or_false] at this
    rcases this with h | h <;> cases h
    · cases hu
    · decide
  · intro k q vt hd
    cases hd
  · intro k l next hk
    exact absurd hk (hno k l next)

/-- with the rule `declared` the nested value of `C18_negation_nested` stays -/
example : ∃ r, adjustWith declared { nestedRoot with sabun := [] } nestedRoot true = .ok r ∧ r.sabun.get "l" = nestedRoot.sabun.get "l" :=
  ⟨_, rfl, rfl⟩

end Verif.Core
