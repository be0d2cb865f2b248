import Verif.Lemmas.AMap
import Verif.Spec.Validate
import Verif.Props.SetGet
/-!
# Validation (C22)
-/
namespace Verif.Core
open Diff

theorem Res.bind_eq_ok {α β : Type} {x : Res α} {f : α → Res β} {b : β} (h : x.bind f = .ok b) : ∃ a, x = .ok a ∧ f a = .ok b := by
  cases x with
  | ok a => exact ⟨a, rfl, h⟩
  | err => cases h
  | panic => cases h

theorem failIf_ok {c : Bool} {u : Unit} (h : failIf c = .ok u) : c = false := by
  cases c with
  | false => rfl
  | true => cases h

theorem forEach_ok {α : Type} {l : List α} {f : α → Res Unit} (h : forEach l f = .ok ()) : ∀ x ∈ l, f x = .ok () := by
  induction l with
  | nil => intro x hx; cases hx
  | cons y r ih =>
    obtain ⟨_, h1, h2⟩ := Res.bind_eq_ok h
    intro x hx
    rcases List.mem_cons.1 hx with rfl | hx
    · exact h1
    · exact ih h2 x hx

/-- What is found for a reference whose check succeeded. -/
def Found (defs : AMap RootVal) (canUseOld : Bool) (t id : String) : Prop :=
  ∃ d list old it, (t, RootVal.table d list old) ∈ defs ∧ (id, it) ∈ list ∧ (canUseOld = false → id ∉ old)

theorem validateRef_ok {defs : AMap RootVal} {d : RefDef} {b : Bool} {t id : String}
    (h : validateRef defs d b (t, .val id) = .ok ()) : Found defs b t id := by
  unfold validateRef at h
  obtain ⟨_, _, h⟩ := Res.bind_eq_ok h
  simp only at h
  cases hg : d.refs.get t with
  | none => rw [hg] at h; cases h
  | some x =>
    rw [hg] at h
    obtain ⟨_, _, h⟩ := Res.bind_eq_ok h
    obtain ⟨_, _, h⟩ := Res.bind_eq_ok h
    cases hd : defs.get t with
    | none => rw [hd] at h; cases h
    | some v =>
      rw [hd] at h
      cases v with
      | table td list old =>
        obtain ⟨_, h1, h2⟩ := Res.bind_eq_ok h
        have h1 := failIf_ok h1
        have h2 := failIf_ok h2
        cases hl : list.get id with
        | none => rw [hl] at h1; cases h1
        | some it =>
          refine ⟨td, list, old, it, AMap.mem_of_get hd, AMap.mem_of_get hl, ?_⟩
          intro hb hm
          subst hb
          simp [hm] at h2
      | param _ _ => cases h
      | clist _ _ => cases h
      | mlist _ _ => cases h

theorem validateRefs_ok {defs : AMap RootVal} {d : RefDef} {refs : AMap (Qv String)} {b : Bool}
    (h : validateRefs defs d refs b = .ok ()) {t id : String} (hm : (t, Qv.val id) ∈ refs) : Found defs b t id := by
  obtain ⟨_, _, h⟩ := Res.bind_eq_ok h
  exact validateRef_ok (forEach_ok h _ hm)

mutual
theorem validateItem_ok (defs : AMap RootVal) (b : Bool) (d : ListDef) : (it : Item) → validateItem defs b d it = .ok () →
    ∀ t id, StoredRef it t id → Found defs b t id
  | .mk values refs => by
    intro h t id hs
    unfold validateItem at h
    obtain ⟨_, h1, h2⟩ := Res.bind_eq_ok h
    have hv := validateValues_ok defs b d values h2
    cases hs with
    | here hm => exact validateRefs_ok h1 hm
    | cil hk hj hs => exact (hv _ _ hk).1 _ rfl _ hj _ _ hs
    | mil hk hj hs => exact (hv _ _ hk).2 _ _ rfl _ _ hj _ _ hs
theorem validateValues_ok (defs : AMap RootVal) (b : Bool) (d : ListDef) : (vs : List (String × SabVal)) →
    validateValues defs b d vs = .ok () → ∀ k v, (k, v) ∈ vs →
      (∀ items, v = .cil items → ∀ j ∈ items, ∀ t id, StoredRef j t id → Found defs b t id) ∧
      (∀ items next, v = .mil items next → ∀ i j, (i, j) ∈ items → ∀ t id, StoredRef j t id → Found defs b t id)
  | [] => by intro _ k v hm; cases hm
  | (n, x) :: r => by
    intro h k v hm
    unfold validateValues at h
    obtain ⟨_, _, h⟩ := Res.bind_eq_ok h
    cases hg : d.members.get n with
    | none => rw [hg] at h; cases h
    | some dv =>
      rw [hg] at h
      obtain ⟨_, ha, h⟩ := Res.bind_eq_ok h
      obtain ⟨_, h1, h2⟩ := Res.bind_eq_ok h
      rcases List.mem_cons.1 hm with he | hm
      · cases he
        exact validateValue_ok defs b dv x (by simpa using failIf_ok ha) h1
      · exact validateValues_ok defs b d r h2 k v hm
theorem validateValue_ok (defs : AMap RootVal) (b : Bool) (dv : DefVal) : (v : SabVal) → dv.acceptable v = true →
    validateValue defs b dv v = .ok () →
      (∀ items, v = .cil items → ∀ j ∈ items, ∀ t id, StoredRef j t id → Found defs b t id) ∧
      (∀ items next, v = .mil items next → ∀ i j, (i, j) ∈ items → ∀ t id, StoredRef j t id → Found defs b t id)
  | .param p => fun _ _ => ⟨(fun _ h => nomatch h), (fun _ _ h => nomatch h)⟩
  | .milNone => fun _ _ => ⟨(fun _ h => nomatch h), (fun _ _ h => nomatch h)⟩
  | .cil items => by
    intro ha h
    refine ⟨?_, fun _ _ h => nomatch h⟩
    rintro _ ⟨⟩
    cases dv with
    | param p vt => simp [DefVal.acceptable, DefVal.type, SabVal.type] at ha
    | cilDef d =>
      unfold validateValue at h
      exact validateList_ok defs b d items h
    | milDef d u => simp [DefVal.acceptable, DefVal.type, SabVal.type] at ha
  | .mil items next => by
    intro ha h
    refine ⟨(fun _ h => nomatch h), ?_⟩
    rintro _ _ ⟨⟩
    cases dv with
    | param p vt => simp [DefVal.acceptable, DefVal.type, SabVal.type] at ha
    | cilDef d => simp [DefVal.acceptable, DefVal.type, SabVal.type] at ha
    | milDef d u =>
      unfold validateValue at h
      exact validateMutList_ok defs b d items h
theorem validateList_ok (defs : AMap RootVal) (b : Bool) (d : ListDef) : (items : List Item) →
    validateList defs b d items = .ok () → ∀ j ∈ items, ∀ t id, StoredRef j t id → Found defs b t id
  | [] => by intro _ j hj; cases hj
  | it :: r => by
    intro h j hj
    unfold validateList at h
    obtain ⟨_, h1, h2⟩ := Res.bind_eq_ok h
    rcases List.mem_cons.1 hj with he | hj
    · rw [he]; exact validateItem_ok defs b d it h1
    · exact validateList_ok defs b d r h2 j hj
theorem validateMutList_ok (defs : AMap RootVal) (b : Bool) (d : ListDef) : (items : List (Nat × Item)) →
    validateMutList defs b d items = .ok () → ∀ i j, (i, j) ∈ items → ∀ t id, StoredRef j t id → Found defs b t id
  | [] => by intro _ _ j hj; cases hj
  | (n, it) :: r => by
    intro h i j hj
    unfold validateMutList at h
    obtain ⟨_, h1, h2⟩ := Res.bind_eq_ok h
    rcases List.mem_cons.1 hj with he | hj
    · cases he; exact validateItem_ok defs b d it h1
    · exact validateMutList_ok defs b d r h2 i j hj
end

theorem validateRoot_found {r : RootObj} {b : Bool} (h : validateRoot r b = .ok ()) {it : Item} (hi : RootItem r it) {t id : String}
    (hs : StoredRef it t id) : Found r.defs b t id := by
  obtain ⟨_, _, h⟩ := Res.bind_eq_ok h
  cases hi with
  | table hk hm =>
    have := forEach_ok h _ hk
    obtain ⟨_, _, this⟩ := Res.bind_eq_ok this
    obtain ⟨_, _, this⟩ := Res.bind_eq_ok this
    exact validateItem_ok _ _ _ _ (forEach_ok this _ hm) _ _ hs
  | clist hk hm =>
    have := forEach_ok h _ hk
    obtain ⟨_, _, this⟩ := Res.bind_eq_ok this
    exact validateList_ok _ _ _ _ this _ hm _ _ hs
  | mlist hk hg hm =>
    have := forEach_ok h _ hk
    obtain ⟨_, _, this⟩ := Res.bind_eq_ok this
    simp only [hg] at this
    exact validateMutList_ok _ _ _ _ this _ _ hm _ _ hs

/-- **C22.** If validation succeeds, every reference of every item of every list of the object, at every depth, that is neither null nor
undefined names an existing entry of the table. -/
theorem C22_references_resolve (r : RootObj) (canUseOld : Bool) (h : validateRoot r canUseOld = .ok ()) (it : Item)
    (hi : RootItem r it) (t id : String) (hs : StoredRef it t id) : Resolves r t id := by
  obtain ⟨d, list, old, x, h1, h2, _⟩ := validateRoot_found h hi hs
  exact ⟨d, list, old, x, h1, h2⟩

/-- … and, when old entries may not be used, one that is not old. -/
theorem C22_references_new (r : RootObj) (h : validateRoot r false = .ok ()) (it : Item) (hi : RootItem r it) (t id : String)
    (hs : StoredRef it t id) : ResolvesNew r t id := by
  obtain ⟨d, list, old, x, h1, h2, h3⟩ := validateRoot_found h hi hs
  exact ⟨d, list, old, x, h1, h2, h3 rfl⟩

/-! ## No panic -/

theorem Res.bind_ne_panic {α β : Type} {x : Res α} {f : α → Res β} (hx : x ≠ .panic) (hf : ∀ a, x = .ok a → f a ≠ .panic) :
    x.bind f ≠ .panic := by
  cases x with
  | ok a => exact hf a rfl
  | err => intro h; cases h
  | panic => exact absurd rfl hx

theorem failIf_ne_panic (c : Bool) : failIf c ≠ .panic := by cases c <;> intro h <;> cases h

theorem forEach_ne_panic {α : Type} {l : List α} {f : α → Res Unit} (h : ∀ x ∈ l, f x ≠ .panic) : forEach l f ≠ .panic := by
  induction l with
  | nil => intro h; cases h
  | cons y r ih =>
    exact Res.bind_ne_panic (h y List.mem_cons_self) fun _ _ => ih fun x hx => h x (List.mem_cons_of_mem _ hx)

theorem validateRef_ne_panic (defs : AMap RootVal) (d : RefDef) (b : Bool) (e : String × Qv String) : validateRef defs d b e ≠ .panic := by
  unfold validateRef
  refine Res.bind_ne_panic (failIf_ne_panic _) fun _ _ => ?_
  cases d.refs.get e.1 with
  | none => intro h; cases h
  | some x =>
    refine Res.bind_ne_panic (failIf_ne_panic _) fun _ _ => ?_
    cases e.2 with
    | val id =>
      refine Res.bind_ne_panic (failIf_ne_panic _) fun _ _ => ?_
      cases defs.get e.1 with
      | none => intro h; cases h
      | some v =>
        cases v with
        | table td list old => exact Res.bind_ne_panic (failIf_ne_panic _) fun _ _ => failIf_ne_panic _
        | _ => intro h; cases h
    | _ => intro h; cases h

theorem validateRefs_ne_panic (defs : AMap RootVal) (d : RefDef) (refs : AMap (Qv String)) (b : Bool) :
    validateRefs defs d refs b ≠ .panic := by
  unfold validateRefs
  refine Res.bind_ne_panic ?_ fun _ _ => forEach_ne_panic fun _ _ => validateRef_ne_panic _ _ _ _
  cases d.isEnum with
  | true => exact failIf_ne_panic _
  | false => exact forEach_ne_panic fun _ _ => failIf_ne_panic _

mutual
theorem validateItem_ne_panic (defs : AMap RootVal) (b : Bool) (d : ListDef) : (it : Item) → validateItem defs b d it ≠ .panic
  | .mk values refs => by
    unfold validateItem
    exact Res.bind_ne_panic (validateRefs_ne_panic _ _ _ _) fun _ _ => validateValues_ne_panic defs b d values
theorem validateValues_ne_panic (defs : AMap RootVal) (b : Bool) (d : ListDef) : (vs : List (String × SabVal)) →
    validateValues defs b d vs ≠ .panic
  | [] => by unfold validateValues; intro h; cases h
  | (n, x) :: r => by
    unfold validateValues
    refine Res.bind_ne_panic (failIf_ne_panic _) fun _ _ => ?_
    cases d.members.get n with
    | none => intro h; cases h
    | some dv =>
      refine Res.bind_ne_panic (failIf_ne_panic _) fun _ ha => ?_
      exact Res.bind_ne_panic (validateValue_ne_panic defs b dv x (by simpa using failIf_ok ha)) fun _ _ =>
        validateValues_ne_panic defs b d r
theorem validateValue_ne_panic (defs : AMap RootVal) (b : Bool) (dv : DefVal) : (v : SabVal) → dv.acceptable v = true →
    validateValue defs b dv v ≠ .panic
  | .param p => by
    intro ha
    cases dv with
    | param p vt => unfold validateValue; intro h; cases h
    | cilDef d => simp [DefVal.acceptable, DefVal.type, SabVal.type] at ha
    | milDef d u => simp [DefVal.acceptable, DefVal.type, SabVal.type] at ha
  | .milNone => by
    intro ha
    cases dv with
    | param p vt => simp [DefVal.acceptable, DefVal.type, SabVal.type] at ha
    | cilDef d => simp [DefVal.acceptable, DefVal.type, SabVal.type] at ha
    | milDef d u => unfold validateValue; exact failIf_ne_panic _
  | .cil items => by
    intro ha
    cases dv with
    | param p vt => simp [DefVal.acceptable, DefVal.type, SabVal.type] at ha
    | cilDef d => unfold validateValue; exact validateList_ne_panic defs b d items
    | milDef d u => simp [DefVal.acceptable, DefVal.type, SabVal.type] at ha
  | .mil items next => by
    intro ha
    cases dv with
    | param p vt => simp [DefVal.acceptable, DefVal.type, SabVal.type] at ha
    | cilDef d => simp [DefVal.acceptable, DefVal.type, SabVal.type] at ha
    | milDef d u => unfold validateValue; exact validateMutList_ne_panic defs b d items
theorem validateList_ne_panic (defs : AMap RootVal) (b : Bool) (d : ListDef) : (items : List Item) → validateList defs b d items ≠ .panic
  | [] => by unfold validateList; intro h; cases h
  | it :: r => by
    unfold validateList
    exact Res.bind_ne_panic (validateItem_ne_panic defs b d it) fun _ _ => validateList_ne_panic defs b d r
theorem validateMutList_ne_panic (defs : AMap RootVal) (b : Bool) (d : ListDef) : (items : List (Nat × Item)) →
    validateMutList defs b d items ≠ .panic
  | [] => by unfold validateMutList; intro h; cases h
  | (n, it) :: r => by
    unfold validateMutList
    exact Res.bind_ne_panic (validateItem_ne_panic defs b d it) fun _ _ => validateMutList_ne_panic defs b d r
end

theorem validateRefDef_ne_panic (d : RefDef) : validateRefDef d ≠ .panic := by
  unfold validateRefDef
  refine Res.bind_ne_panic ?_ fun _ _ => forEach_ne_panic fun _ _ => failIf_ne_panic _
  cases d.isEnum with
  | true => exact forEach_ne_panic fun _ _ => failIf_ne_panic _
  | false => intro h; cases h

mutual
theorem validateListDef_ne_panic (m : Bool) : (d : ListDef) → validateListDef m d ≠ .panic
  | .mk members refs old => by
    unfold validateListDef
    refine Res.bind_ne_panic (validateRefDef_ne_panic _) fun _ _ => ?_
    exact Res.bind_ne_panic (forEach_ne_panic fun _ _ => failIf_ne_panic _) fun _ _ => validateMembers_ne_panic m members
theorem validateMembers_ne_panic (m : Bool) : (l : List (String × DefVal)) → validateMembers m l ≠ .panic
  | [] => by unfold validateMembers; intro h; cases h
  | (_, v) :: r => by
    unfold validateMembers
    exact Res.bind_ne_panic (validateDefVal_ne_panic m v) fun _ _ => validateMembers_ne_panic m r
theorem validateDefVal_ne_panic (m : Bool) : (v : DefVal) → validateDefVal m v ≠ .panic
  | .param _ _ => by unfold validateDefVal; intro h; cases h
  | .cilDef d => by
    unfold validateDefVal
    exact Res.bind_ne_panic (failIf_ne_panic _) fun _ _ => validateListDef_ne_panic m d
  | .milDef d _ => by
    unfold validateDefVal
    exact Res.bind_ne_panic (failIf_ne_panic _) fun _ _ => validateListDef_ne_panic m d
end

/-- Validation never reaches an `unreachable!()`, whatever the object. -/
theorem C22_no_panic (r : RootObj) (canUseOld : Bool) : validateRoot r canUseOld ≠ .panic := by
  unfold validateRoot
  refine Res.bind_ne_panic (forEach_ne_panic fun _ _ => failIf_ne_panic _) fun _ _ => forEach_ne_panic fun e _ => ?_
  obtain ⟨k, v⟩ := e
  unfold validateMember
  cases v with
  | param p vt =>
    simp only
    cases r.sabun.get k with
    | none => intro h; cases h
    | some x => cases x with
      | param q => exact failIf_ne_panic _
      | list l => intro h; cases h
  | table d list old =>
    refine Res.bind_ne_panic (validateListDef_ne_panic _ _) fun _ _ => ?_
    exact Res.bind_ne_panic (forEach_ne_panic fun _ _ => failIf_ne_panic _) fun _ _ => forEach_ne_panic fun _ _ =>
      validateItem_ne_panic _ _ _ _
  | clist d list => exact Res.bind_ne_panic (validateListDef_ne_panic _ _) fun _ _ => validateList_ne_panic _ _ _ _
  | mlist d u =>
    refine Res.bind_ne_panic (validateListDef_ne_panic _ _) fun _ _ => ?_
    simp only
    cases r.sabun.get k with
    | none => intro h; cases h
    | some x => cases x with
      | param q => intro h; cases h
      | list l => cases l with
        | none => exact failIf_ne_panic _
        | some l => exact validateMutList_ne_panic _ _ _ _

/-! ## Types of what is stored -/

theorem validateValues_mem {defs : AMap RootVal} {b : Bool} {d : ListDef} {vs : List (String × SabVal)}
    (h : validateValues defs b d vs = .ok ()) {k : String} {v : SabVal} (hm : (k, v) ∈ vs) :
    ∃ dv, d.members.get k = some dv ∧ dv.acceptable v = true ∧ validateValue defs b dv v = .ok () := by
  induction vs with
  | nil => cases hm
  | cons e r ih =>
    obtain ⟨n, x⟩ := e
    unfold validateValues at h
    obtain ⟨_, _, h⟩ := Res.bind_eq_ok h
    cases hg : d.members.get n with
    | none => rw [hg] at h; cases h
    | some dv =>
      rw [hg] at h
      obtain ⟨_, ha, h⟩ := Res.bind_eq_ok h
      obtain ⟨_, h1, h2⟩ := Res.bind_eq_ok h
      rcases List.mem_cons.1 hm with he | hm
      · cases he
        exact ⟨dv, hg, by simpa using failIf_ok ha, h1⟩
      · exact ih h2 hm

theorem validateList_mem {defs : AMap RootVal} {b : Bool} {d : ListDef} {l : List Item} (h : validateList defs b d l = .ok ()) :
    ∀ j ∈ l, validateItem defs b d j = .ok () := by
  induction l with
  | nil => intro j hj; cases hj
  | cons it r ih =>
    unfold validateList at h
    obtain ⟨_, h1, h2⟩ := Res.bind_eq_ok h
    intro j hj
    rcases List.mem_cons.1 hj with rfl | hj
    · exact h1
    · exact ih h2 j hj

theorem validateMutList_mem {defs : AMap RootVal} {b : Bool} {d : ListDef} {l : List (Nat × Item)}
    (h : validateMutList defs b d l = .ok ()) : ∀ i j, (i, j) ∈ l → validateItem defs b d j = .ok () := by
  induction l with
  | nil => intro i j hj; cases hj
  | cons e r ih =>
    obtain ⟨n, it⟩ := e
    unfold validateMutList at h
    obtain ⟨_, h1, h2⟩ := Res.bind_eq_ok h
    intro i j hj
    rcases List.mem_cons.1 hj with he | hj
    · cases he; exact h1
    · exact ih h2 i j hj

theorem validateItem_values {defs : AMap RootVal} {b : Bool} {d : ListDef} {it : Item} (h : validateItem defs b d it = .ok ()) :
    validateValues defs b d it.values = .ok () := by
  obtain ⟨values, refs⟩ := it
  unfold validateItem at h
  exact (Res.bind_eq_ok h).choose_spec.2

/-- In a valid object every item, at every depth, passed the check for its definition. -/
theorem validateRoot_holds {r : RootObj} {b : Bool} (h : validateRoot r b = .ok ()) {d : ListDef} {it : Item} (hi : Holds r d it) :
    validateItem r.defs b d it = .ok () := by
  obtain ⟨_, _, h⟩ := Res.bind_eq_ok h
  induction hi with
  | table hk hm =>
    have := forEach_ok h _ hk
    obtain ⟨_, _, this⟩ := Res.bind_eq_ok this
    obtain ⟨_, _, this⟩ := Res.bind_eq_ok this
    exact forEach_ok this _ hm
  | clist hk hm =>
    have := forEach_ok h _ hk
    obtain ⟨_, _, this⟩ := Res.bind_eq_ok this
    exact validateList_mem this _ hm
  | mlist hk hg hm =>
    have := forEach_ok h _ hk
    obtain ⟨_, _, this⟩ := Res.bind_eq_ok this
    simp only [hg] at this
    exact validateMutList_mem this _ _ hm
  | cil _ hd hm hj ih =>
    obtain ⟨dv, hdv, _, hv⟩ := validateValues_mem (validateItem_values ih) hm
    rw [hd] at hdv
    cases hdv
    unfold validateValue at hv
    exact validateList_mem hv _ hj
  | mil _ hd hm hj ih =>
    obtain ⟨dv, hdv, _, hv⟩ := validateValues_mem (validateItem_values ih) hm
    rw [hd] at hdv
    cases hdv
    unfold validateValue at hv
    exact validateMutList_mem hv _ _ hj

/-- **Validated objects are well typed.** In a valid object, whatever is stored in an item, at any depth, is declared, and a stored
parameter fits its declaration; at the root a stored parameter has the declared type. So for valid objects C20 holds without a condition. -/
theorem C20_validated (r : RootObj) (b : Bool) (h : validateRoot r b = .ok ()) :
    r.ParamsOk ∧
    (∀ k p vt q, r.defs.get k = some (.param p vt) → r.sabun.get k = some (.param q) → SameKind p q) ∧
    (∀ d it, Holds r d it → it.ParamsOk d) ∧
    (∀ d it, Holds r d it → ∀ k v, (k, v) ∈ it.values → ∃ dv, d.members.get k = some dv ∧
      ∀ q, v = .param q → ∃ p vt, dv = .param p vt ∧ Fits p vt q) := by
  have hv := h
  obtain ⟨_, _, h⟩ := Res.bind_eq_ok h
  have hitem : ∀ d it, Holds r d it → ∀ k v, (k, v) ∈ it.values → ∃ dv, d.members.get k = some dv ∧ dv.acceptable v = true := by
    intro d it hi k v hm
    obtain ⟨dv, h1, h2, _⟩ := validateValues_mem (validateItem_values (validateRoot_holds hv hi)) hm
    exact ⟨dv, h1, h2⟩
  refine ⟨?_, ?_, ?_, ?_⟩
  · intro k p vt hd l hl
    have := forEach_ok h _ (AMap.mem_of_get hd)
    unfold validateMember at this
    simp only [hl] at this
    cases this
  · intro k p vt q hd hl
    have := forEach_ok h _ (AMap.mem_of_get hd)
    unfold validateMember at this
    simp only [hl] at this
    exact (sameKind_iff p q).1 (by simpa using failIf_ok this)
  · intro d it hi k p vt hd v hk
    obtain ⟨dv, h1, h2⟩ := hitem d it hi k v (AMap.mem_of_get hk)
    rw [hd] at h1
    cases h1
    cases v with
    | param q => exact ⟨q, rfl⟩
    | _ => simp [DefVal.acceptable, DefVal.type, SabVal.type] at h2
  · intro d it hi k v hm
    obtain ⟨dv, h1, h2⟩ := hitem d it hi k v hm
    refine ⟨dv, h1, ?_⟩
    rintro q rfl
    cases dv with
    | param p vt =>
      refine ⟨p, vt, rfl, (fits_iff p vt q).2 ?_⟩
      simpa [DefVal.acceptable, DefVal.type, SabVal.type, DefVal.varType, SabVal.qvType, paramAcceptable] using h2
    | cilDef d => simp [DefVal.acceptable, DefVal.type, SabVal.type] at h2
    | milDef d u => simp [DefVal.acceptable, DefVal.type, SabVal.type] at h2

/-- At the root the nullability is not checked: null is stored in a member that is not nullable, and validation succeeds. -/
theorem C20_negation_validated_null :
    validateRoot { defs := [("x", .param (.int (.val 0)) .normal)], sabun := [("x", .param (.int .null))], old := [] } false = .ok () ∧
    ¬ Fits (.int (.val 0)) .normal (.int .null) :=
  ⟨by decide +kernel, fun h => nomatch ((fits_iff _ _ _).1 h).2⟩

/-! ## Examples -/

/-- an object with a table `t` that has the entry `a`, and a list whose items refer to it, also in a nested list -/
def refRoot (id : String) : RootObj :=
  let refs : RefDef := ⟨[("t", .val "a", .nullable)], false, []⟩
  { defs := [("t", .table (.mk [] ⟨[], false, []⟩ []) [("a", .mk [] [])] []),
      ("l", .mlist (.mk [("in", .milDef (.mk [] refs []) false)] refs []) false)]
    sabun := [("l", .list (some ([(0, .mk [("in", .mil [(0, .mk [] [("t", .val id)])] 1)] [("t", .null)])], 1)))]
    old := [] }

/-- it is valid, and has the nested reference -/
example : validateRoot (refRoot "a") false = .ok () ∧
    ∃ it, RootItem (refRoot "a") it ∧ StoredRef it "t" "a" :=
  ⟨by decide +kernel, _, .mlist (List.mem_cons_of_mem _ List.mem_cons_self) rfl List.mem_cons_self,
    .mil List.mem_cons_self List.mem_cons_self (.here List.mem_cons_self)⟩

/-- a nested reference to a missing entry is found -/
example : validateRoot (refRoot "b") false = .err := by decide +kernel

/-- an object whose list declares references to the table `t` with the default entry `id` -/
def defaultRefRoot (id : String) : RootObj :=
  { defs := [("t", .table (.mk [] ⟨[], false, []⟩ []) [("a", .mk [] [])] []),
      ("l", .mlist (.mk [] ⟨[("t", .val id, .normal)], false, []⟩ []) false)]
    sabun := [("l", .list (some ([(0, .mk [] [])], 1)))]
    old := [] }

/-- **What validation does not check.** The default of a reference may name an entry that does not exist: the object is valid, and the
item, in which nothing is stored, refers to it. -/
theorem C22_negation_default : validateRoot (defaultRefRoot "b") false = .ok () ∧
    (∃ it, RootItem (defaultRefRoot "b") it ∧ it.refs = [] ∧
      getRefId (.mk [] ⟨[("t", .val "b", .normal)], false, []⟩ []) it "t" = some (.val "b")) ∧
    ¬ Resolves (defaultRefRoot "b") "t" "b" := by
  refine ⟨by decide +kernel, ⟨.mk [] [], .mlist (List.mem_cons_of_mem _ List.mem_cons_self) rfl List.mem_cons_self, rfl, rfl⟩, ?_⟩
  rintro ⟨d, list, old, it, h1, h2⟩
  have h1 := List.mem_cons.1 h1
  rcases h1 with h1 | h1
  · cases h1
    simp at h2
  · simp at h1

end Verif.Core
