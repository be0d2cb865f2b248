import Verif.Props.Validate
import Verif.Spec.ValidExact
/-!
# Exactly the valid objects pass the validation (C22)
-/
namespace Verif.Core
open Diff

theorem bind_unit_iff (x y : Res Unit) : (x.bind fun _ => y) = .ok () ↔ x = .ok () ∧ y = .ok () := by
  cases x with
  | ok a => exact ⟨fun h => ⟨rfl, h⟩, fun h => h.2⟩
  | err => exact ⟨fun h => (nomatch h), fun h => (nomatch h.1)⟩
  | panic => exact ⟨fun h => (nomatch h), fun h => (nomatch h.1)⟩

theorem failIf_iff (c : Bool) : failIf c = .ok () ↔ c = false := by
  cases c
  · exact ⟨fun _ => rfl, fun _ => rfl⟩
  · exact ⟨fun h => (nomatch h), fun h => (nomatch h)⟩

theorem forEach_iff {α : Type} (l : List α) (f : α → Res Unit) : forEach l f = .ok () ↔ ∀ x ∈ l, f x = .ok () := by
  refine ⟨forEach_ok, ?_⟩
  induction l with
  | nil => intro _; rfl
  | cons y r ih =>
    intro h
    rw [forEach, bind_unit_iff]
    exact ⟨h y List.mem_cons_self, ih fun x hx => h x (List.mem_cons_of_mem _ hx)⟩

theorem isNone_false_iff {α : Type} (x : Option α) : x.isNone = false ↔ ∃ a, x = some a := by
  cases x <;> simp

theorem oldFail_iff (b : Bool) (n : String) (old : List String) :
    failIf (!b && decide (n ∈ old)) = .ok () ↔ (b = false → n ∉ old) := by
  rw [failIf_iff]
  cases b <;> simp

theorem validateRef_iff (defs : AMap RootVal) (d : RefDef) (b : Bool) (t : String) (q : Qv String) :
    validateRef defs d b (t, q) = .ok () ↔ RefOk defs d b t q := by
  unfold validateRef RefOk
  rw [bind_unit_iff, oldFail_iff]
  refine and_congr_right fun _ => ?_
  simp only
  cases hg : d.refs.get t with
  | none => simp
  | some x =>
    obtain ⟨dq, vt⟩ := x
    simp only [bind_unit_iff, failIf_iff, Bool.not_eq_false', Option.some.injEq, Prod.mk.injEq]
    have : varAcceptable vt q.type = true ↔ (q = .null → vt = .nullable ∨ vt = .undefNullable) ∧
        (q = .undef → vt = .undefiable ∨ vt = .undefNullable) := by
      cases vt <;> cases q <;> simp [varAcceptable, Qv.type]
    rw [this]
    constructor
    · rintro ⟨⟨h1, h2⟩, h3⟩
      refine ⟨dq, vt, ⟨rfl, rfl⟩, h1, h2, ?_⟩
      rintro id rfl
      simp only [bind_unit_iff, failIf_iff, decide_eq_false_iff_not] at h3
      refine ⟨h3.1, ?_⟩
      cases hd : defs.get t with
      | none => rw [hd] at h3; exact (nomatch h3.2)
      | some v =>
        rw [hd] at h3
        cases v with
        | table td list old =>
          have h4 := h3.2
          rw [bind_unit_iff, failIf_iff, isNone_false_iff, oldFail_iff] at h4
          obtain ⟨⟨it, h5⟩, h6⟩ := h4
          exact ⟨td, list, old, it, rfl, h5, h6⟩
        | param _ _ => exact (nomatch h3.2)
        | clist _ _ => exact (nomatch h3.2)
        | mlist _ _ => exact (nomatch h3.2)
    · rintro ⟨dq', vt', ⟨rfl, rfl⟩, h1, h2, h3⟩
      refine ⟨⟨h1, h2⟩, ?_⟩
      cases q with
      | val id =>
        obtain ⟨h4, td, list, old, it, h5, h6, h7⟩ := h3 id rfl
        simp only [bind_unit_iff, failIf_iff, decide_eq_false_iff_not]
        refine ⟨h4, ?_⟩
        rw [h5]
        simp only
        rw [bind_unit_iff, failIf_iff, isNone_false_iff, oldFail_iff]
        exact ⟨⟨it, h6⟩, h7⟩
      | null => rfl
      | undef => rfl

theorem validateRefs_iff (defs : AMap RootVal) (d : RefDef) (refs : AMap (Qv String)) (b : Bool) :
    validateRefs defs d refs b = .ok () ↔ (d.isEnum = true → refs.length = 1) ∧
      (d.isEnum = false → ∀ t vt, (t, Qv.val "", vt) ∈ d.refs → ∃ q, refs.get t = some q) ∧
      ∀ t q, (t, q) ∈ refs → RefOk defs d b t q := by
  unfold validateRefs
  rw [bind_unit_iff, ← and_assoc]
  refine and_congr ?_ ?_
  · cases d.isEnum with
    | true => simp [failIf_iff]
    | false =>
      simp only [Bool.false_eq_true, if_false, forEach_iff, failIf_iff, false_implies, true_and, forall_const]
      constructor
      · intro h t vt hm
        have := h _ hm
        simp only [decide_true, Bool.and_true] at this
        exact (isNone_false_iff _).1 this
      · rintro h ⟨t, q, vt⟩ hm
        cases q with
        | val v =>
          by_cases hv : v = ""
          · subst hv
            simp only [decide_true, Bool.and_true]
            exact (isNone_false_iff _).2 (h t vt hm)
          · simp [hv]
        | null => simp
        | undef => simp
  · rw [forEach_iff]
    exact ⟨fun h t q hm => (validateRef_iff _ _ _ _ _).1 (h _ hm), fun h e hm => (validateRef_iff _ _ _ _ _).2 (h e.1 e.2 hm)⟩

theorem acceptable_iff (dv : DefVal) (v : SabVal) : dv.acceptable v = true ↔ ValueFits dv v := by
  constructor
  · intro h
    cases dv with
    | param p vt =>
      cases v with
      | param q =>
        refine .param ((fits_iff p vt q).2 ?_)
        simpa [DefVal.acceptable, DefVal.type, SabVal.type, DefVal.varType, SabVal.qvType, paramAcceptable] using h
      | _ => simp [DefVal.acceptable, DefVal.type, SabVal.type] at h
    | cilDef d =>
      cases v with
      | cil l => exact .cil
      | _ => simp [DefVal.acceptable, DefVal.type, SabVal.type] at h
    | milDef d u =>
      cases v with
      | mil l n => exact .mil
      | milNone =>
        cases u with
        | true => exact .undef
        | false => simp [DefVal.acceptable, DefVal.type, SabVal.type, DefVal.varType, SabVal.qvType, varAcceptable] at h
      | _ => simp [DefVal.acceptable, DefVal.type, SabVal.type] at h
  · intro h
    cases h with
    | param h =>
      have := (fits_iff _ _ _).1 h
      simpa [DefVal.acceptable, DefVal.type, SabVal.type, DefVal.varType, SabVal.qvType, paramAcceptable] using this
    | cil => simp [DefVal.acceptable, DefVal.type, SabVal.type, DefVal.varType, SabVal.qvType, varAcceptable]
    | @mil d u l n => cases u <;> simp [DefVal.acceptable, DefVal.type, SabVal.type, DefVal.varType, SabVal.qvType, varAcceptable]
    | undef => simp [DefVal.acceptable, DefVal.type, SabVal.type, DefVal.varType, SabVal.qvType, varAcceptable]

/-- What the check of one item says about the item itself. -/
theorem validateItem_itemOk {defs : AMap RootVal} {b : Bool} {d : ListDef} {it : Item} (h : validateItem defs b d it = .ok ()) :
    ItemOk defs b d it := by
  have hv := validateItem_values h
  obtain ⟨values, refs⟩ := it
  unfold validateItem at h
  rw [bind_unit_iff, validateRefs_iff] at h
  obtain ⟨⟨h1, h2, h3⟩, _⟩ := h
  refine ⟨h1, h2, h3, ?_, ?_⟩
  · intro hb k v hm
    subst hb
    change validateValues defs false d values = .ok () at hv
    change (k, v) ∈ values at hm
    clear h1 h2 h3
    induction values with
    | nil => cases hm
    | cons e r ih =>
      obtain ⟨n, x⟩ := e
      unfold validateValues at hv
      rw [bind_unit_iff, oldFail_iff] at hv
      rcases List.mem_cons.1 hm with he | hm
      · cases he; exact hv.1 rfl
      · have hrest : validateValues defs false d r = .ok () := by
          have := hv.2
          cases hg : d.members.get n with
          | none => rw [hg] at this; cases this
          | some dv =>
            rw [hg] at this
            rw [bind_unit_iff, bind_unit_iff] at this
            exact this.2.2
        apply ih <;> assumption
  · intro k v hm
    obtain ⟨dv, h4, h5, _⟩ := validateValues_mem hv hm
    exact ⟨dv, h4, (acceptable_iff _ _).1 h5⟩

mutual
theorem validateItem_of {r : RootObj} {b : Bool} (hr : ∀ d it, Holds r d it → ItemOk r.defs b d it) (d : ListDef) :
    (it : Item) → Holds r d it → validateItem r.defs b d it = .ok ()
  | .mk values refs => by
    intro hi
    obtain ⟨h1, h2, h3, h4, h5⟩ := hr d _ hi
    unfold validateItem
    rw [bind_unit_iff, validateRefs_iff]
    exact ⟨⟨h1, h2, h3⟩, validateValues_of hr d _ hi h4 h5 values fun e he => he⟩
theorem validateValues_of {r : RootObj} {b : Bool} (hr : ∀ d it, Holds r d it → ItemOk r.defs b d it) (d : ListDef) (it : Item)
    (hi : Holds r d it) (ho : b = false → ∀ k v, (k, v) ∈ it.values → k ∉ d.old)
    (hv : ∀ k v, (k, v) ∈ it.values → ∃ dv, d.members.get k = some dv ∧ ValueFits dv v) :
    (vs : List (String × SabVal)) → (∀ e ∈ vs, e ∈ it.values) → validateValues r.defs b d vs = .ok ()
  | [] => fun _ => by unfold validateValues; rfl
  | (n, x) :: rest => by
    intro hs
    have hm := hs _ List.mem_cons_self
    obtain ⟨dv, h1, h2⟩ := hv n x hm
    unfold validateValues
    rw [bind_unit_iff, oldFail_iff, h1]
    simp only
    rw [bind_unit_iff, bind_unit_iff, failIf_iff]
    refine ⟨fun hb => ho hb n x hm, by rw [(acceptable_iff _ _).2 h2]; rfl, ?_,
      validateValues_of hr d it hi ho hv rest fun e he => hs e (List.mem_cons_of_mem _ he)⟩
    exact validateValue_of hr d it hi n dv h1 x hm h2
theorem validateValue_of {r : RootObj} {b : Bool} (hr : ∀ d it, Holds r d it → ItemOk r.defs b d it) (d : ListDef) (it : Item)
    (hi : Holds r d it) (k : String) (dv : DefVal) (hd : d.members.get k = some dv) :
    (v : SabVal) → (k, v) ∈ it.values → ValueFits dv v → validateValue r.defs b dv v = .ok ()
  | .param p => by intro _ h; cases h; unfold validateValue; rfl
  | .milNone => by intro _ h; cases h; unfold validateValue; rfl
  | .cil items => by
    intro hm h
    cases h
    unfold validateValue
    exact validateList_of hr _ items fun j hj => hi.cil hd hm hj
  | .mil items next => by
    intro hm h
    cases h
    unfold validateValue
    exact validateMutList_of hr _ items fun i j hj => hi.mil hd hm hj
theorem validateList_of {r : RootObj} {b : Bool} (hr : ∀ d it, Holds r d it → ItemOk r.defs b d it) (d : ListDef) :
    (l : List Item) → (∀ j ∈ l, Holds r d j) → validateList r.defs b d l = .ok ()
  | [] => fun _ => by unfold validateList; rfl
  | it :: rest => by
    intro h
    unfold validateList
    rw [bind_unit_iff]
    exact ⟨validateItem_of hr d it (h it List.mem_cons_self), validateList_of hr d rest fun j hj => h j (List.mem_cons_of_mem _ hj)⟩
theorem validateMutList_of {r : RootObj} {b : Bool} (hr : ∀ d it, Holds r d it → ItemOk r.defs b d it) (d : ListDef) :
    (l : List (Nat × Item)) → (∀ i j, (i, j) ∈ l → Holds r d j) → validateMutList r.defs b d l = .ok ()
  | [] => fun _ => by unfold validateMutList; rfl
  | (n, it) :: rest => by
    intro h
    unfold validateMutList
    rw [bind_unit_iff]
    exact ⟨validateItem_of hr d it (h n it List.mem_cons_self),
      validateMutList_of hr d rest fun i j hj => h i j (List.mem_cons_of_mem _ hj)⟩
end

theorem validateRefDef_iff (d : RefDef) : validateRefDef d = .ok () ↔
    (d.isEnum = true → ∀ t q vt, (t, q, vt) ∈ d.refs → q = .null) ∧ ∀ n ∈ d.old, ∃ x, d.refs.get n = some x := by
  unfold validateRefDef
  rw [bind_unit_iff, forEach_iff]
  refine and_congr ?_ (forall₂_congr fun n _ => by rw [failIf_iff, isNone_false_iff])
  cases d.isEnum with
  | false => simp
  | true =>
    simp only [if_true, forEach_iff, failIf_iff, true_implies]
    constructor
    · intro h t q vt hm
      have := h _ hm
      cases q <;> simp at this ⊢
    · rintro h ⟨t, q, vt⟩ hm
      rw [h t q vt hm]

theorem validateMembers_iff (m : Bool) (l : List (String × DefVal)) :
    validateMembers m l = .ok () ↔ ∀ e ∈ l, validateDefVal m e.2 = .ok () := by
  induction l with
  | nil => unfold validateMembers; simp
  | cons e r ih =>
    obtain ⟨k, v⟩ := e
    unfold validateMembers
    rw [bind_unit_iff, ih]
    simp

theorem validateListDef_iff (m : Bool) (d : ListDef) : validateListDef m d = .ok () ↔ DefOk m d ∧
    (∀ k d', (k, DefVal.cilDef d') ∈ d.members → validateListDef m d' = .ok ()) ∧
    (∀ k d' u, (k, DefVal.milDef d' u) ∈ d.members → validateListDef m d' = .ok ()) := by
  obtain ⟨members, refs, old⟩ := d
  rw [validateListDef, bind_unit_iff, bind_unit_iff, validateRefDef_iff, forEach_iff, validateMembers_iff]
  constructor
  · rintro ⟨⟨h1, h2⟩, h3, h4⟩
    refine ⟨⟨h1, h2, fun n hn => (isNone_false_iff _).1 ((failIf_iff _).1 (h3 n hn)), ?_, ?_⟩, ?_, ?_⟩
    · intro k d' hm
      have := h4 _ hm
      simp only [validateDefVal, bind_unit_iff, failIf_iff] at this
      exact this.1
    · intro k d' u hm
      have := h4 _ hm
      simp only [validateDefVal, bind_unit_iff, failIf_iff] at this
      simpa using this.1
    · intro k d' hm
      have := h4 _ hm
      simp only [validateDefVal, bind_unit_iff, failIf_iff] at this
      exact this.2
    · intro k d' u hm
      have := h4 _ hm
      simp only [validateDefVal, bind_unit_iff, failIf_iff] at this
      exact this.2
  · rintro ⟨⟨h1, h2, h3, h4, h5⟩, h6, h7⟩
    refine ⟨⟨h1, h2⟩, fun n hn => (failIf_iff _).2 ((isNone_false_iff _).2 (h3 n hn)), ?_⟩
    rintro ⟨k, v⟩ hm
    cases v with
    | param p vt => simp only [validateDefVal]
    | cilDef d' =>
      simp only [validateDefVal, bind_unit_iff, failIf_iff]
      exact ⟨h4 k d' hm, h6 k d' hm⟩
    | milDef d' u =>
      simp only [validateDefVal, bind_unit_iff, failIf_iff]
      exact ⟨by rw [h5 k d' u hm]; rfl, h7 k d' u hm⟩

mutual
theorem validateListDef_of {r : RootObj} (hr : ∀ m d, Lists r m d → DefOk m d) (m : Bool) :
    (d : ListDef) → Lists r m d → validateListDef m d = .ok ()
  | .mk members refs old => by
    intro h
    refine (validateListDef_iff m _).2 ⟨hr m _ h, ?_, ?_⟩
    · intro k d' hm
      exact (validateMembers_of hr m members (fun k d' hm => h.cil hm) (fun k d' u hm => h.mil hm)).1 k d' hm
    · intro k d' u hm
      exact (validateMembers_of hr m members (fun k d' hm => h.cil hm) (fun k d' u hm => h.mil hm)).2 k d' u hm
theorem validateMembers_of {r : RootObj} (hr : ∀ m d, Lists r m d → DefOk m d) (m : Bool) :
    (l : List (String × DefVal)) → (∀ k d', (k, DefVal.cilDef d') ∈ l → Lists r m d') →
    (∀ k d' u, (k, DefVal.milDef d' u) ∈ l → Lists r m d') →
    (∀ k d', (k, DefVal.cilDef d') ∈ l → validateListDef m d' = .ok ()) ∧
    (∀ k d' u, (k, DefVal.milDef d' u) ∈ l → validateListDef m d' = .ok ())
  | [] => fun _ _ => ⟨fun _ _ h => (nomatch h), fun _ _ _ h => (nomatch h)⟩
  | (n, v) :: rest => by
    intro h1 h2
    have ih := validateMembers_of hr m rest (fun k d' hm => h1 k d' (List.mem_cons_of_mem _ hm))
      (fun k d' u hm => h2 k d' u (List.mem_cons_of_mem _ hm))
    have hv := validateDefVal_of hr m v
    refine ⟨?_, ?_⟩
    · intro k d' hm
      rcases List.mem_cons.1 hm with he | hm
      · cases he
        exact hv.1 d' rfl (h1 _ _ List.mem_cons_self)
      · exact ih.1 k d' hm
    · intro k d' u hm
      rcases List.mem_cons.1 hm with he | hm
      · cases he
        exact hv.2 d' u rfl (h2 _ _ _ List.mem_cons_self)
      · exact ih.2 k d' u hm
theorem validateDefVal_of {r : RootObj} (hr : ∀ m d, Lists r m d → DefOk m d) (m : Bool) :
    (v : DefVal) → (∀ d, v = .cilDef d → Lists r m d → validateListDef m d = .ok ()) ∧
      (∀ d u, v = .milDef d u → Lists r m d → validateListDef m d = .ok ())
  | .param _ _ => ⟨fun _ h => (nomatch h), fun _ _ h => (nomatch h)⟩
  | .cilDef d => ⟨fun d' h hl => by cases h; exact validateListDef_of hr m d hl, fun _ _ h => (nomatch h)⟩
  | .milDef d u => ⟨fun _ h => (nomatch h), fun d' u' h hl => by cases h; exact validateListDef_of hr m d hl⟩
end

/-- **C22, exact.** The validation succeeds for the valid objects and for no others. -/
theorem C22_exact (r : RootObj) (canUseOld : Bool) : validateRoot r canUseOld = .ok () ↔ Valid r canUseOld := by
  constructor
  · intro h
    have h' := h
    unfold validateRoot at h
    rw [bind_unit_iff, forEach_iff, forEach_iff] at h
    obtain ⟨h1, h2⟩ := h
    refine ⟨fun n hn => (isNone_false_iff _).1 ((failIf_iff _).1 (h1 n hn)), ?_, ?_, ?_, ?_, ?_⟩
    · intro k p vt hm x hx
      have := h2 _ hm
      simp only [validateMember, hx] at this
      cases x with
      | param q =>
        simp only [failIf_iff, Bool.not_eq_false'] at this
        exact ⟨q, rfl, (sameKind_iff _ _).1 this⟩
      | list l => cases this
    · intro k d list old hm n hn
      have := h2 _ hm
      simp only [validateMember, bind_unit_iff, forEach_iff] at this
      exact (isNone_false_iff _).1 ((failIf_iff _).1 (this.2.1 n hn))
    · intro k d u hm x hx
      have := h2 _ hm
      simp only [validateMember, bind_unit_iff, hx] at this
      cases x with
      | param q => exact (nomatch this.2)
      | list l =>
        refine ⟨l, rfl, ?_⟩
        rintro rfl
        simpa [failIf_iff] using this.2
    · have hd : ∀ m d, Lists r m d → validateListDef m d = .ok () := by
        intro m d hl
        induction hl with
        | table hm =>
          have := h2 _ hm
          simp only [validateMember, bind_unit_iff] at this
          exact this.1
        | clist hm =>
          have := h2 _ hm
          simp only [validateMember, bind_unit_iff] at this
          exact this.1
        | mlist hm =>
          have := h2 _ hm
          simp only [validateMember, bind_unit_iff] at this
          exact this.1
        | cil _ hm ih => exact ((validateListDef_iff _ _).1 ih).2.1 _ _ hm
        | mil _ hm ih => exact ((validateListDef_iff _ _).1 ih).2.2 _ _ _ hm
      exact fun m d hl => ((validateListDef_iff _ _).1 (hd m d hl)).1
    · exact fun d it hi => validateItem_itemOk (validateRoot_holds h' hi)
  · rintro ⟨h1, h2, h3, h4, h5, h6⟩
    unfold validateRoot
    rw [bind_unit_iff, forEach_iff, forEach_iff]
    refine ⟨fun n hn => (failIf_iff _).2 ((isNone_false_iff _).2 (h1 n hn)), ?_⟩
    rintro ⟨k, v⟩ hm
    cases v with
    | param p vt =>
      simp only [validateMember]
      cases hx : r.sabun.get k with
      | none => rfl
      | some x =>
        obtain ⟨q, rfl, hq⟩ := h2 k p vt hm x hx
        simp only [failIf_iff, Bool.not_eq_false']
        exact (sameKind_iff _ _).2 hq
    | table d list old =>
      simp only [validateMember, bind_unit_iff, forEach_iff]
      exact ⟨validateListDef_of h5 _ _ (.table hm), fun n hn => (failIf_iff _).2 ((isNone_false_iff _).2 (h3 k d list old hm n hn)),
        fun x hx => validateItem_of h6 d x.2 (.table hm hx)⟩
    | clist d list =>
      simp only [validateMember, bind_unit_iff]
      exact ⟨validateListDef_of h5 _ _ (.clist hm), validateList_of h6 d list fun j hj => .clist hm hj⟩
    | mlist d u =>
      simp only [validateMember, bind_unit_iff]
      refine ⟨validateListDef_of h5 _ _ (.mlist hm), ?_⟩
      cases hx : r.sabun.get k with
      | none => rfl
      | some x =>
        obtain ⟨l, rfl, hl⟩ := h4 k d u hm x hx
        cases l with
        | none => simp only [failIf_iff, hl rfl, Bool.not_true]
        | some l => exact validateMutList_of h6 d l.1 fun i j hj => .mlist (next := l.2) hm hx hj

/-- Every other object is refused with an error. -/
theorem C22_refused (r : RootObj) (canUseOld : Bool) : validateRoot r canUseOld = .err ↔ ¬ Valid r canUseOld := by
  rw [← C22_exact]
  have := C22_no_panic r canUseOld
  cases h : validateRoot r canUseOld with
  | ok u => simp
  | err => simp
  | panic => exact absurd h this

/-- What is valid without the old names is valid with them. -/
theorem C22_old_weaker (r : RootObj) (h : validateRoot r false = .ok ()) : validateRoot r true = .ok () := by
  rw [C22_exact] at h ⊢
  obtain ⟨h1, h2, h3, h4, h5, h6⟩ := h
  refine ⟨h1, h2, h3, h4, h5, fun d it hi => ?_⟩
  obtain ⟨g1, g2, g3, g4, g5⟩ := h6 d it hi
  refine ⟨g1, g2, fun t q hm => ?_, (fun h => nomatch h), g5⟩
  obtain ⟨_, dq, vt, e1, e2, e3, e4⟩ := g3 t q hm
  refine ⟨(fun h => nomatch h), dq, vt, e1, e2, e3, fun id hid => ?_⟩
  obtain ⟨f1, td, list, old, x, f2, f3, _⟩ := e4 id hid
  exact ⟨f1, td, list, old, x, f2, f3, fun h => (nomatch h)⟩

/-- the object of the examples of C22 is valid, that with the missing entry is not -/
example : Valid (refRoot "a") false ∧ ¬ Valid (refRoot "b") false :=
  ⟨(C22_exact _ _).1 (by decide +kernel), (C22_refused _ _).1 (by decide +kernel)⟩

/-- an old name that is not declared is refused, also inside of a list -/
example : ¬ Valid ⟨[("l", .mlist (.mk [("in", .milDef (.mk [] ⟨[], false, []⟩ ["x"]) false)] ⟨[], false, []⟩ []) false)], [], []⟩ true := (C22_refused _ _).1 (by decide +kernel)

end Verif.Core
