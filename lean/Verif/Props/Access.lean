import Verif.Props.AccessFns
import Verif.Props.Validate
/-!
# Reading and assigning through the accessor (C70, C71)
-/
namespace Verif.Intf
open Core Diff

/-! ## The present values -/

theorem rootHas_iff (r : RootObj) (k : String) (q : Param) : getRootParam r k = some q ↔ RootHas r k q := by
  unfold getRootParam
  constructor
  · intro h
    cases hs : r.sabun.get k with
    | some x =>
      rw [hs] at h
      cases x with
      | param q' =>
        cases h
        exact .stored hs
      | list l =>
        cases hd : r.defs.get k with
        | none => rw [hd] at h; cases h
        | some v =>
          rw [hd] at h
          cases v with
          | param p vt => cases h; exact .default (fun q => by rw [hs]; simp) hd
          | _ => cases h
    | none =>
      rw [hs] at h
      cases hd : r.defs.get k with
      | none => rw [hd] at h; cases h
      | some v =>
        rw [hd] at h
        cases v with
        | param p vt => cases h; exact .default (fun q => by rw [hs]; simp) hd
        | _ => cases h
  · intro h
    cases h with
    | stored h => rw [h]
    | default h1 h2 =>
      rw [h2]
      cases hs : r.sabun.get k with
      | none => rfl
      | some x =>
        cases x with
        | param q' => exact absurd hs (h1 q')
        | list l => rfl

theorem itemHas_iff (d : ListDef) (it : Item) (k : String) (q : Param) : getItemParam d it k = some q ↔ ItemHas d it k q := by
  unfold getItemParam
  constructor
  · intro h
    cases hs : it.values.get k with
    | none =>
      rw [hs] at h
      cases hd : d.members.get k with
      | none => rw [hd] at h; cases h
      | some v =>
        rw [hd] at h
        cases v with
        | param p vt => cases h; exact .default (fun q => by rw [hs]; simp) hd
        | _ => cases h
    | some x =>
      rw [hs] at h
      cases x with
      | param q' =>
        cases h
        exact .stored hs
      | _ =>
        cases hd : d.members.get k with
        | none => rw [hd] at h; cases h
        | some v =>
          rw [hd] at h
          cases v with
          | param p vt => cases h; exact .default (fun q => by rw [hs]; simp) hd
          | _ => cases h
  · intro h
    cases h with
    | stored h => rw [h]
    | default h1 h2 =>
      rw [h2]
      cases hs : it.values.get k with
      | none => rfl
      | some x =>
        cases x with
        | param q' => exact absurd hs (h1 q')
        | _ => rfl

theorem refHas_iff (d : ListDef) (it : Item) (t : String) (q : Qv String) : getRefId d it t = some q ↔ RefHas d it t q := by
  unfold getRefId
  constructor
  · intro h
    cases hs : it.refs.get t with
    | some x => rw [hs] at h; cases h; exact .stored hs
    | none =>
      rw [hs] at h
      cases hd : d.refs.refs.get t with
      | none => rw [hd] at h; cases h
      | some v => rw [hd] at h; cases h; exact .default hs hd
  · intro h
    cases h with
    | stored h => rw [h]
    | default h1 h2 => rw [h1, h2]; rfl

theorem unwraps_eq (vt : VType) (t : QvType) : unwraps vt t = varAcceptable vt t := by cases vt <;> cases t <;> rfl

theorem takeParam_fits {p q : Param} {vt : VType} (h : Fits p vt q) : takeParam (ptype p) vt (some q) = .ok (.param q) := by
  have h := (fits_iff p vt q).1 h
  unfold takeParam
  simp only [unwraps_eq, h.2, if_true]
  rw [if_pos (by simpa [paramAcceptable] using Eq.symm (of_decide_eq_true h.1))]

theorem takeParam_not {p q : Param} {vt : VType} (h : ¬ Fits p vt q) : takeParam (ptype p) vt (some q) = .panic := by
  rw [fits_iff] at h
  unfold takeParam
  simp only [unwraps_eq]
  by_cases h1 : ptype q = ptype p
  · rw [if_pos h1, if_neg]
    intro h2
    exact h ⟨by simp [paramAcceptable, h1], h2⟩
  · rw [if_neg h1]

theorem fitsRef_iff (vt : VType) (q : Qv String) : FitsRef vt q ↔ varAcceptable vt q.type = true := by
  rw [varAcceptable_iff]
  unfold FitsRef
  cases q <;> simp [Qv.type]

/-! ## The root -/

/-- **The getters of a parameter, exactly.** They return the present value if it fits the declaration, and panic otherwise; the getter of the
default likewise. -/
theorem C70_root_value (r : RootObj) (hr : r.defs.Wf) (k : String) (p : Param) (vt : VType) (hm : (k, RootVal.param p vt) ∈ r.defs) :
    ∃ q, RootHas r k q ∧
      (Fits p vt q → readRoot r (.get k (ptype p) vt) = .ok (.param q) ∧ readRoot r (.getMut k (ptype p) vt) = .ok (.param q)) ∧
      (¬ Fits p vt q → readRoot r (.get k (ptype p) vt) = .panic ∧ readRoot r (.getMut k (ptype p) vt) = .panic) ∧
      (Fits p vt p → readRoot r (.getDef k (ptype p) vt) = .ok (.param p)) ∧
      (¬ Fits p vt p → readRoot r (.getDef k (ptype p) vt) = .panic) := by
  have hd := AMap.get_of_mem hr hm
  have hdef : getRootParamDef r k = some p := by unfold getRootParamDef; rw [hd]
  obtain ⟨q, hq⟩ : ∃ q, getRootParam r k = some q := by
    unfold getRootParam
    rw [hd]
    cases r.sabun.get k with
    | none => exact ⟨_, rfl⟩
    | some x => cases x <;> exact ⟨_, rfl⟩
  refine ⟨q, (rootHas_iff r k q).1 hq, ?_⟩
  simp only [readRoot, hq, hdef]
  exact ⟨fun h => ⟨takeParam_fits h, takeParam_fits h⟩, fun h => ⟨takeParam_not h, takeParam_not h⟩, takeParam_fits, takeParam_not⟩

/-- **The getters of lists, exactly.** Tables and constant lists are always found. A mutable list is read as stored; the getter panics if no
list is stored, and if the list is undefined though it may not be. `*_mut` always finds a list. -/
theorem C70_root_lists (r : RootObj) (hr : r.defs.Wf) :
    (∀ k d list old, (k, RootVal.table d list old) ∈ r.defs → readRoot r (.table k) = .ok (.table d list)) ∧
    (∀ k d list, (k, RootVal.clist d list) ∈ r.defs → readRoot r (.clist k) = .ok (.clist d list)) ∧
    (∀ k d u, (k, RootVal.mlist d u) ∈ r.defs →
      (∀ l, r.sabun.get k = some (.list (some l)) → readRoot r (.mlist k u) = .ok (.mlist d (some l.1)) ∧
        readRoot r (.mlistMut k) = .ok (.mlist d (some l.1))) ∧
      (r.sabun.get k = some (.list none) → readRoot r (.mlist k u) = if u then .ok (.mlist d none) else .panic) ∧
      ((∀ l, r.sabun.get k ≠ some (.list l)) → readRoot r (.mlist k u) = .panic) ∧
      readRoot r (.mlistMut k) ≠ .panic) := by
  refine ⟨?_, ?_, ?_⟩
  · intro k d list old hm
    simp only [readRoot, AMap.get_of_mem hr hm]
  · intro k d list hm
    simp only [readRoot, AMap.get_of_mem hr hm]
  · intro k d u hm
    simp only [readRoot, AMap.get_of_mem hr hm]
    refine ⟨?_, ?_, ?_, ?_⟩
    · intro l h
      simp only [h]
      exact ⟨trivial, trivial⟩
    · intro h
      simp only [h]
    · intro h
      cases hs : r.sabun.get k with
      | none => rfl
      | some x =>
        cases x with
        | param q => rfl
        | list l => exact absurd hs (h l)
    · cases hs : r.sabun.get k with
      | none => simp
      | some x =>
        cases x with
        | param q => simp
        | list l => cases l <;> simp

/-- **C70, the root.** If the parameters and their defaults fit their declarations and every mutable list is stored, no function of the
root panics.

Partial: the conditions (`RootOk`) are not ensured by validation; see the negations in `Props/AccessPanic.lean`. -/
theorem C70_root_partial (r : RootObj) (hm : r.defs.Wf) (hr : RootOk r) (n : List Char) (b : Body) (h : RootFn r n b) :
    readRoot r b ≠ .panic := by
  cases h with
  | @param k p vt _ _ hk hf =>
    have hd := AMap.get_of_mem hm hk
    obtain ⟨q, hq, h1, -, h2, -⟩ := C70_root_value r hm k p vt hk
    have hq : Fits p vt q := by
      cases hq with
      | stored h => exact hr.stored k p vt q hd h
      | default _ h =>
        rw [hd] at h
        cases h
        exact hr.defaults k _ _ hd
    cases hf with
    | get => rw [(h1 hq).1]; simp
    | getMut _ _ => rw [(h1 hq).2]; simp
    | default => rw [h2 (hr.defaults k p vt hd)]; simp
    | set _ => simp [readRoot]
  | table hk => rw [(C70_root_lists r hm).1 _ _ _ _ hk]; simp
  | clist hk => rw [(C70_root_lists r hm).2.1 _ _ _ hk]; simp
  | @mlist k d u hk =>
    obtain ⟨h1, h2, _, _⟩ := (C70_root_lists r hm).2.2 _ _ _ hk
    obtain ⟨l, hl, hu⟩ := hr.lists k d u (AMap.get_of_mem hm hk)
    cases l with
    | none => rw [h2 hl, hu rfl]; simp
    | some l => rw [(h1 l hl).1]; simp
  | mlistMut hk => exact ((C70_root_lists r hm).2.2 _ _ _ hk).2.2.2

/-! ## Items -/

/-- **The getters of a parameter of an item, exactly.** -/
theorem C70_item_value (defs : AMap RootVal) (d : ListDef) (it : Item) (hd : d.members.Wf) (k : String) (p : Param) (vt : VType)
    (hm : (k, DefVal.param p vt) ∈ d.members) :
    ∃ q, ItemHas d it k q ∧
      (Fits p vt q → readItem defs d it (.get k (ptype p) vt) = .ok (.param q) ∧ readItem defs d it (.getMut k (ptype p) vt) = .ok (.param q)) ∧
      (¬ Fits p vt q → readItem defs d it (.get k (ptype p) vt) = .panic ∧ readItem defs d it (.getMut k (ptype p) vt) = .panic) ∧
      (Fits p vt p → readItem defs d it (.getDef k (ptype p) vt) = .ok (.param p)) ∧
      (¬ Fits p vt p → readItem defs d it (.getDef k (ptype p) vt) = .panic) := by
  have hg := AMap.get_of_mem hd hm
  have hdef : getItemParamDef d k = some p := by unfold getItemParamDef; rw [hg]
  obtain ⟨q, hq⟩ : ∃ q, getItemParam d it k = some q := by
    unfold getItemParam
    rw [hg]
    cases it.values.get k with
    | none => exact ⟨_, rfl⟩
    | some x => cases x <;> exact ⟨_, rfl⟩
  refine ⟨q, (itemHas_iff d it k q).1 hq, ?_⟩
  simp only [readItem, hq, hdef]
  exact ⟨fun h => ⟨takeParam_fits h, takeParam_fits h⟩, fun h => ⟨takeParam_not h, takeParam_not h⟩, takeParam_fits, takeParam_not⟩

/-- **The getters of lists in items, exactly.** A list that is not stored is read as an empty one. -/
theorem C70_item_lists (defs : AMap RootVal) (d : ListDef) (it : Item) (hd : d.members.Wf) :
    (∀ k d', (k, DefVal.cilDef d') ∈ d.members →
      (∀ items, it.values.get k = some (.cil items) → readItem defs d it (.cil k) = .ok (.clist d' items)) ∧
      ((∀ items, it.values.get k ≠ some (.cil items)) → readItem defs d it (.cil k) = .ok (.clist d' []))) ∧
    (∀ k d' u, (k, DefVal.milDef d' u) ∈ d.members →
      (∀ items next, it.values.get k = some (.mil items next) → readItem defs d it (.mil k u) = .ok (.mlist d' (some items)) ∧
        readItem defs d it (.milMut k) = .ok (.mlist d' (some items))) ∧
      (it.values.get k = some .milNone → readItem defs d it (.mil k u) = (if u then .ok (.mlist d' none) else .panic) ∧
        readItem defs d it (.milMut k) = .ok (.mlist d' (some []))) ∧
      ((∀ items next, it.values.get k ≠ some (.mil items next)) → it.values.get k ≠ some .milNone →
        readItem defs d it (.mil k u) = .ok (.mlist d' (some [])) ∧ readItem defs d it (.milMut k) = .ok (.mlist d' (some [])))) := by
  refine ⟨?_, ?_⟩
  · intro k d' hm
    simp only [readItem, AMap.get_of_mem hd hm]
    refine ⟨fun items h => by simp only [h], fun h => ?_⟩
    cases hs : it.values.get k with
    | none => rfl
    | some x => cases x with
      | cil items => exact absurd hs (h items)
      | _ => rfl
  · intro k d' u hm
    simp only [readItem, AMap.get_of_mem hd hm]
    refine ⟨fun items next h => by simp only [h]; exact ⟨trivial, trivial⟩, fun h => by simp only [h]; exact ⟨trivial, trivial⟩, fun h1 h2 => ?_⟩
    cases hs : it.values.get k with
    | none => exact ⟨rfl, rfl⟩
    | some x => cases x with
      | mil items next => exact absurd hs (h1 items next)
      | milNone => exact absurd hs h2
      | _ => exact ⟨rfl, rfl⟩

/-- **The getters of a reference, exactly.** The id is returned if it fits. The entry of the table is returned if the table has it; if the
id fits but the entry is missing, the getter panics. -/
theorem C70_item_ref (defs : AMap RootVal) (d : ListDef) (it : Item) (t : String) (q : Qv String) (vt : VType) (h : RefHas d it t q) :
    (FitsRef vt q → readItem defs d it (.refId t vt) = .ok (.id q)) ∧
    (¬ FitsRef vt q → readItem defs d it (.refId t vt) = .panic) ∧
    (FitsRef vt q → q = .null ∨ q = .undef → ∃ o, readItem defs d it (.ref t vt) = .ok (.item o) ∧ o.type = q.type) ∧
    (∀ id td list old i, q = .val id → defs.get t = some (.table td list old) → list.get id = some i →
      readItem defs d it (.ref t vt) = .ok (.item (.val (td, i)))) ∧
    (∀ id, q = .val id → ¬ HasEntry defs t id → readItem defs d it (.ref t vt) = .panic) ∧
    (¬ FitsRef vt q → readItem defs d it (.ref t vt) = .panic) := by
  have hq := (refHas_iff d it t q).2 h
  rw [fitsRef_iff]
  simp only [readItem, hq, getRef, unwraps_eq]
  refine ⟨fun h => by simp [h], fun h => by simp [h], ?_, ?_, ?_, ?_⟩
  · rintro hf (rfl | rfl)
    · exact ⟨.null, by cases vt <;> first | rfl | exact absurd hf (by simp [varAcceptable, Qv.type]), rfl⟩
    · exact ⟨.undef, by cases vt <;> first | rfl | exact absurd hf (by simp [varAcceptable, Qv.type]), rfl⟩
  · rintro id td list old i rfl h1 h2
    have : varAcceptable vt .val = true := by cases vt <;> rfl
    simp only [h1, h2, Option.map_some, Res.bind, Qv.type, this, if_true]
  · rintro id rfl hn
    cases hd : defs.get t with
    | none => rfl
    | some v =>
      cases v with
      | table td list old =>
        cases hl : list.get id with
        | none => simp only [hl, Option.map_none, Res.bind]
        | some i => exact absurd ⟨td, list, old, i, hd, hl⟩ hn
      | _ => rfl
  · intro hn
    cases q with
    | val id => exact absurd (show varAcceptable vt .val = true by cases vt <;> rfl) hn
    | null => cases vt <;> first | rfl | exact absurd rfl hn
    | undef => cases vt <;> first | rfl | exact absurd rfl hn

theorem readEnum_ok {defs : AMap RootVal} {d : ListDef} {it : Item} {t id : String} (h : it.refs = [(t, .val id)])
    (ht : t ∈ d.refs.refs.map (·.1)) {td : ListDef} {list : AMap Item} {old : List String} {i : Item}
    (h1 : defs.get t = some (.table td list old)) (h2 : list.get id = some i) :
    readItem defs d it (.getEnum (d.refs.refs.map (·.1))) = .ok (.enum t td i) ∧ readItem defs d it .getEnumIds = .ok (.ids t id) := by
  have he : Core.getEnum it = some (t, id) := by unfold Core.getEnum; rw [h]; rfl
  have hr : getRefId d it t = some (.val id) := by
    unfold getRefId
    rw [h]
    simp [AMap.get]
  simp only [readItem, he, getRef, hr, h1, h2, Option.map_some, Res.bind]
  rw [if_pos ht]
  exact ⟨rfl, trivial⟩

/-- **C70, items.** If what is stored in an item fits its definition, and the defaults fit, no function of the item panics.

Partial: validation does not ensure the conditions; see the negations in `Props/AccessPanic.lean`. -/
theorem C70_item_partial (defs : AMap RootVal) (d : ListDef) (it : Item) (hm : d.members.Wf) (hr : d.refs.refs.Wf) (hd : DefaultsOk d)
    (hi : ItemOk defs d it) (isMut : Bool) (n : List Char) (b : Body) (h : ItemFn isMut d n b) : readItem defs d it b ≠ .panic := by
  cases h with
  | @param k p vt _ _ hk hf =>
    have hg := AMap.get_of_mem hm hk
    obtain ⟨q, hq, h1, -, h2, -⟩ := C70_item_value defs d it hm k p vt hk
    have hq : Fits p vt q := by
      cases hq with
      | stored h => exact hi.values k p vt q hg h
      | default _ h =>
        rw [hg] at h
        cases h
        exact hd k _ _ hg
    cases hf with
    | get => rw [(h1 hq).1]; simp
    | getMut _ _ => rw [(h1 hq).2]; simp
    | default => rw [h2 (hd k p vt hg)]; simp
    | set _ => simp [readItem]
  | @cil k d' _ hk =>
    obtain ⟨h1, h2⟩ := (C70_item_lists defs d it hm).1 k d' hk
    by_cases h : ∃ items, it.values.get k = some (.cil items)
    · obtain ⟨items, h⟩ := h
      rw [h1 items h]; simp
    · rw [h2 (fun items hi => h ⟨items, hi⟩)]; simp
  | @mil k d' u _ hk =>
    obtain ⟨h1, h2, h3⟩ := (C70_item_lists defs d it hm).2 k d' u hk
    by_cases h : ∃ items next, it.values.get k = some (.mil items next)
    · obtain ⟨items, next, h⟩ := h
      rw [(h1 items next h).1]; simp
    · by_cases hn : it.values.get k = some .milNone
      · rw [(h2 hn).1, hi.lists k d' u (AMap.get_of_mem hm hk) hn]; simp
      · rw [(h3 (fun items next hi => h ⟨items, next, hi⟩) hn).1]; simp
  | @milMut k d' u _ hk =>
    obtain ⟨h1, h2, h3⟩ := (C70_item_lists defs d it hm).2 k d' u hk
    by_cases h : ∃ items next, it.values.get k = some (.mil items next)
    · obtain ⟨items, next, h⟩ := h
      rw [(h1 items next h).2]; simp
    · by_cases hn : it.values.get k = some .milNone
      · rw [(h2 hn).2]; simp
      · rw [(h3 (fun items next hi => h ⟨items, next, hi⟩) hn).2]; simp
  | ref h =>
    have hex : ∀ t q0 vt, d.refs.refs.get t = some (q0, vt) → ∃ q, RefHas d it t q := by
      intro t q0 vt hg
      cases hs : it.refs.get t with
      | some q => exact ⟨q, .stored hs⟩
      | none => exact ⟨q0, .default hs hg⟩
    cases h with
    | @ref t q0 vt he hk =>
      have hg := AMap.get_of_mem hr hk
      obtain ⟨q, hq⟩ := hex t q0 vt hg
      obtain ⟨hf, hh⟩ := hi.refs he t q0 vt hg q hq
      obtain ⟨_, _, h3, h4, _⟩ := C70_item_ref defs d it t q vt hq
      cases q with
      | val id =>
        obtain ⟨td, list, old, i, e1, e2⟩ := hh id rfl
        rw [h4 id td list old i rfl e1 e2]; simp
      | null => obtain ⟨o, ho, _⟩ := h3 hf (.inl rfl); rw [ho]; simp
      | undef => obtain ⟨o, ho, _⟩ := h3 hf (.inr rfl); rw [ho]; simp
    | @refId t q0 vt he hk =>
      have hg := AMap.get_of_mem hr hk
      obtain ⟨q, hq⟩ := hex t q0 vt hg
      obtain ⟨hf, _⟩ := hi.refs he t q0 vt hg q hq
      rw [(C70_item_ref defs d it t q vt hq).1 hf]; simp
    | set _ _ _ => simp [readItem]
    | enum he =>
      obtain ⟨t, id, h1, h2, td, list, old, i, h3, h4⟩ := hi.enum he
      rw [(readEnum_ok h1 h2 h3 h4).1]; simp
    | enumIds he =>
      obtain ⟨t, id, h1, h2, td, list, old, i, h3, h4⟩ := hi.enum he
      rw [(readEnum_ok h1 h2 h3 h4).2]; simp
    | setEnum _ _ => simp [readItem]

/-- The functions of a table find their entries. -/
theorem C70_table (d : ListDef) (list : AMap Item) (hl : list.Wf) (old : List String) (n : List Char) (b : Body)
    (h : TableFn list old n b) : ∃ id i, (id, i) ∈ list ∧ readTable list d b = .ok (.item (.val (d, i))) := by
  cases h with
  | @entry id i hm => exact ⟨id, i, hm, by simp only [readTable, AMap.get_of_mem hl hm]⟩
  | @entryUs id i hm => exact ⟨id, i, hm, by simp only [readTable, AMap.get_of_mem hl hm]⟩

end Verif.Intf
