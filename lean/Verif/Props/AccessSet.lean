import Verif.Props.Access
/-!
# Assigning through the accessor (C71), and that it does not make getters panic (C70)
-/
namespace Verif.Intf
open Core Diff

/-! ## The root -/

theorem readRoot_insert {r : RootObj} {k : String} {p : Param} {vt : VType} (hd : r.defs.get k = some (.param p vt)) (q : Param) (b : Body)
    (hb : ∀ t v, b ≠ .get k t v ∧ b ≠ .getMut k t v) : readRoot { r with sabun := r.sabun.insert k (.param q) } b = readRoot r b := by
  have hne : ∀ n, n ≠ k → (r.sabun.insert k (.param q)).get n = r.sabun.get n := fun n h => AMap.get_insert_ne _ _ h
  have hp : ∀ n, n ≠ k → getRootParam { r with sabun := r.sabun.insert k (.param q) } n = getRootParam r n := by
    intro n h
    unfold getRootParam
    rw [hne n h]
  cases b with
  | get n t v =>
    have : n ≠ k := by rintro rfl; exact (hb t v).1 rfl
    simp only [readRoot, hp n this]
  | getMut n t v =>
    have : n ≠ k := by rintro rfl; exact (hb t v).2 rfl
    simp only [readRoot, hp n this]
  | mlist n u =>
    by_cases h : n = k
    · subst h; simp only [readRoot, hd]
    · simp only [readRoot, hne n h]
  | mlistMut n =>
    by_cases h : n = k
    · subst h; simp only [readRoot, hd]
    · simp only [readRoot, hne n h]
  | _ => rfl

/-- **C71, the root.** After a value that fits has been assigned through the accessor, the getters of the member return it, and every other
function returns what it returned before. The functions are the same as before. -/
theorem C71_root (r : RootObj) (hr : r.defs.Wf) (k : String) (p : Param) (vt : VType) (hm : (k, RootVal.param p vt) ∈ r.defs) (q : Param)
    (hf : Fits p vt q) :
    let r' := writeRoot r (.set k (ptype p) vt) q
    readRoot r' (.get k (ptype p) vt) = .ok (.param q) ∧ readRoot r' (.getMut k (ptype p) vt) = .ok (.param q) ∧
    (∀ b, (∀ t v, b ≠ .get k t v ∧ b ≠ .getMut k t v) → readRoot r' b = readRoot r b) ∧
    r'.defs = r.defs ∧ r'.old = r.old := by
  have hd := AMap.get_of_mem hr hm
  intro r'
  have e : r' = { r with sabun := r.sabun.insert k (.param q) } := setRoot_fits hd hf
  have hg : getRootParam r' k = some q := by
    rw [e]
    unfold getRootParam
    simp only [AMap.get_insert_self]
  refine ⟨?_, ?_, ?_, by rw [e], by rw [e]⟩
  · simp only [readRoot, hg, takeParam_fits hf]
  · simp only [readRoot, hg, takeParam_fits hf]
  · intro b hb
    rw [e]
    exact readRoot_insert hd q b hb

theorem RootOk.insert {r : RootObj} (h : RootOk r) {k : String} {q : Param} (hm : ∀ d u, r.defs.get k ≠ some (.mlist d u))
    (hq : ∀ p vt, r.defs.get k = some (.param p vt) → Fits p vt q) : RootOk { r with sabun := r.sabun.insert k (.param q) } := by
  refine ⟨h.defaults, ?_, ?_⟩
  · intro n p vt q' hd hs
    simp only at hd hs
    by_cases hn : n = k
    · subst hn
      rw [AMap.get_insert_self] at hs
      cases hs
      exact hq p vt hd
    · rw [AMap.get_insert_ne _ _ hn] at hs
      exact h.stored n p vt q' hd hs
  · intro n d u hd
    have hn : n ≠ k := by rintro rfl; exact hm d u hd
    simp only [AMap.get_insert_ne _ _ hn]
    exact h.lists n d u hd

/-- The changes of the operations through a reference keep the type and, where it matters, the nullability of the value. -/
def EditsFit (ops : List Op) : Prop := ∀ n f, Op.edit n f ∈ ops → ∀ p vt q, Fits p vt q → Fits p vt (f q)

theorem initial_fits (p : Param) (vt : VType) (len : Nat) : Fits p vt (toDefaultValue len p) := by
  rw [fits_iff]
  cases p <;> cases vt <;> exact ⟨rfl, rfl⟩

/-- **What ensures that getters of the root do not panic is kept** by every sequence of assignments, resets, changes through references and
requests of lists. -/
theorem C70_run_root (r : RootObj) (h : RootOk r) (ops : List Op) (he : EditsFit ops) : RootOk (runRoot r ops) := by
  induction ops generalizing r with
  | nil => exact h
  | cons op ops ih =>
    have he' : EditsFit ops := fun n f hm => he n f (List.mem_cons_of_mem _ hm)
    cases op with
    | set n q =>
      refine ih _ ?_ he'
      by_cases hx : ∃ p vt, r.defs.get n = some (.param p vt) ∧ Fits p vt q
      · obtain ⟨p, vt, hd, hf⟩ := hx
        rw [setRoot_fits hd hf]
        refine h.insert (by simp [hd]) ?_
        intro p' vt' hd'
        rw [hd] at hd'
        cases hd'
        exact hf
      · rw [(setRoot_refused hx).1]
        exact h
    | initial n len =>
      refine ih _ ?_ he'
      unfold setInitialRoot
      cases hd : r.defs.get n with
      | none => exact h
      | some x =>
        cases x with
        | param p vt =>
          refine h.insert (by simp [hd]) ?_
          intro p' vt' hd'
          rw [hd] at hd'
          cases hd'
          exact initial_fits _ _ _
        | _ => exact h
    | edit n f =>
      refine ih _ ?_ he'
      rw [modifyRoot_eq]
      cases hg : getRootParam r n with
      | none => exact h
      | some q =>
        rw [rootHas_iff] at hg
        refine h.insert ?_ ?_
        · intro d u hd
          obtain ⟨l, hl, _⟩ := h.lists n d u hd
          cases hg with
          | stored hs => rw [hs] at hl; cases hl
          | default _ hd' => rw [hd] at hd'; cases hd'
        · intro p vt hd
          refine he n f List.mem_cons_self p vt q ?_
          cases hg with
          | stored hs => exact h.stored n p vt q hd hs
          | default _ hd' =>
            rw [hd] at hd'
            cases hd'
            exact h.defaults n _ _ hd
    | touch n =>
      refine ih _ ?_ he'
      unfold touchRoot
      cases hd : r.defs.get n with
      | none => exact h
      | some x =>
        cases x with
        | mlist d u =>
          have key : RootOk { r with sabun := r.sabun.insert n (.list (some ([], 0))) } := by
            refine ⟨h.defaults, ?_, ?_⟩
            · intro m p vt q hd' hs
              simp only at hd' hs
              have hm : m ≠ n := by rintro rfl; rw [hd] at hd'; cases hd'
              rw [AMap.get_insert_ne _ _ hm] at hs
              exact h.stored m p vt q hd' hs
            · intro m d' u' hd'
              by_cases hm : m = n
              · subst hm
                exact ⟨some ([], 0), by simp only [AMap.get_insert_self], by simp⟩
              · simp only [AMap.get_insert_ne _ _ hm]
                exact h.lists m d' u' hd'
          cases hs : r.sabun.get n with
          | none => exact key
          | some y =>
            cases y with
            | param q => exact key
            | list l => cases l with
              | none => exact key
              | some l => exact h
        | _ => exact h

/-! ## Items -/

theorem readItem_insert {defs : AMap RootVal} {d : ListDef} {it : Item} {k : String} {p : Param} {vt : VType}
    (hd : d.members.get k = some (.param p vt)) (q : Param) (b : Body) (hb : ∀ t v, b ≠ .get k t v ∧ b ≠ .getMut k t v) :
    readItem defs d (.mk (it.values.insert k (.param q)) it.refs) b = readItem defs d it b := by
  obtain ⟨values, refs⟩ := it
  have hne : ∀ n, n ≠ k → (AMap.insert values k (.param q)).get n = AMap.get values n := fun n h => AMap.get_insert_ne _ _ h
  have hp : ∀ n, n ≠ k → getItemParam d (.mk (AMap.insert values k (.param q)) refs) n = getItemParam d (.mk values refs) n := by
    intro n h
    unfold getItemParam
    simp only [Item.values]
    rw [hne n h]
  simp only [Item.values, Item.refs]
  cases b with
  | get n t v =>
    have : n ≠ k := by rintro rfl; exact (hb t v).1 rfl
    simp only [readItem, hp n this]
  | getMut n t v =>
    have : n ≠ k := by rintro rfl; exact (hb t v).2 rfl
    simp only [readItem, hp n this]
  | cil n =>
    by_cases h : n = k
    · subst h; simp only [readItem, hd]
    · simp only [readItem, Item.values, hne n h]
  | mil n u =>
    by_cases h : n = k
    · subst h; simp only [readItem, hd]
    · simp only [readItem, Item.values, hne n h]
  | milMut n =>
    by_cases h : n = k
    · subst h; simp only [readItem, hd]
    · simp only [readItem, Item.values, hne n h]
  | _ => rfl

/-- **C71, items.** After a value that fits has been assigned to a member of an item through the accessor, the getters of the member return
it, and every other function returns what it returned before.

Partial: a list may not be stored in the place of a parameter (`ParamsOk`; validation ensures it, `C20_validated`); assigning panics then
(`C20_negation_item`). -/
theorem C71_item_partial (defs : AMap RootVal) (d : ListDef) (it : Item) (hw : d.members.Wf) (hi : it.ParamsOk d) (k : String) (p : Param)
    (vt : VType) (hm : (k, DefVal.param p vt) ∈ d.members) (q : Param) (hf : Fits p vt q) :
    ∃ it', writeItem d it (.set k (ptype p) vt) q = .ok it' ∧
      readItem defs d it' (.get k (ptype p) vt) = .ok (.param q) ∧ readItem defs d it' (.getMut k (ptype p) vt) = .ok (.param q) ∧
      (∀ b, (∀ t v, b ≠ .get k t v ∧ b ≠ .getMut k t v) → readItem defs d it' b = readItem defs d it b) ∧
      it'.refs = it.refs ∧ it'.ParamsOk d := by
  have hd := AMap.get_of_mem hw hm
  have hg : getItemParam d (.mk (it.values.insert k (.param q)) it.refs) k = some q := by
    unfold getItemParam
    simp only [Item.values, AMap.get_insert_self]
  refine ⟨.mk (it.values.insert k (.param q)) it.refs, ?_, ?_, ?_, fun b hb => readItem_insert hd q b hb, rfl, ?_⟩
  · have e := setItem_fits (it := it) hd hf
    have : ∃ y, (setItem d it k q).2 = .ok y := by
      unfold setItem
      simp only [hd, show verifySet p vt q = none from (verifySet_none p vt q).2 hf]
      cases hs : it.values.get k with
      | none => exact ⟨_, rfl⟩
      | some x =>
        obtain ⟨o, rfl⟩ := hi k p vt hd x hs
        exact ⟨_, rfl⟩
    obtain ⟨y, hy⟩ := this
    simp only [writeItem, hy, e, Res.map, Res.bind]
  · simp only [readItem, hg, takeParam_fits hf]
  · simp only [readItem, hg, takeParam_fits hf]
  · intro n p' vt' hd' v hv
    simp only [Item.values] at hv
    by_cases hn : n = k
    · subst hn
      rw [AMap.get_insert_self] at hv
      cases hv
      exact ⟨q, rfl⟩
    · rw [AMap.get_insert_ne _ _ hn] at hv
      exact hi n p' vt' hd' v hv

/-- a function that looks at the reference to `t` -/
def LooksAtRef (t : String) (b : Body) : Prop :=
  (∃ v, b = .ref t v) ∨ (∃ v, b = .refId t v) ∨ (∃ ts, b = .getEnum ts) ∨ b = .getEnumIds

/-- **C71, references.** After an entry of the table has been assigned to a reference through the accessor, the getters return the entry and
its id; every function that does not look at this reference returns what it returned before. Null and undefined, where they may be assigned,
are returned likewise. -/
theorem C71_ref (defs : AMap RootVal) (d : ListDef) (it : Item) (t : String) (vt : VType) (q : Qv String) (hf : FitsRef vt q) :
    let it' := writeRef it (.setRef t vt) q
    readItem defs d it' (.refId t vt) = .ok (.id q) ∧
    (∀ id td list old i, q = .val id → defs.get t = some (.table td list old) → list.get id = some i →
      readItem defs d it' (.ref t vt) = .ok (.item (.val (td, i)))) ∧
    (q = .null ∨ q = .undef → ∃ o, readItem defs d it' (.ref t vt) = .ok (.item o) ∧ o.type = q.type) ∧
    (∀ b, ¬ LooksAtRef t b → readItem defs d it' b = readItem defs d it b) ∧
    it'.values = it.values := by
  intro it'
  have hr : RefHas d it' t q := .stored (AMap.get_insert_self _ _ _)
  obtain ⟨h1, _, h3, h4, _⟩ := C70_item_ref defs d it' t q vt hr
  refine ⟨h1 hf, h4, h3 hf, ?_, rfl⟩
  have hne : ∀ n, n ≠ t → getRefId d it' n = getRefId d it n := by
    intro n hn
    unfold getRefId
    simp only [it', writeRef, Core.setRef, Item.refs, AMap.get_insert_ne _ _ hn]
  intro b hb
  obtain ⟨values, refs⟩ := it
  cases b with
  | ref n v =>
    have : n ≠ t := by rintro rfl; exact hb (.inl ⟨v, rfl⟩)
    simp only [readItem, getRef, hne n this]
  | refId n v =>
    have : n ≠ t := by rintro rfl; exact hb (.inr (.inl ⟨v, rfl⟩))
    simp only [readItem, hne n this]
  | getEnum ts => exact absurd (.inr (.inr (.inl ⟨ts, rfl⟩))) hb
  | getEnumIds => exact absurd (.inr (.inr (.inr rfl))) hb
  | get n t' v => rfl
  | getMut n t' v => rfl
  | _ => rfl

/-- **C71, enums.** After an entry of one of the tables has been assigned to an enum through the accessor, `get_enum` returns the entry and
`get_enum_ids` its id; every function of a member returns what it returned before. -/
theorem C71_enum (defs : AMap RootVal) (d : ListDef) (it : Item) (t id : String) (ht : t ∈ d.refs.refs.map (·.1)) (td : ListDef)
    (list : AMap Item) (old : List String) (i : Item) (h1 : defs.get t = some (.table td list old)) (h2 : list.get id = some i) :
    let it' := writeEnum it .setEnum t id
    readItem defs d it' (.getEnum (d.refs.refs.map (·.1))) = .ok (.enum t td i) ∧ readItem defs d it' .getEnumIds = .ok (.ids t id) ∧
    (∀ b, (∀ n, ¬ LooksAtRef n b) → readItem defs d it' b = readItem defs d it b) ∧ it'.values = it.values := by
  intro it'
  have hr : it'.refs = [(t, .val id)] := rfl
  refine ⟨(readEnum_ok hr ht h1 h2).1, (readEnum_ok hr ht h1 h2).2, ?_, rfl⟩
  intro b hb
  obtain ⟨values, refs⟩ := it
  cases b with
  | ref n v => exact absurd (.inl ⟨v, rfl⟩) (hb n)
  | refId n v => exact absurd (.inr (.inl ⟨v, rfl⟩)) (hb n)
  | getEnum ts => exact absurd (.inr (.inr (.inl ⟨ts, rfl⟩))) (hb "")
  | getEnumIds => exact absurd (.inr (.inr (.inr rfl))) (hb "")
  | _ => rfl

/-! ## What assigning keeps of items -/

theorem ItemOk.insert {defs : AMap RootVal} {d : ListDef} {it : Item} (h : ItemOk defs d it) {k : String} {v : SabVal}
    (hp : ∀ p vt, d.members.get k = some (.param p vt) → ∃ q, v = .param q ∧ Fits p vt q) (hl : v ≠ .milNone) :
    ItemOk defs d (.mk (it.values.insert k v) it.refs) := by
  refine ⟨?_, ?_, ?_, ?_, ?_⟩
  · intro n p vt hd w hw
    simp only [Item.values] at hw
    by_cases hn : n = k
    · subst hn
      rw [AMap.get_insert_self] at hw
      cases hw
      obtain ⟨q, rfl, _⟩ := hp p vt hd
      exact ⟨q, rfl⟩
    · rw [AMap.get_insert_ne _ _ hn] at hw
      exact h.params n p vt hd w hw
  · intro n p vt q hd hw
    simp only [Item.values] at hw
    by_cases hn : n = k
    · subst hn
      rw [AMap.get_insert_self] at hw
      cases hw
      obtain ⟨q', e, hf⟩ := hp p vt hd
      cases e
      exact hf
    · rw [AMap.get_insert_ne _ _ hn] at hw
      exact h.values n p vt q hd hw
  · intro n d' u hd hw
    simp only [Item.values] at hw
    by_cases hn : n = k
    · subst hn
      rw [AMap.get_insert_self] at hw
      cases hw
      exact absurd rfl hl
    · rw [AMap.get_insert_ne _ _ hn] at hw
      exact h.lists n d' u hd hw
  · intro he t q0 vt hg q hq
    refine h.refs he t q0 vt hg q ?_
    cases hq with
    | stored hs => exact .stored hs
    | default hs hd => exact .default hs hd
  · exact h.enum

/-- **What ensures that getters of an item do not panic is kept** by every sequence of assignments, resets, changes through references and
requests of lists. -/
theorem C70_run_item (defs : AMap RootVal) (d : ListDef) (it : Item) (hd : DefaultsOk d) (h : ItemOk defs d it) (ops : List Op)
    (he : EditsFit ops) : ItemOk defs d (runItem d it ops) := by
  induction ops generalizing it with
  | nil => exact h
  | cons op ops ih =>
    have he' : EditsFit ops := fun n f hm => he n f (List.mem_cons_of_mem _ hm)
    cases op with
    | set n q =>
      refine ih _ ?_ he'
      by_cases hx : ∃ p vt, d.members.get n = some (.param p vt) ∧ Fits p vt q
      · obtain ⟨p, vt, hg, hf⟩ := hx
        rw [setItem_fits hg hf]
        refine h.insert ?_ (by simp)
        intro p' vt' hd'
        rw [hg] at hd'
        cases hd'
        exact ⟨q, rfl, hf⟩
      · rw [(setItem_refused hx).1]
        exact h
    | initial n len =>
      refine ih _ ?_ he'
      unfold setInitialItem
      cases hg : d.members.get n with
      | none => exact h
      | some x =>
        cases x with
        | param p vt =>
          refine h.insert ?_ (by simp)
          intro p' vt' hd'
          rw [hg] at hd'
          cases hd'
          exact ⟨_, rfl, initial_fits _ _ _⟩
        | _ => exact h
    | edit n f =>
      refine ih _ ?_ he'
      rw [modifyItem_eq]
      cases hg : getItemParam d it n with
      | none => exact h
      | some q =>
        rw [itemHas_iff] at hg
        refine h.insert ?_ (by simp)
        intro p vt hd'
        refine ⟨_, rfl, he n f List.mem_cons_self p vt q ?_⟩
        cases hg with
        | stored hs => exact h.values n p vt q hd' hs
        | default _ hd'' =>
          rw [hd'] at hd''
          cases hd''
          exact hd n _ _ hd'
    | touch n =>
      refine ih _ ?_ he'
      unfold touchMil
      cases hg : d.members.get n with
      | none => exact h
      | some x =>
        cases x with
        | milDef d' u =>
          have key : ItemOk defs d (.mk (it.values.insert n (.mil [] 0)) it.refs) :=
            h.insert (fun p vt hd' => by rw [hg] at hd'; cases hd') (by simp)
          cases hs : it.values.get n with
          | none => exact key
          | some y => cases y with
            | mil items next => exact h
            | _ => exact key
        | _ => exact h

/-- Assigning references that fit and that name entries keeps it as well, and so does assigning an enum. -/
theorem C70_run_refs (defs : AMap RootVal) (d : ListDef) (it : Item) (h : ItemOk defs d it) :
    (∀ t q0 vt q, d.refs.isEnum = false → d.refs.refs.get t = some (q0, vt) → FitsRef vt q → (∀ id, q = .val id → HasEntry defs t id) →
      ItemOk defs d (writeRef it (.setRef t vt) q)) ∧
    (∀ t id, d.refs.isEnum = true → t ∈ d.refs.refs.map (·.1) → HasEntry defs t id → ItemOk defs d (writeEnum it .setEnum t id)) := by
  refine ⟨?_, ?_⟩
  · intro t q0 vt q he hg hf hq
    refine ⟨h.params, h.values, h.lists, ?_, fun h' => by rw [he] at h'; cases h'⟩
    intro _ t' q0' vt' hg' q' hq'
    by_cases ht : t' = t
    · subst ht
      rw [hg] at hg'
      cases hg'
      cases hq' with
      | stored hs =>
        simp only [writeRef, Core.setRef, Item.refs, AMap.get_insert_self, Option.some.injEq] at hs
        subst hs
        exact ⟨hf, hq⟩
      | default hs _ =>
        simp only [writeRef, Core.setRef, Item.refs, AMap.get_insert_self, reduceCtorEq] at hs
    · refine h.refs he t' q0' vt' hg' q' ?_
      cases hq' with
      | stored hs => exact .stored (by simpa only [writeRef, Core.setRef, Item.refs, AMap.get_insert_ne _ _ ht] using hs)
      | default hs hd => exact .default (by simpa only [writeRef, Core.setRef, Item.refs, AMap.get_insert_ne _ _ ht] using hs) hd
  · intro t id he ht hh
    exact ⟨h.params, h.values, h.lists, (fun h' => by rw [he] at h'; cases h'), fun _ => ⟨t, id, rfl, ht, hh⟩⟩

/-! ## The ids of a table -/

/-- **C71, ids of tables.** The ids of a table and the names and numbers of its entries correspond: every id has the name of an entry, the
name and the number lead back to it, and the names that have an id are exactly the names of the entries; other numbers panic. -/
theorem C71_ids (list : AMap Item) (hl : list.Wf) :
    (∀ v, v < list.length → ∃ s i, idToStr (list.map (·.1)) v = .ok s ∧ list.get s = some i ∧ idFromStr (list.map (·.1)) s = some v) ∧
    (∀ v, v < list.length → idFromNum (list.map (·.1)) (idToNum v) = .ok v) ∧
    (∀ s v, idFromStr (list.map (·.1)) s = some v → v < list.length ∧ idToStr (list.map (·.1)) v = .ok s) ∧
    (∀ s, idFromStr (list.map (·.1)) s = none ↔ list.get s = none) ∧
    (∀ n, list.length ≤ n → idFromNum (list.map (·.1)) n = .panic) := by
  have hfrom : ∀ (keys : List String) s v, idFromStr keys s = some v → keys[v]? = some s := by
    intro keys s
    induction keys with
    | nil => intro v h; cases h
    | cons k r ih =>
      intro v h
      simp only [idFromStr] at h
      split at h
      · cases h; subst_vars; rfl
      · obtain ⟨w, hw, rfl⟩ := Option.map_eq_some_iff.1 h
        simpa using ih w hw
  have hto : ∀ (keys : List String), keys.Nodup → ∀ s v, keys[v]? = some s → idFromStr keys s = some v := by
    intro keys
    induction keys with
    | nil => intro _ s v h; simp at h
    | cons k r ih =>
      intro hn s v h
      cases v with
      | zero =>
        simp only [List.getElem?_cons_zero, Option.some.injEq] at h
        simp [idFromStr, h]
      | succ v =>
        simp only [List.getElem?_cons_succ] at h
        have : s ≠ k := by
          rintro rfl
          exact (List.nodup_cons.1 hn).1 (List.mem_of_getElem? h)
        simp only [idFromStr, if_neg this, ih (List.nodup_cons.1 hn).2 s v h, Option.map_some]
  have hnone : ∀ (keys : List String) s, idFromStr keys s = none ↔ s ∉ keys := by
    intro keys s
    induction keys with
    | nil => simp [idFromStr]
    | cons k r ih =>
      simp only [idFromStr]
      split
      · simp_all
      · simp_all
  refine ⟨?_, ?_, ?_, ?_, ?_⟩
  · intro v hv
    have hk : (list.map (·.1))[v]? = some list[v].1 := by simp [hv]
    refine ⟨list[v].1, list[v].2, ?_, AMap.get_of_mem hl (List.getElem_mem hv), hto _ hl _ _ hk⟩
    simp only [idToStr, idToNum, hk]
  · intro v hv
    simp [idFromNum, idToNum, hv]
  · intro s v h
    have hk := hfrom _ _ _ h
    refine ⟨?_, by simp only [idToStr, idToNum, hk]⟩
    by_contra hc
    rw [List.getElem?_eq_none (by simpa using hc)] at hk
    cases hk
  · intro s
    rw [hnone, AMap.get_eq_none]
  · intro n hn
    simp [idFromNum, hn]

/-! ## Examples -/

/-- an object with a nullable and another parameter, a table and a list with a reference and an enum -/
def setRootEx : RootObj := ⟨[("a", .param (.int (.val 0)) .normal), ("b", .param (.string .null) .nullable),
  ("t", .table (.mk [] ⟨[], false, []⟩ []) [("x", .mk [] []), ("y", .mk [("n", .param (.int (.val 3)))] [])] [])], [("a", .param (.int (.val 5)))], []⟩
def setDefEx : ListDef := .mk [("n", .param (.int (.val 1)) .undefiable), ("m", .milDef (.mk [] ⟨[], false, []⟩ []) false)]
  ⟨[("t", .val "x", .normal)], false, []⟩ []
def setEnumEx : ListDef := .mk [] ⟨[("t", .null, .normal)], true, []⟩ []

/-- `C71_root`, `C71_item_partial`, `C71_ref`, `C71_enum` and `C71_ids` apply -/
example : setRootEx.defs.Wf ∧ ("b", RootVal.param (.string .null) .nullable) ∈ setRootEx.defs ∧ Fits (.string .null) .nullable (.string (.val "s")) :=
  ⟨show (setRootEx.defs.map (·.1)).Nodup by decide, by simp [setRootEx], (fits_iff _ _ _).2 ⟨by decide, by decide⟩⟩
example : setDefEx.members.Wf ∧ (Item.mk [("n", .param (.int .undef))] []).ParamsOk setDefEx ∧ Fits (.int (.val 1)) .undefiable (.int .undef) := by
  refine ⟨show (setDefEx.members.map (·.1)).Nodup by decide, ?_, (fits_iff _ _ _).2 ⟨by decide, by decide⟩⟩
  intro k p vt hk v hv
  by_cases h : k = "n"
  · subst h; simp [Item.values, AMap.get] at hv; exact ⟨_, hv.symm⟩
  · simp [Item.values, AMap.get, h] at hv
example : FitsRef .normal (.val "y") ∧ "t" ∈ setEnumEx.refs.refs.map (·.1) := ⟨by simp [FitsRef], by decide⟩
example : (match setRootEx.defs.get "t" with
    | some (.table _ list _) => decide (list.map (·.1)).Nodup && decide (idFromStr (list.map (·.1)) "y" = some 1)
    | _ => false) = true := by decide +kernel
/-- what the functions return -/
example : (match readRoot (writeRoot setRootEx (.set "b" .string .nullable) (.string (.val "s"))) (.get "b" .string .nullable) with
    | .ok (.param (.string (.val s))) => s == "s"
    | _ => false) = true := by decide +kernel
example : (match readItem setRootEx.defs setEnumEx (writeEnum (.mk [] []) .setEnum "t" "y") (.getEnum ["t"]) with
    | .ok (.enum t _ (.mk [("n", .param (.int (.val i)))] [])) => t == "t" && i == 3
    | _ => false) = true := by decide +kernel
/-- `C70_run_root`: the object is as required, and there are changes that fit -/
example : RootOk setRootEx := by
  refine ⟨?_, ?_, ?_⟩
  · intro k p vt h
    have := AMap.mem_of_get h
    simp only [setRootEx, List.mem_cons, Prod.mk.injEq, RootVal.param.injEq, reduceCtorEq, and_false, List.not_mem_nil, or_false] at this
    rcases this with ⟨_, rfl, rfl⟩ | ⟨_, rfl, rfl⟩ <;> exact (fits_iff _ _ _).2 ⟨by decide, by decide⟩
  · intro k p vt q h hs
    by_cases hk : k = "a"
    · subst hk
      simp [setRootEx, AMap.get] at h hs
      obtain ⟨rfl, rfl⟩ := h
      subst hs
      exact (fits_iff _ _ _).2 ⟨by decide, by decide⟩
    · simp [setRootEx, AMap.get, hk] at hs
  · intro k d u h
    have := AMap.mem_of_get h
    simp [setRootEx] at this
example : EditsFit [.set "a" (.int (.val 2)), .edit "b" fun q => match q with | .string (.val _) => .string (.val "x") | q => q] := by
  intro n f hm p vt q hf
  simp only [List.mem_cons, reduceCtorEq, Op.edit.injEq, List.not_mem_nil, or_false, false_or] at hm
  obtain ⟨_, rfl⟩ := hm
  simp only
  split
  · rw [fits_iff] at hf ⊢
    exact hf
  · exact hf

end Verif.Intf
