import Verif.Model.DiffPrepare
import Verif.Model.DiffApply
import Verif.Spec.Diff
/-! Applying the diff of an item gives the new item. -/
namespace Verif.Diff
open VarInt Codec Compaction LinkedMap

/-! ## Collected members -/

theorem mem_collect {β : Type} {n : Nat} {f : Nat → Option β} {x : Nat × β} : x ∈ collect n f ↔ x.1 < n ∧ f x.1 = some x.2 := by
  obtain ⟨i, b⟩ := x
  simp only [collect, List.mem_filterMap, List.mem_range, Option.map_eq_some_iff, Prod.mk.injEq]
  constructor
  · rintro ⟨j, hj, c, hc, rfl, rfl⟩; exact ⟨hj, hc⟩
  · rintro ⟨hi, hb⟩; exact ⟨i, hi, b, hb, rfl, rfl⟩

theorem mem_collect_keys {β : Type} {n : Nat} {f : Nat → Option β} {i : Nat} :
    i ∈ (collect n f).map (·.1) ↔ i < n ∧ f i ≠ none := by
  constructor
  · intro h
    obtain ⟨x, hx, rfl⟩ := List.mem_map.mp h
    have := mem_collect.mp hx
    exact ⟨this.1, by rw [this.2]; simp⟩
  · rintro ⟨hi, hb⟩
    obtain ⟨b, hb⟩ := Option.ne_none_iff_exists'.mp hb
    exact List.mem_map.mpr ⟨(i, b), mem_collect.mpr ⟨hi, hb⟩, rfl⟩

theorem collect_sorted {β : Type} (n : Nat) (f : Nat → Option β) : ((collect n f).map (·.1)).Pairwise (· < ·) := by
  rw [List.pairwise_map]
  unfold collect
  rw [List.pairwise_filterMap]
  refine (List.pairwise_lt_range (n := n)).imp ?_
  intro a b hab x hx y hy
  simp only [Option.map_eq_some_iff] at hx hy
  obtain ⟨_, _, rfl⟩ := hx
  obtain ⟨_, _, rfl⟩ := hy
  exact hab

theorem collect_nodup {β : Type} (n : Nat) (f : Nat → Option β) : ((collect n f).map (·.1)).Nodup :=
  (collect_sorted n f).imp fun h => Nat.ne_of_lt h

theorem collect_length_le {β : Type} (n : Nat) (f : Nat → Option β) : (collect n f).length ≤ n := by
  unfold collect
  exact Nat.le_trans (List.length_filterMap_le ..) (by simp)

theorem collect_nil {β : Type} {n : Nat} {f : Nat → Option β} : (collect n f).length = 0 ↔ ∀ i, i < n → f i = none := by
  constructor
  · intro h i hi
    cases hf : f i with
    | none => rfl
    | some b =>
      have := (mem_collect (x := (i, b))).mpr ⟨hi, hf⟩
      rw [List.length_eq_zero_iff.mp h] at this
      cases this
  · intro h
    rw [List.length_eq_zero_iff]
    refine List.eq_nil_iff_forall_not_mem.mpr ?_
    intro x hx
    have := mem_collect.mp hx
    rw [h _ this.1] at this
    cases this.2

theorem entry_lt {α : Type} {l : List (Option α)} {i : Nat} {a : α} (h : entry l i = some a) : i < l.length := by
  unfold entry at h
  cases hl : l[i]? with
  | none => rw [hl] at h; cases h
  | some b => exact (List.getElem?_eq_some_iff.mp hl).1

theorem entry_ext {α : Type} {a b : List (Option α)} (hlen : a.length = b.length) (h : ∀ i, entry a i = entry b i) : a = b := by
  refine List.ext_getElem? fun i => ?_
  have := h i
  unfold entry at this
  cases ha : a[i]? with
  | none =>
    have := List.getElem?_eq_none_iff.mp ha
    exact (List.getElem?_eq_none_iff.mpr (by omega)).symm
  | some x =>
    have hi := (List.getElem?_eq_some_iff.mp ha).1
    have hb : b[i]? = some b[i] := List.getElem?_eq_getElem (by omega)
    rw [ha, hb] at this
    rw [hb]
    exact congrArg some this

theorem entry_set {α : Type} (l : List (Option α)) (i j : Nat) (a : α) (h : i < l.length) :
    entry (l.set i (some a)) j = if j = i then some a else entry l j := by
  unfold entry
  by_cases hji : j = i
  · subst hji; rw [if_pos rfl, List.getElem?_set_self h]; rfl
  · rw [if_neg hji, List.getElem?_set_ne (Ne.symm hji)]

/-! ## A loop that sets members -/

theorem loop_spec {β γ : Type} (loop : List (Nat × β) → List (Option γ) → Res (List (Option γ)))
    (G : Nat → β → Option γ → γ → Prop) (h0 : ∀ v, loop [] v = .ok v)
    (h1 : ∀ id d rest v c, G id d (entry v id) c → loop ((id, d) :: rest) v = loop rest (v.set id (some c)))
    (P : Nat → γ → Prop) (ls : List (Nat × β)) (v : List (Option γ)) (hnd : (ls.map (·.1)).Nodup)
    (h : ∀ x ∈ ls, x.1 < v.length ∧ ∃ c, G x.1 x.2 (entry v x.1) c ∧ P x.1 c) :
    ∃ w, loop ls v = .ok w ∧ w.length = v.length ∧ (∀ i ∈ ls.map (·.1), ∃ c, entry w i = some c ∧ P i c) ∧
      ∀ i, i ∉ ls.map (·.1) → entry w i = entry v i := by
  induction ls generalizing v with
  | nil => exact ⟨v, h0 v, rfl, (fun i hi => nomatch hi), fun _ _ => rfl⟩
  | cons x ls ih =>
    obtain ⟨id, d⟩ := x
    obtain ⟨hlt, c, hG, hP⟩ := h (id, d) (by simp)
    rw [List.map_cons, List.nodup_cons] at hnd
    obtain ⟨w, hw, hlen, hin, hout⟩ := ih (v.set id (some c)) hnd.2 (by
      intro y hy
      obtain ⟨hy1, cy, hGy, hPy⟩ := h y (by simp [hy])
      have hne : y.1 ≠ id := by
        intro he
        exact hnd.1 (List.mem_map.mpr ⟨y, hy, he⟩)
      refine ⟨by simpa using hy1, cy, ?_, hPy⟩
      rw [entry_set _ _ _ _ hlt, if_neg hne]
      exact hGy)
    refine ⟨w, by rw [h1 id d ls v c hG]; exact hw, by simpa using hlen, ?_, ?_⟩
    · intro i hi
      by_cases hil : i ∈ ls.map (·.1)
      · exact hin i hil
      · have : i = id := by simpa [hil] using hi
        subst this
        refine ⟨c, ?_, hP⟩
        rw [hout i hil, entry_set _ _ _ _ hlt, if_pos rfl]
    · intro i hi
      have hi' : i ≠ id ∧ i ∉ ls.map (·.1) := by simpa using hi
      rw [hout i hi'.2, entry_set _ _ _ _ hlt, if_neg hi'.1]

section
variable {S X D : Type}

theorem applyParams_spec (cols : List (Option (Col S))) (P : Nat → Cell X → Prop) (ps : List (Nat × Param))
    (v : List (Option (Cell X))) (hnd : (ps.map (·.1)).Nodup)
    (h : ∀ x ∈ ps, x.1 < v.length ∧ entry cols x.1 ≠ none ∧ P x.1 (.param x.2)) :
    ∃ w, applyParams cols ps v = .ok w ∧ w.length = v.length ∧ (∀ i ∈ ps.map (·.1), ∃ c, entry w i = some c ∧ P i c) ∧
      ∀ i, i ∉ ps.map (·.1) → entry w i = entry v i := by
  refine loop_spec (applyParams cols) (fun id p _ c => entry cols id ≠ none ∧ c = .param p) (fun _ => rfl) ?_ P ps v hnd ?_
  · rintro id p rest v c ⟨hne, rfl⟩
    obtain ⟨col, hc⟩ := Option.ne_none_iff_exists'.mp hne
    simp only [applyParams, hc]
  · intro x hx
    obtain ⟨a, b, c⟩ := h x hx
    exact ⟨a, _, ⟨b, rfl⟩, c⟩

theorem applyRootParams_spec (cols : List (Option (Col S))) (P : Nat → Cell X → Prop) (ps : List (Nat × Param))
    (v : List (Option (Cell X))) (hnd : (ps.map (·.1)).Nodup)
    (h : ∀ x ∈ ps, x.1 < v.length ∧ entry cols x.1 ≠ none ∧ P x.1 (.param x.2)) :
    ∃ w, applyRootParams cols ps v = .ok w ∧ w.length = v.length ∧ (∀ i ∈ ps.map (·.1), ∃ c, entry w i = some c ∧ P i c) ∧
      ∀ i, i ∉ ps.map (·.1) → entry w i = entry v i := by
  refine loop_spec (applyRootParams cols) (fun id p _ c => entry cols id ≠ none ∧ c = .param p) (fun _ => rfl) ?_ P ps v hnd ?_
  · rintro id p rest v c ⟨hne, rfl⟩
    obtain ⟨col, hc⟩ := Option.ne_none_iff_exists'.mp hne
    simp only [applyRootParams, hc]
  · intro x hx
    obtain ⟨a, b, c⟩ := h x hx
    exact ⟨a, _, ⟨b, rfl⟩, c⟩

theorem applyRefs_spec (metas : List VType) (P : Nat → Qv String → Prop) (ps : List (Nat × Qv String))
    (v : List (Option (Qv String))) (hnd : (ps.map (·.1)).Nodup)
    (h : ∀ x ∈ ps, x.1 < v.length ∧ metas[x.1]? ≠ none ∧ P x.1 x.2) :
    ∃ w, applyRefs metas ps v = .ok w ∧ w.length = v.length ∧ (∀ i ∈ ps.map (·.1), ∃ c, entry w i = some c ∧ P i c) ∧
      ∀ i, i ∉ ps.map (·.1) → entry w i = entry v i := by
  refine loop_spec (applyRefs metas) (fun id p _ c => metas[id]? ≠ none ∧ c = p) (fun _ => rfl) ?_ P ps v hnd ?_
  · rintro id p rest v c ⟨hne, rfl⟩
    obtain ⟨col, hc⟩ := Option.ne_none_iff_exists'.mp hne
    simp only [applyRefs, hc]
  · intro x hx
    obtain ⟨a, b, c⟩ := h x hx
    exact ⟨a, _, ⟨b, rfl⟩, c⟩

theorem applyLists_spec (ad : S → X → D → Res X) (dn : S → D → Res X) (cols : List (Option (Col S))) (P : Nat → Cell X → Prop)
    (ps : List (Nat × Option D)) (v : List (Option (Cell X))) (hnd : (ps.map (·.1)).Nodup)
    (h : ∀ x ∈ ps, x.1 < v.length ∧ ∃ s c, (entry cols x.1).bind Col.tables = some s ∧
      applyList ad dn s (entry v x.1) x.2 = .ok c ∧ P x.1 c) :
    ∃ w, applyLists ad dn cols ps v = .ok w ∧ w.length = v.length ∧ (∀ i ∈ ps.map (·.1), ∃ c, entry w i = some c ∧ P i c) ∧
      ∀ i, i ∉ ps.map (·.1) → entry w i = entry v i := by
  refine loop_spec (applyLists ad dn cols)
    (fun id d cur c => ∃ s, (entry cols id).bind Col.tables = some s ∧ applyList ad dn s cur d = .ok c) (fun _ => rfl) ?_ P ps v hnd ?_
  · rintro id p rest v c ⟨s, hs, hc⟩
    simp only [applyLists, hs, hc, Res.bind_ok]
  · intro x hx
    obtain ⟨a, s, c, b1, b2, b3⟩ := h x hx
    exact ⟨a, c, ⟨s, b1, b2⟩, b3⟩

theorem applyRootLists_spec (ad : S → X → D → Res X) (dn : S → D → Res X) (cols : List (Option (Col S)))
    (P : Nat → Cell X → Prop) (ps : List (Nat × Option D)) (v : List (Option (Cell X))) (hnd : (ps.map (·.1)).Nodup)
    (h : ∀ x ∈ ps, x.1 < v.length ∧ ∃ s c, (entry cols x.1).bind Col.tables = some s ∧
      applyRootList ad dn s (entry v x.1) x.2 = .ok c ∧ P x.1 c) :
    ∃ w, applyRootLists ad dn cols ps v = .ok w ∧ w.length = v.length ∧
      (∀ i ∈ ps.map (·.1), ∃ c, entry w i = some c ∧ P i c) ∧ ∀ i, i ∉ ps.map (·.1) → entry w i = entry v i := by
  refine loop_spec (applyRootLists ad dn cols)
    (fun id d cur c => ∃ s, (entry cols id).bind Col.tables = some s ∧ applyRootList ad dn s cur d = .ok c)
    (fun _ => rfl) ?_ P ps v hnd ?_
  · rintro id p rest v c ⟨s, hs, hc⟩
    simp only [applyRootLists, hs, hc, Res.bind_ok]
  · intro x hx
    obtain ⟨a, s, c, b1, b2, b3⟩ := h x hx
    exact ⟨a, c, ⟨s, b1, b2⟩, b3⟩

end

/-! ## Unchanged parameters -/

theorem Qv.eq_of_identEq {α : Type} {eq : α → α → Bool} {a b : Qv α} (h : a.identEq eq b = true)
    (hv : ∀ x y, a = .val x → b = .val y → eq x y = true → x = y) : a = b := by
  cases a <;> cases b <;> simp only [Qv.identEq] at h <;> first | cases h | skip
  · exact congrArg Qv.val (hv _ _ rfl rfl h)
  · rfl
  · rfl

theorem feq_comm (m : Fmt) (a b : Nat) : m.feq a b = m.feq b a := by
  unfold Fmt.feq
  rw [Bool.and_comm (!m.isNan a), BEq.comm (a := a), Bool.and_comm (m.isZero a)]

theorem eq64_comm (a b : BitVec 64) : eq64 a b = eq64 b a := feq_comm _ _ _

theorem eqFloats_comm : ∀ a b : List (BitVec 64), eqFloats a b = eqFloats b a
  | [], [] => rfl
  | [], _ :: _ => rfl
  | _ :: _, [] => rfl
  | a :: as, b :: bs => by simp only [eqFloats]; rw [eq64_comm a b, eqFloats_comm as bs]

/-- What is not stored has not changed. -/
theorem eq_of_identEq {ptr : Bool} {p q : Param} (h : identEq ptr p q = true) (hs : ParamStep q p) : p = q := by
  cases p <;> cases q <;> simp only [identEq] at h <;> first | cases h | skip
  · exact congrArg _ (Qv.eq_of_identEq h fun x y _ _ h => by simpa using h)
  · exact congrArg _ (Qv.eq_of_identEq h fun x y _ _ h => by simpa using h)
  · refine congrArg _ (Qv.eq_of_identEq h fun x y hx hy h => ?_)
    subst hx hy
    refine (hs ?_).symm
    rw [← h]
    exact eq64_comm _ _
  · exact congrArg _ (Qv.eq_of_identEq h fun x y _ _ h => by simp at h; exact h.2)
  · exact congrArg _ (Qv.eq_of_identEq h fun x y _ _ h => by simp at h; exact h.2)
  · refine congrArg _ (Qv.eq_of_identEq h fun x y hx hy h => ?_)
    subst hx hy
    refine (hs ?_).symm
    rw [← h]
    exact eqFloats_comm _ _
  · exact congrArg _ (Qv.eq_of_identEq h fun x y _ _ h => by simp at h; exact h.2)

/-! ## Items -/

section
variable {S X D : Type}

/-- What is known about the lists inside the items. -/
structure LevelOk (ok : S → X → Prop) (st : X → X → Prop) (gd : Ptr → S → X → X → Option D) (nl : S → X → D)
    (ad : S → X → D → Res X) (dn : S → D → Res X) : Prop where
  new : ∀ s b, ok s b → dn s (nl s b) = .ok b
  tot : ∀ ptr s a b d, ok s a → ok s b → gd ptr s a b = some d → ∃ r, ad s a d = .ok r
  same : ∀ ptr s a b, ok s a → ok s b → st a b → gd ptr s a b = none → a = b
  mod : ∀ ptr s a b d, ok s a → ok s b → st a b → gd ptr s a b = some d → ad s a d = .ok b

theorem paramDiff_some {ptr : Bool} {f t : Option (Cell X)} {p : Param} (h : paramDiff ptr f t = some p) : t = some (.param p) := by
  unfold paramDiff at h
  split at h
  · split at h
    · split at h <;> simp_all
    · simp_all
  · cases h

theorem listDiff_some {gd : S → X → X → Option D} {nl : S → X → D} {c : Option (Col S)} {f t : Option (Cell X)} {d : Option D}
    (h : listDiff gd nl c f t = some d) : ∃ m s, t = some (.mil m) ∧ c.bind Col.tables = some s := by
  unfold listDiff at h
  split at h
  · rename_i m s h1; exact ⟨m, s, rfl, h1⟩
  · cases h

/-- A list column that fits has a definition. -/
theorem CellOk.tables {ok : S → X → Prop} {c : Option (Col S)} {m : Option X} (h : CellOk ok c (some (.mil m))) :
    ∃ s, c.bind Col.tables = some s ∧ ∀ x, m = some x → ok s x := by
  cases c with
  | none => cases m <;> exact h.elim
  | some c =>
    cases c with
    | param => cases m <;> exact h.elim
    | mlist s => cases m with
      | none => exact h.elim
      | some x => exact ⟨s, rfl, fun y hy => by cases hy; exact h⟩
    | optMil s => cases m with
      | none => exact ⟨s, rfl, fun y hy => nomatch hy⟩
      | some x => exact ⟨s, rfl, fun y hy => by cases hy; exact h⟩

theorem CellOk.param {ok : S → X → Prop} {c : Option (Col S)} {p : Param} (h : CellOk ok c (some (.param p))) :
    ∃ pt vt, c = some (.param pt vt) ∧ ParamOk pt vt p := by
  cases c with
  | none => exact h.elim
  | some c =>
    cases c with
    | param pt vt => exact ⟨pt, vt, rfl, h⟩
    | mlist s => exact h.elim
    | optMil s => exact h.elim

/-- The stored list diff can be applied. -/
theorem applyList_tot {ok : S → X → Prop} {st : X → X → Prop} {gd : Ptr → S → X → X → Option D} {nl : S → X → D}
    {ad : S → X → D → Res X} {dn : S → D → Res X} (hl : LevelOk ok st gd nl ad dn) {ptr : Ptr} {c : Option (Col S)}
    {f t : Option (Cell X)} (hf : CellOk ok c f) (ht : CellOk ok c t) {d : Option D} (h : listDiff (gd ptr) nl c f t = some d) :
    ∃ s x, c.bind Col.tables = some s ∧ applyList ad dn s f d = .ok x := by
  obtain ⟨m, s, rfl, hs⟩ := listDiff_some h
  obtain ⟨s', hs', hx⟩ := ht.tables
  have : s' = s := by rw [hs] at hs'; exact (Option.some.inj hs').symm
  subst this
  refine ⟨s', ?_⟩
  unfold listDiff at h
  rw [hs] at h
  simp only at h
  have key : ∀ b, m = some b → ∃ x, (dn s' (nl s' b)).map (fun l => Cell.mil (some l)) = .ok x :=
    fun b hb => ⟨_, by rw [hl.new s' b (hx b hb)]; rfl⟩
  cases f with
  | none =>
    cases m with
    | none => cases h; exact ⟨_, hs, rfl⟩
    | some b => cases h; obtain ⟨x, hx⟩ := key b rfl; exact ⟨x, hs, hx⟩
  | some f =>
    cases f with
    | param p =>
      cases m with
      | none => cases h; exact ⟨_, hs, rfl⟩
      | some b => cases h; obtain ⟨x, hx⟩ := key b rfl; exact ⟨x, hs, hx⟩
    | mil m' =>
      cases m' with
      | none =>
        cases m with
        | none => cases h
        | some b => cases h; obtain ⟨x, hx⟩ := key b rfl; exact ⟨x, hs, hx⟩
      | some a =>
        cases m with
        | none => cases h; exact ⟨_, hs, rfl⟩
        | some b =>
          obtain ⟨s2, hs2, ha⟩ := hf.tables
          have : s2 = s' := by rw [hs] at hs2; exact (Option.some.inj hs2).symm
          subst this
          simp only [Option.map_eq_some_iff] at h
          obtain ⟨d', hd, rfl⟩ := h
          obtain ⟨r, hr⟩ := hl.tot ptr s2 a b d' (ha a rfl) (hx b rfl) hd
          exact ⟨.mil (some r), hs, by simp only [applyList, hr, Res.map_ok]⟩

/-- The stored list diff gives the new list. -/
theorem applyList_mod {ok : S → X → Prop} {st : X → X → Prop} {gd : Ptr → S → X → X → Option D} {nl : S → X → D}
    {ad : S → X → D → Res X} {dn : S → D → Res X} (hl : LevelOk ok st gd nl ad dn) {ptr : Ptr} {c : Option (Col S)}
    {f t : Option (Cell X)} (hf : CellOk ok c f) (ht : CellOk ok c t) (hst : CellStep st f t) {d : Option D}
    (h : listDiff (gd ptr) nl c f t = some d) :
    ∃ s x, c.bind Col.tables = some s ∧ applyList ad dn s f d = .ok x ∧ t = some x := by
  obtain ⟨m, s, rfl, hs⟩ := listDiff_some h
  obtain ⟨s', hs', hx⟩ := ht.tables
  have : s' = s := by rw [hs] at hs'; exact (Option.some.inj hs').symm
  subst this
  refine ⟨s', ?_⟩
  unfold listDiff at h
  rw [hs] at h
  simp only at h
  have key : ∀ b, m = some b → (dn s' (nl s' b)).map (fun l => Cell.mil (some l)) = .ok (.mil m) :=
    fun b hb => by rw [hl.new s' b (hx b hb), hb]; rfl
  cases f with
  | none =>
    cases m with
    | none => cases h; exact ⟨_, hs, rfl, rfl⟩
    | some b => cases h; exact ⟨_, hs, key b rfl, rfl⟩
  | some f =>
    cases f with
    | param p =>
      cases m with
      | none => cases h; exact ⟨_, hs, rfl, rfl⟩
      | some b => cases h; exact ⟨_, hs, key b rfl, rfl⟩
    | mil m' =>
      cases m' with
      | none =>
        cases m with
        | none => cases h
        | some b => cases h; exact ⟨_, hs, key b rfl, rfl⟩
      | some a =>
        cases m with
        | none => cases h; exact ⟨_, hs, rfl, rfl⟩
        | some b =>
          obtain ⟨s2, hs2, ha⟩ := hf.tables
          have : s2 = s' := by rw [hs] at hs2; exact (Option.some.inj hs2).symm
          subst this
          simp only [Option.map_eq_some_iff] at h
          obtain ⟨d', hd, rfl⟩ := h
          have hr := hl.mod ptr s2 a b d' (ha a rfl) (hx b rfl) hst hd
          exact ⟨.mil (some b), hs, by simp only [applyList, hr, Res.map_ok], rfl⟩

/-- A member that is not stored has not changed. -/
theorem cell_same {ok : S → X → Prop} {st : X → X → Prop} {gd : Ptr → S → X → X → Option D} {nl : S → X → D}
    {ad : S → X → D → Res X} {dn : S → D → Res X} (hl : LevelOk ok st gd nl ad dn) {ptr : Ptr} {b : Bool} {c : Option (Col S)}
    {f t : Option (Cell X)} (hf : CellOk ok c f) (ht : CellOk ok c t) (hst : CellStep st f t)
    (hp : paramDiff b f t = none) (h : listDiff (gd ptr) nl c f t = none) : f = t := by
  cases t with
  | none => cases f with
    | none => rfl
    | some f => cases f with
      | param p => exact hst
      | mil m => cases m <;> exact hst
  | some t =>
    cases t with
    | param p =>
      unfold paramDiff at hp
      cases f with
      | none => cases hp
      | some f =>
        cases f with
        | mil m => cases hp
        | param q =>
          simp only at hp
          split at hp
          · rename_i he
            rw [eq_of_identEq he hst]
          · cases hp
    | mil m =>
      obtain ⟨s, hs, hx⟩ := ht.tables
      unfold listDiff at h
      rw [hs] at h
      simp only at h
      cases f with
      | none => cases m <;> cases h
      | some f =>
        cases f with
        | param q => cases m <;> cases h
        | mil m' =>
          cases m' with
          | none => cases m with
            | none => rfl
            | some b => cases h
          | some a => cases m with
            | none => cases h
            | some b' =>
              obtain ⟨s2, hs2, ha⟩ := hf.tables
              have : s2 = s := by rw [hs] at hs2; exact (Option.some.inj hs2).symm
              subst this
              simp only [Option.map_eq_none_iff] at h
              rw [hl.same ptr s2 a b' (ha a rfl) (hx b' rfl) hst h]

theorem refDiff_some {f t : Option (Qv String)} {q : Qv String} (h : refDiff f t = some q) : t = some q := by
  unfold refDiff at h
  split at h
  · split at h
    · split at h <;> simp_all
    · simp_all
  · cases h

theorem refDiff_none {f t : Option (Qv String)} (hs : t = none → f = none) (h : refDiff f t = none) : f = t := by
  unfold refDiff at h
  split at h
  · split at h
    · split at h
      · cases h
      · rename_i hn; rw [Decidable.not_not.mp hn]
    · cases h
  · exact hs rfl

theorem compareItems_cases {ptr : Ptr} {gd : Ptr → S → X → X → Option D} {nl : S → X → D} {tb : Table S} {f t : Row X} :
    (compareItems ptr gd nl tb f t = none ∧
      (∀ i, i < t.values.length → paramDiff (ptr [i]) (entry f.values i) (entry t.values i) = none) ∧
      (∀ i, i < t.values.length →
        listDiff (gd fun p => ptr (i :: p)) nl (entry tb.items i) (entry f.values i) (entry t.values i) = none) ∧
      ∀ i, i < t.refs.length → refDiff (entry f.refs i) (entry t.refs i) = none) ∨
    compareItems ptr gd nl tb f t = some
      ⟨collect t.values.length fun i => paramDiff (ptr [i]) (entry f.values i) (entry t.values i),
       collect t.refs.length fun i => refDiff (entry f.refs i) (entry t.refs i),
       collect t.values.length fun i =>
        listDiff (gd fun p => ptr (i :: p)) nl (entry tb.items i) (entry f.values i) (entry t.values i)⟩ := by
  unfold compareItems
  simp only
  split
  · rename_i h
    exact Or.inl ⟨rfl, collect_nil.mp h.1, collect_nil.mp h.2.2, collect_nil.mp h.2.1⟩
  · exact Or.inr rfl

theorem entry_ge {α : Type} {l : List (Option α)} {i : Nat} (h : l.length ≤ i) : entry l i = none := by
  unfold entry
  rw [List.getElem?_eq_none_iff.mpr h]
  rfl

/-- Items without difference are equal. -/
theorem compareItems_none {ok : S → X → Prop} {st : X → X → Prop} {gd : Ptr → S → X → X → Option D} {nl : S → X → D}
    {ad : S → X → D → Res X} {dn : S → D → Res X} (hl : LevelOk ok st gd nl ad dn) {ptr : Ptr} {tb : Table S} {f t : Row X}
    (hf : RowOk ok tb f) (ht : RowOk ok tb t) (hst : RowStep st f t) (h : compareItems ptr gd nl tb f t = none) : f = t := by
  rcases compareItems_cases (ptr := ptr) (gd := gd) (nl := nl) (tb := tb) (f := f) (t := t) with ⟨_, hp, hls, hr⟩ | h'
  · have hv : f.values = t.values := by
      refine entry_ext (hf.1.trans ht.1.symm) fun i => ?_
      by_cases hi : i < t.values.length
      · exact cell_same hl (hf.2.1 i) (ht.2.1 i) (hst.1 i) (hp i hi) (hls i hi)
      · rw [entry_ge (Nat.not_lt.mp hi), entry_ge (by rw [hf.1, ← ht.1]; exact Nat.not_lt.mp hi)]
    have hrf : f.refs = t.refs := by
      refine entry_ext (hf.2.2.1.trans ht.2.2.1.symm) fun i => ?_
      by_cases hi : i < t.refs.length
      · exact refDiff_none (hst.2 i) (hr i hi)
      · rw [entry_ge (Nat.not_lt.mp hi), entry_ge (by rw [hf.2.2.1, ← ht.2.2.1]; exact Nat.not_lt.mp hi)]
    cases f; cases t
    simp only at hv hrf
    rw [hv, hrf]
  · rw [h] at h'; cases h'

/-- Applying a diff of members: the state after the parameters and the lists. -/
theorem modifyItem_spec {gd : Ptr → S → X → X → Option D} {nl : S → X → D}
    {ad : S → X → D → Res X} {dn : S → D → Res X} {ok : S → X → Prop} {tb : Table S} {f t : Row X} {d : RowDiff D} {ptr : Ptr}
    (hf : RowOk ok tb f) (ht : RowOk ok tb t) (P : Nat → Cell X → Prop)
    (hpar : ∀ i p, paramDiff (ptr [i]) (entry f.values i) (entry t.values i) = some p → P i (.param p))
    (hlis : ∀ i d, listDiff (gd fun p => ptr (i :: p)) nl (entry tb.items i) (entry f.values i) (entry t.values i) = some d →
      ∃ s x, (entry tb.items i).bind Col.tables = some s ∧ applyList ad dn s (entry f.values i) d = .ok x ∧ P i x)
    (h : compareItems ptr gd nl tb f t = some d) :
    ∃ r, modifyItem ad dn tb f d = .ok r ∧ r.values.length = t.values.length ∧ r.refs.length = t.refs.length ∧
      (∀ i, (paramDiff (ptr [i]) (entry f.values i) (entry t.values i) = none ∧
          listDiff (gd fun p => ptr (i :: p)) nl (entry tb.items i) (entry f.values i) (entry t.values i) = none ∧
          entry r.values i = entry f.values i) ∨ ∃ c, entry r.values i = some c ∧ P i c) ∧
      ∀ i, (refDiff (entry f.refs i) (entry t.refs i) = none ∧ entry r.refs i = entry f.refs i) ∨
        entry r.refs i = entry t.refs i := by
  rcases compareItems_cases (ptr := ptr) (gd := gd) (nl := nl) (tb := tb) (f := f) (t := t) with h' | h'
  · rw [h'.1] at h; cases h
  · rw [h] at h'
    cases h'
    have hlen : f.values.length = t.values.length := hf.1.trans ht.1.symm
    have hrlen : f.refs.length = t.refs.length := hf.2.2.1.trans ht.2.2.1.symm
    obtain ⟨v, hv, hvlen, hvin, hvout⟩ := applyParams_spec tb.items P
      (collect t.values.length fun i => paramDiff (ptr [i]) (entry f.values i) (entry t.values i)) f.values (collect_nodup _ _) (by
        intro x hx
        obtain ⟨hlt, hx⟩ := mem_collect.mp hx
        have hc := ht.2.1 x.1
        rw [paramDiff_some hx] at hc
        obtain ⟨pt, vt, hc, _⟩ := hc.param
        exact ⟨by omega, by rw [hc]; simp, hpar _ _ hx⟩)
    obtain ⟨w, hw, hwlen, hwin, hwout⟩ := applyLists_spec ad dn tb.items P
      (collect t.values.length fun i =>
        listDiff (gd fun p => ptr (i :: p)) nl (entry tb.items i) (entry f.values i) (entry t.values i)) v (collect_nodup _ _) (by
        intro x hx
        obtain ⟨hlt, hx⟩ := mem_collect.mp hx
        refine ⟨by omega, ?_⟩
        have hnot : entry v x.1 = entry f.values x.1 := by
          refine hvout x.1 ?_
          intro hmem
          obtain ⟨_, hne⟩ := mem_collect_keys.mp hmem
          obtain ⟨p, hp⟩ := Option.ne_none_iff_exists'.mp hne
          obtain ⟨m, s, he, _⟩ := listDiff_some hx
          rw [paramDiff_some hp] at he
          cases he
        rw [hnot]
        exact hlis _ _ hx)
    obtain ⟨rf, hrf, hrflen, hrfin, hrfout⟩ := applyRefs_spec tb.refs (fun i q => entry t.refs i = some q)
      (collect t.refs.length fun i => refDiff (entry f.refs i) (entry t.refs i)) f.refs (collect_nodup _ _) (by
        intro x hx
        obtain ⟨hlt, hx⟩ := mem_collect.mp hx
        obtain ⟨vt, hvt, _⟩ := ht.2.2.2 x.1 x.2 (refDiff_some hx)
        exact ⟨by omega, by rw [hvt]; simp, refDiff_some hx⟩)
    refine ⟨⟨w, rf⟩, by simp only [modifyItem, hv, hw, hrf, Res.bind_ok, Res.map_ok], by simp only; omega, by simp only; omega, ?_, ?_⟩
    · intro i
      by_cases hi : i < t.values.length
      · cases hp : paramDiff (ptr [i]) (entry f.values i) (entry t.values i) with
        | some p =>
          right
          have hnl : i ∉ (collect t.values.length fun i =>
              listDiff (gd fun p => ptr (i :: p)) nl (entry tb.items i) (entry f.values i) (entry t.values i)).map (·.1) := by
            intro hmem
            obtain ⟨_, hne⟩ := mem_collect_keys.mp hmem
            obtain ⟨d, hd⟩ := Option.ne_none_iff_exists'.mp hne
            obtain ⟨m, s, he, _⟩ := listDiff_some hd
            rw [paramDiff_some hp] at he
            cases he
          obtain ⟨c, hc, hP⟩ := hvin i (mem_collect_keys.mpr ⟨hi, by rw [hp]; simp⟩)
          exact ⟨c, by simp only; rw [hwout i hnl, hc], hP⟩
        | none =>
          cases hd : listDiff (gd fun p => ptr (i :: p)) nl (entry tb.items i) (entry f.values i) (entry t.values i) with
          | some d =>
            right
            exact hwin i (mem_collect_keys.mpr ⟨hi, by rw [hd]; simp⟩)
          | none =>
            left
            refine ⟨rfl, rfl, ?_⟩
            simp only
            rw [hwout i fun hm => (mem_collect_keys.mp hm).2 hd, hvout i fun hm => (mem_collect_keys.mp hm).2 hp]
      · left
        have ht' : entry t.values i = none := entry_ge (Nat.not_lt.mp hi)
        refine ⟨by rw [ht']; rfl, by rw [ht']; rfl, ?_⟩
        rw [entry_ge (by simp only; omega), entry_ge (by omega)]
    · intro i
      by_cases hm : i ∈ (collect t.refs.length fun i => refDiff (entry f.refs i) (entry t.refs i)).map (·.1)
      · right
        obtain ⟨c, h1, h2⟩ := hrfin i hm
        simp only
        rw [h1, h2]
      · by_cases hi : i < t.refs.length
        · left
          refine ⟨?_, hrfout i hm⟩
          cases hr : refDiff (entry f.refs i) (entry t.refs i) with
          | none => rfl
          | some q => exact absurd (mem_collect_keys.mpr ⟨hi, by rw [hr]; simp⟩) hm
        · left
          have ht' : entry t.refs i = none := entry_ge (Nat.not_lt.mp hi)
          exact ⟨by rw [ht']; rfl, hrfout i hm⟩

/-- Applying the diff of an item gives the new item. -/
theorem modifyItem_mod {ok : S → X → Prop} {st : X → X → Prop} {gd : Ptr → S → X → X → Option D} {nl : S → X → D}
    {ad : S → X → D → Res X} {dn : S → D → Res X} (hl : LevelOk ok st gd nl ad dn) {ptr : Ptr} {tb : Table S} {f t : Row X}
    (hf : RowOk ok tb f) (ht : RowOk ok tb t) (hst : RowStep st f t) {d : RowDiff D} (h : compareItems ptr gd nl tb f t = some d) :
    modifyItem ad dn tb f d = .ok t := by
  obtain ⟨r, hr, hlen, hrlen, hvals, hrefs⟩ := modifyItem_spec (ad := ad) (dn := dn) hf ht (fun i c => entry t.values i = some c)
    (fun i p hp => paramDiff_some hp)
    (fun i d hd => applyList_mod hl (hf.2.1 i) (ht.2.1 i) (hst.1 i) hd) h
  rw [hr]
  have hv : r.values = t.values := by
    refine entry_ext hlen fun i => ?_
    rcases hvals i with ⟨h1, h2, h3⟩ | ⟨c, h1, h2⟩
    · rw [h3]; exact cell_same hl (hf.2.1 i) (ht.2.1 i) (hst.1 i) h1 h2
    · rw [h1, h2]
  have hrf : r.refs = t.refs := by
    refine entry_ext hrlen fun i => ?_
    rcases hrefs i with ⟨h1, h2⟩ | h1
    · rw [h2]; exact refDiff_none (hst.2 i) h1
    · exact h1
  cases r; cases t
  simp only at hv hrf
  rw [hv, hrf]

/-- A diff of an item can always be applied. -/
theorem modifyItem_tot {ok : S → X → Prop} {st : X → X → Prop} {gd : Ptr → S → X → X → Option D} {nl : S → X → D}
    {ad : S → X → D → Res X} {dn : S → D → Res X} (hl : LevelOk ok st gd nl ad dn) {ptr : Ptr} {tb : Table S} {f t : Row X}
    (hf : RowOk ok tb f) (ht : RowOk ok tb t) {d : RowDiff D} (h : compareItems ptr gd nl tb f t = some d) :
    ∃ r, modifyItem ad dn tb f d = .ok r := by
  obtain ⟨r, hr, _⟩ := modifyItem_spec (ad := ad) (dn := dn) hf ht (fun _ _ => True) (fun _ _ _ => trivial)
    (fun i d hd => by
      obtain ⟨s, x, h1, h2⟩ := applyList_tot hl (hf.2.1 i) (ht.2.1 i) hd
      exact ⟨s, x, h1, h2, trivial⟩) h
  exact ⟨r, hr⟩

/-- A new item is restored. -/
theorem newItemFromDiff_newItem {ok : S → X → Prop} {st : X → X → Prop} {gd : Ptr → S → X → X → Option D} {nl : S → X → D}
    {ad : S → X → D → Res X} {dn : S → D → Res X} (hl : LevelOk ok st gd nl ad dn) {tb : Table S} {t : Row X}
    (ht : RowOk ok tb t) : newItemFromDiff ad dn tb (newItem nl tb t) = .ok t := by
  have hv : ∀ i, entry (List.replicate tb.items.length (none : Option (Cell X))) i = none := by
    intro i; unfold entry; rw [List.getElem?_replicate]; split <;> rfl
  have hr : ∀ i, entry (List.replicate tb.refs.length (none : Option (Qv String))) i = none := by
    intro i; unfold entry; rw [List.getElem?_replicate]; split <;> rfl
  have hf : RowOk ok tb ⟨List.replicate tb.items.length none, List.replicate tb.refs.length none⟩ := by
    refine ⟨by simp, fun i => ?_, by simp, fun i q hq => ?_⟩
    · simp only [hv]; cases entry tb.items i with
      | none => trivial
      | some c => cases c <;> trivial
    · simp only [hr] at hq; cases hq
  have hst : RowStep st ⟨List.replicate tb.items.length none, List.replicate tb.refs.length none⟩ t := by
    refine ⟨fun i => ?_, fun i _ => hr i⟩
    simp only [hv]
    cases entry t.values i with
    | none => rfl
    | some c => cases c with
      | param p => trivial
      | mil m => cases m <;> trivial
  have hnew : newItem nl tb t =
      ⟨collect t.values.length fun i => paramDiff true (entry (List.replicate tb.items.length none) i) (entry t.values i),
       collect t.refs.length fun i => refDiff (entry (List.replicate tb.refs.length none) i) (entry t.refs i),
       collect t.values.length fun i => listDiff (gd fun _ => true) nl (entry tb.items i)
        (entry (List.replicate tb.items.length none) i) (entry t.values i)⟩ := by
    unfold newItem
    simp only [hv, hr]
    congr 1
    congr 1; funext i
    unfold refDiff
    cases entry t.refs i <;> rfl
  rw [hnew]
  rcases compareItems_cases (ptr := fun _ => true) (gd := gd) (nl := nl) (tb := tb)
    (f := ⟨List.replicate tb.items.length none, List.replicate tb.refs.length none⟩) (t := t) with ⟨h, hp, hls, hrs⟩ | h
  · have he := compareItems_none hl hf ht hst h
    rw [List.length_eq_zero_iff.mp (collect_nil.mpr hp), List.length_eq_zero_iff.mp (collect_nil.mpr hls),
      List.length_eq_zero_iff.mp (collect_nil.mpr hrs)]
    exact congrArg Res.ok he
  · exact modifyItem_mod hl hf ht hst h

end

end Verif.Diff
