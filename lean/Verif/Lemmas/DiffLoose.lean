import Verif.Spec.DiffLoose
import Verif.Lemmas.DiffRoot
/-!
# What applying the diff of two objects restores, whatever was changed
-/
namespace Verif.Diff
open VarInt Codec Compaction LinkedMap

/-! ## Parameters -/

theorem ParamLoose.refl (p : Param) : ParamLoose p p := by
  cases p with
  | float q => cases q <;> first | exact Or.inl rfl | rfl
  | floatArray q => cases q <;> first | exact Or.inl rfl | rfl
  | _ => rfl

theorem eq64_trans {a b c : BitVec 64} (h1 : eq64 a b = true) (h2 : eq64 b c = true) : eq64 a c = true := by
  unfold eq64 Fmt.feq at *
  simp only [Bool.and_eq_true, Bool.or_eq_true, Bool.not_eq_true', beq_iff_eq] at *
  obtain ⟨⟨n1, n2⟩, h1⟩ := h1
  obtain ⟨⟨n3, n4⟩, h2⟩ := h2
  refine ⟨⟨n1, n4⟩, ?_⟩
  rcases h1 with h1 | h1
  · rw [h1]; exact h2
  · rcases h2 with h2 | h2
    · rw [← h2]; exact Or.inr h1
    · exact Or.inr ⟨h1.1, h2.2⟩

theorem eqFloats_trans : ∀ {a b c : List (BitVec 64)}, eqFloats a b = true → eqFloats b c = true → eqFloats a c = true
  | [], [], [], _, _ => rfl
  | a :: as, b :: bs, c :: cs, h1, h2 => by
    simp only [eqFloats, Bool.and_eq_true] at *
    exact ⟨eq64_trans h1.1 h2.1, eqFloats_trans h1.2 h2.2⟩
  | [], _ :: _, _, h, _ => by simp [eqFloats] at h
  | _ :: _, [], _, h, _ => by simp [eqFloats] at h
  | [], [], _ :: _, _, h => by simp [eqFloats] at h
  | _ :: _, _ :: _, [], _, h => by simp [eqFloats] at h

theorem ParamLoose.trans {p q r : Param} (h1 : ParamLoose p q) (h2 : ParamLoose q r) : ParamLoose p r := by
  by_cases hp : (∃ a, p = .float (.val a)) ∨ ∃ a, p = .floatArray (.val a)
  · rcases hp with ⟨a, rfl⟩ | ⟨a, rfl⟩
    · cases q with
      | float q =>
        cases q with
        | val b =>
          cases r with
          | float r =>
            cases r with
            | val c =>
              rcases h1 with rfl | h1
              · exact h2
              · rcases h2 with rfl | h2
                · exact Or.inr h1
                · exact Or.inr (eq64_trans h1 h2)
            | null => cases h2
            | undef => cases h2
          | _ => cases h2
        | null => cases h1
        | undef => cases h1
      | _ => cases h1
    · cases q with
      | floatArray q =>
        cases q with
        | val b =>
          cases r with
          | floatArray r =>
            cases r with
            | val c =>
              rcases h1 with rfl | h1
              · exact h2
              · rcases h2 with rfl | h2
                · exact Or.inr h1
                · exact Or.inr (eqFloats_trans h1 h2)
            | null => cases h2
            | undef => cases h2
          | _ => cases h2
        | null => cases h1
        | undef => cases h1
      | _ => cases h1
  · have : p = q := by
      cases p with
      | float a => cases a with
        | val a => exact absurd (Or.inl ⟨a, rfl⟩) hp
        | null => exact h1
        | undef => exact h1
      | floatArray a => cases a with
        | val a => exact absurd (Or.inr ⟨a, rfl⟩) hp
        | null => exact h1
        | undef => exact h1
      | _ => exact h1
    rw [this]; exact h2

/-- What is not stored is numerically equal. -/
theorem loose_of_identEq {ptr : Bool} {p q : Param} (h : identEq ptr p q = true) : ParamLoose q p := by
  cases p <;> cases q <;> simp only [identEq] at h <;> first | cases h | skip
  · exact (congrArg Param.bool (Qv.eq_of_identEq h fun x y _ _ h => by simpa using h)).symm
  · exact (congrArg Param.int (Qv.eq_of_identEq h fun x y _ _ h => by simpa using h)).symm
  · rename_i a b
    cases a <;> cases b <;> simp only [Qv.identEq] at h <;> first | cases h | skip
    · exact Or.inr (by rw [eq64_comm]; exact h)
    · rfl
    · rfl
  · exact (congrArg Param.string (Qv.eq_of_identEq h fun x y _ _ h => by simp at h; exact h.2)).symm
  · exact (congrArg Param.intArray (Qv.eq_of_identEq h fun x y _ _ h => by simp at h; exact h.2)).symm
  · rename_i a b
    cases a <;> cases b <;> simp only [Qv.identEq] at h <;> first | cases h | skip
    · exact Or.inr (by rw [eqFloats_comm]; exact h)
    · rfl
    · rfl
  · exact (congrArg Param.binary (Qv.eq_of_identEq h fun x y _ _ h => by simp at h; exact h.2)).symm

/-! ## Members and items -/

section
variable {S X D : Type} {lo st : X → X → Prop}

theorem CellLoose.refl {ok : S → X → Prop} (hr : ∀ s x, ok s x → lo x x) {c : Option (Col S)} {f : Option (Cell X)} (h : CellOk ok c f) :
    CellLoose lo f f := by
  rcases f with _ | (p | (_ | x))
  · trivial
  · exact ParamLoose.refl p
  · trivial
  · rcases c with _ | (_ | c | c)
    · exact h.elim
    · exact h.elim
    · exact hr c x h
    · exact hr c x h

theorem CellLoose.trans (ht : ∀ x y z, lo x y → lo y z → lo x z) {a b c : Option (Cell X)} (h1 : CellLoose lo a b) (h2 : CellLoose lo b c) :
    CellLoose lo a c := by
  rcases a with _ | (p | (_ | x)) <;> rcases b with _ | (q | (_ | y)) <;> rcases c with _ | (r | (_ | z)) <;>
    simp only [CellLoose] at h1 h2 ⊢
  · exact h1.trans h2
  · exact ht _ _ _ h1 h2

theorem RowLoose.refl {ok : S → X → Prop} (hr : ∀ s x, ok s x → lo x x) {tb : Table S} {r : Row X} (h : RowOk ok tb r) : RowLoose lo r r :=
  ⟨fun i => CellLoose.refl hr (h.2.1 i), fun _ => rfl⟩

theorem RowLoose.trans (ht : ∀ x y z, lo x y → lo y z → lo x z) {a b c : Row X} (h1 : RowLoose lo a b) (h2 : RowLoose lo b c) :
    RowLoose lo a c := ⟨fun i => (h1.1 i).trans ht (h2.1 i), fun i => (h1.2 i).trans (h2.2 i)⟩

theorem CellStays.refl {ok : S → X → Prop} (hr : ∀ s x, ok s x → st x x) {c : Option (Col S)} {f : Option (Cell X)} (h : CellOk ok c f) :
    CellStays st f f := by
  rcases f with _ | (p | (_ | x))
  · trivial
  · exact ⟨p, rfl⟩
  · exact ⟨none, rfl⟩
  · refine ⟨x, rfl, ?_⟩
    rcases c with _ | (_ | c | c)
    · exact h.elim
    · exact h.elim
    · exact hr c x h
    · exact hr c x h

theorem RowStays.refl {ok : S → X → Prop} (hr : ∀ s x, ok s x → st x x) {tb : Table S} {r : Row X} (h : RowOk ok tb r) : RowStays st r r :=
  ⟨fun i => CellStays.refl hr (h.2.1 i), fun _ h => h⟩

/-- What is known about the lists inside the items. -/
structure LevelLoose (ok : S → X → Prop) (st lo : X → X → Prop) (gd : Ptr → S → X → X → Option D) (nl : S → X → D)
    (ad : S → X → D → Res X) (dn : S → D → Res X) : Prop where
  refl : ∀ s x, ok s x → lo x x
  trans : ∀ x y z, lo x y → lo y z → lo x z
  stays : ∀ s x, ok s x → st x x
  new : ∀ s b, ok s b → dn s (nl s b) = .ok b
  same : ∀ ptr s a b, ok s a → ok s b → st a b → gd ptr s a b = none → lo a b
  mod : ∀ ptr s g a b d, ok s g → ok s a → ok s b → lo g a → st a b → gd ptr s a b = some d →
    ∃ r, ad s g d = .ok r ∧ ok s r ∧ lo r b ∧ st g r

variable {ok : S → X → Prop} {gd : Ptr → S → X → X → Option D} {nl : S → X → D} {ad : S → X → D → Res X} {dn : S → D → Res X}

/-- The stored list diff gives the new list, but for what is not stored. -/
theorem applyList_loose (hl : LevelLoose ok st lo gd nl ad dn) {ptr : Ptr} {c : Option (Col S)} {g f t : Option (Cell X)}
    (hg : CellOk ok c g) (hf : CellOk ok c f) (ht : CellOk ok c t) (hlo : CellLoose lo g f) (hst : CellStays st f t) {d : Option D}
    (h : listDiff (gd ptr) nl c f t = some d) :
    ∃ s x, c.bind Col.tables = some s ∧ applyList ad dn s g d = .ok x ∧ CellLoose lo (some x) t ∧ CellStays st g (some x) ∧
      CellOk ok c (some x) := by
  obtain ⟨m, s, rfl, hs⟩ := listDiff_some h
  obtain ⟨s', hs', hx⟩ := ht.tables
  have : s' = s := by rw [hs] at hs'; exact (Option.some.inj hs').symm
  subst this
  refine ⟨s', ?_⟩
  unfold listDiff at h
  rw [hs] at h
  simp only at h
  have key : ∀ b, m = some b → (dn s' (nl s' b)).map (fun l => Cell.mil (some l)) = .ok (.mil m) :=
    fun b hb => by rw [hl.new s' b (hx b hb), hb]; rfl
  rcases f with _ | (p | (_ | a))
  · rcases g with _ | (q | (_ | g)) <;> simp only [CellLoose] at hlo
    cases m with
    | none => cases h; exact ⟨_, hs, rfl, CellLoose.refl hl.refl ht, trivial, ht⟩
    | some b => cases h; exact ⟨_, hs, key b rfl, CellLoose.refl hl.refl ht, trivial, ht⟩
  · obtain ⟨_, hst⟩ := hst; cases hst
  · rcases g with _ | (q | (_ | g)) <;> simp only [CellLoose] at hlo
    cases m with
    | none => cases h
    | some b => cases h; exact ⟨_, hs, key b rfl, CellLoose.refl hl.refl ht, ⟨_, rfl⟩, ht⟩
  · rcases g with _ | (q | (_ | g)) <;> simp only [CellLoose] at hlo
    obtain ⟨b, hb, hst⟩ := hst
    cases hb
    obtain ⟨s2, hs2, ha⟩ := hf.tables
    have : s2 = s' := by rw [hs] at hs2; exact (Option.some.inj hs2).symm
    subst this
    obtain ⟨s3, hs3, hg'⟩ := hg.tables
    have : s3 = s2 := by rw [hs] at hs3; exact (Option.some.inj hs3).symm
    subst this
    simp only [Option.map_eq_some_iff] at h
    obtain ⟨d', hd, rfl⟩ := h
    obtain ⟨r, h1, h2, h3, h4⟩ := hl.mod ptr s3 g a b d' (hg' g rfl) (ha a rfl) (hx b rfl) hlo hst hd
    refine ⟨.mil (some r), hs, by simp only [applyList, h1, Res.map_ok], h3, ⟨r, rfl, h4⟩, ?_⟩
    rcases c with _ | (_ | c | c)
    · cases hs
    · cases hs
    · cases hs; exact h2
    · cases hs; exact h2

/-- A member that is not stored is the same, but for what is not stored. -/
theorem cell_loose (hl : LevelLoose ok st lo gd nl ad dn) {ptr : Ptr} {b : Bool} {c : Option (Col S)}
    {f t : Option (Cell X)} (hf : CellOk ok c f) (ht : CellOk ok c t) (hst : CellStays st f t)
    (hp : paramDiff b f t = none) (h : listDiff (gd ptr) nl c f t = none) : CellLoose lo f t := by
  rcases f with _ | (p | (_ | a))
  · rcases t with _ | (q | m)
    · trivial
    · cases hp
    · obtain ⟨s, hs, hx⟩ := ht.tables
      unfold listDiff at h
      rw [hs] at h
      cases m <;> cases h
  · obtain ⟨q, rfl⟩ := hst
    unfold paramDiff at hp
    simp only at hp
    split at hp
    · rename_i he
      exact loose_of_identEq he
    · cases hp
  · obtain ⟨m, rfl⟩ := hst
    obtain ⟨s, hs, hx⟩ := ht.tables
    unfold listDiff at h
    rw [hs] at h
    cases m with
    | none => trivial
    | some b => cases h
  · obtain ⟨b', rfl, hst⟩ := hst
    obtain ⟨s, hs, hx⟩ := ht.tables
    unfold listDiff at h
    rw [hs] at h
    obtain ⟨s2, hs2, ha⟩ := hf.tables
    have : s2 = s := by rw [hs] at hs2; exact (Option.some.inj hs2).symm
    subst this
    simp only [Option.map_eq_none_iff] at h
    exact hl.same ptr s2 a b' (ha a rfl) (hx b' rfl) hst h


/-- Items without difference are the same, but for what is not stored. -/
theorem compareItems_loose (hl : LevelLoose ok st lo gd nl ad dn) {ptr : Ptr} {tb : Table S} {f t : Row X}
    (hf : RowOk ok tb f) (ht : RowOk ok tb t) (hst : RowStays st f t) (h : compareItems ptr gd nl tb f t = none) : RowLoose lo f t := by
  rcases compareItems_cases (ptr := ptr) (gd := gd) (nl := nl) (tb := tb) (f := f) (t := t) with ⟨_, hp, hls, hr⟩ | h'
  · refine ⟨fun i => ?_, fun i => ?_⟩
    · by_cases hi : i < t.values.length
      · exact cell_loose hl (hf.2.1 i) (ht.2.1 i) (hst.1 i) (hp i hi) (hls i hi)
      · rw [entry_ge (Nat.not_lt.mp hi), entry_ge (by rw [hf.1, ← ht.1]; exact Nat.not_lt.mp hi)]
        trivial
    · by_cases hi : i < t.refs.length
      · exact refDiff_none (hst.2 i) (hr i hi)
      · rw [entry_ge (Nat.not_lt.mp hi), entry_ge (by rw [hf.2.2.1, ← ht.2.2.1]; exact Nat.not_lt.mp hi)]
  · rw [h] at h'; cases h'

/-- Applying a diff of members to another item. -/
theorem modifyItem_on {tb : Table S} {g f t : Row X} {d : RowDiff D} {ptr : Ptr}
    (hg : RowOk ok tb g) (ht : RowOk ok tb t) (P : Nat → Cell X → Prop)
    (hpar : ∀ i p, paramDiff (ptr [i]) (entry f.values i) (entry t.values i) = some p → P i (.param p))
    (hlis : ∀ i d, listDiff (gd fun p => ptr (i :: p)) nl (entry tb.items i) (entry f.values i) (entry t.values i) = some d →
      ∃ s x, (entry tb.items i).bind Col.tables = some s ∧ applyList ad dn s (entry g.values i) d = .ok x ∧ P i x)
    (h : compareItems ptr gd nl tb f t = some d) :
    ∃ r, modifyItem ad dn tb g d = .ok r ∧ r.values.length = t.values.length ∧ r.refs.length = t.refs.length ∧
      (∀ i, (paramDiff (ptr [i]) (entry f.values i) (entry t.values i) = none ∧
          listDiff (gd fun p => ptr (i :: p)) nl (entry tb.items i) (entry f.values i) (entry t.values i) = none ∧
          entry r.values i = entry g.values i) ∨ ∃ c, entry r.values i = some c ∧ P i c) ∧
      ∀ i, (refDiff (entry f.refs i) (entry t.refs i) = none ∧ entry r.refs i = entry g.refs i) ∨
        entry r.refs i = entry t.refs i := by
  rcases compareItems_cases (ptr := ptr) (gd := gd) (nl := nl) (tb := tb) (f := f) (t := t) with h' | h'
  · rw [h'.1] at h; cases h
  · rw [h] at h'
    cases h'
    have hlen : g.values.length = t.values.length := hg.1.trans ht.1.symm
    have hrlen : g.refs.length = t.refs.length := hg.2.2.1.trans ht.2.2.1.symm
    obtain ⟨v, hv, hvlen, hvin, hvout⟩ := applyParams_spec tb.items P
      (collect t.values.length fun i => paramDiff (ptr [i]) (entry f.values i) (entry t.values i)) g.values (collect_nodup _ _) (by
        intro x hx
        obtain ⟨hlt, hx⟩ := mem_collect.mp hx
        have hc := ht.2.1 x.1
        rw [paramDiff_some hx] at hc
        obtain ⟨pt, vt, hc, _⟩ := hc.param
        exact ⟨by omega, by rw [hc]; simp, hpar _ _ hx⟩)
    obtain ⟨w, hw, hwlen, hwin, hwout⟩ := applyLists_spec ad dn tb.items P
      (collect t.values.length fun i =>
        listDiff (gd fun p => ptr (i :: p)) nl (entry tb.items i) (entry f.values i) (entry t.values i)) v (collect_nodup _ _) (by
        intro x hx
        obtain ⟨hlt, hx⟩ := mem_collect.mp hx
        refine ⟨by omega, ?_⟩
        have hnot : entry v x.1 = entry g.values x.1 := by
          refine hvout x.1 ?_
          intro hmem
          obtain ⟨_, hne⟩ := mem_collect_keys.mp hmem
          obtain ⟨p, hp⟩ := Option.ne_none_iff_exists'.mp hne
          obtain ⟨m, s, he, _⟩ := listDiff_some hx
          rw [paramDiff_some hp] at he
          cases he
        rw [hnot]
        exact hlis _ _ hx)
    obtain ⟨rf, hrf, hrflen, hrfin, hrfout⟩ := applyRefs_spec tb.refs (fun i q => entry t.refs i = some q)
      (collect t.refs.length fun i => refDiff (entry f.refs i) (entry t.refs i)) g.refs (collect_nodup _ _) (by
        intro x hx
        obtain ⟨hlt, hx⟩ := mem_collect.mp hx
        obtain ⟨vt, hvt, _⟩ := ht.2.2.2 x.1 x.2 (refDiff_some hx)
        exact ⟨by omega, by rw [hvt]; simp, refDiff_some hx⟩)
    refine ⟨⟨w, rf⟩, by simp only [modifyItem, hv, hw, hrf, Res.bind_ok, Res.map_ok], by simp only; omega, by simp only; omega, ?_, ?_⟩
    · intro i
      by_cases hi : i < t.values.length
      · cases hp : paramDiff (ptr [i]) (entry f.values i) (entry t.values i) with
        | some p =>
          right
          have hnl : i ∉ (collect t.values.length fun i =>
              listDiff (gd fun p => ptr (i :: p)) nl (entry tb.items i) (entry f.values i) (entry t.values i)).map (·.1) := by
            intro hmem
            obtain ⟨_, hne⟩ := mem_collect_keys.mp hmem
            obtain ⟨d, hd⟩ := Option.ne_none_iff_exists'.mp hne
            obtain ⟨m, s, he, _⟩ := listDiff_some hd
            rw [paramDiff_some hp] at he
            cases he
          obtain ⟨c, hc, hP⟩ := hvin i (mem_collect_keys.mpr ⟨hi, by rw [hp]; simp⟩)
          exact ⟨c, by simp only; rw [hwout i hnl, hc], hP⟩
        | none =>
          cases hd : listDiff (gd fun p => ptr (i :: p)) nl (entry tb.items i) (entry f.values i) (entry t.values i) with
          | some d =>
            right
            exact hwin i (mem_collect_keys.mpr ⟨hi, by rw [hd]; simp⟩)
          | none =>
            left
            refine ⟨rfl, rfl, ?_⟩
            simp only
            rw [hwout i fun hm => (mem_collect_keys.mp hm).2 hd, hvout i fun hm => (mem_collect_keys.mp hm).2 hp]
      · left
        have ht' : entry t.values i = none := entry_ge (Nat.not_lt.mp hi)
        refine ⟨by rw [ht']; rfl, by rw [ht']; rfl, ?_⟩
        rw [entry_ge (by simp only; omega), entry_ge (by omega)]
    · intro i
      by_cases hm : i ∈ (collect t.refs.length fun i => refDiff (entry f.refs i) (entry t.refs i)).map (·.1)
      · right
        obtain ⟨c, h1, h2⟩ := hrfin i hm
        simp only
        rw [h1, h2]
      · by_cases hi : i < t.refs.length
        · left
          refine ⟨?_, hrfout i hm⟩
          cases hr : refDiff (entry f.refs i) (entry t.refs i) with
          | none => rfl
          | some q => exact absurd (mem_collect_keys.mpr ⟨hi, by rw [hr]; simp⟩) hm
        · left
          have ht' : entry t.refs i = none := entry_ge (Nat.not_lt.mp hi)
          exact ⟨by rw [ht']; rfl, hrfout i hm⟩


/-- Applying the diff of an item. -/
theorem modifyItem_loose (hl : LevelLoose ok st lo gd nl ad dn) {ptr : Ptr} {tb : Table S} {g f t : Row X}
    (hg : RowOk ok tb g) (hf : RowOk ok tb f) (ht : RowOk ok tb t) (hlo : RowLoose lo g f) (hst : RowStays st f t) {d : RowDiff D}
    (h : compareItems ptr gd nl tb f t = some d) :
    ∃ r, modifyItem ad dn tb g d = .ok r ∧ RowOk ok tb r ∧ RowLoose lo r t ∧ RowStays st g r := by
  obtain ⟨r, hr, hlen, hrlen, hvals, hrefs⟩ := modifyItem_on (ad := ad) (dn := dn) (g := g) hg ht
    (fun i c => CellLoose lo (some c) (entry t.values i) ∧ CellStays st (entry g.values i) (some c) ∧ CellOk ok (entry tb.items i) (some c))
    (fun i p hp => by
      have hti := paramDiff_some hp
      have hto := ht.2.1 i
      rw [hti] at hto ⊢
      refine ⟨ParamLoose.refl p, ?_, hto⟩
      have h1 := hlo.1 i
      have h2 := hst.1 i
      rw [hti] at h2
      rcases hgi : entry g.values i with _ | (q | (_ | a)) <;> rcases hfi : entry f.values i with _ | (q' | (_ | b)) <;>
        rw [hgi, hfi] at h1 <;> rw [hfi] at h2 <;> simp only [CellLoose] at h1
      · trivial
      · exact ⟨p, rfl⟩
      · obtain ⟨_, h2⟩ := h2; cases h2
      · obtain ⟨_, h2, _⟩ := h2; cases h2)
    (fun i d hd => by
      obtain ⟨s, x, h1, h2, h3, h4, h5⟩ := applyList_loose hl (hg.2.1 i) (hf.2.1 i) (ht.2.1 i) (hlo.1 i) (hst.1 i) hd
      exact ⟨s, x, h1, h2, h3, h4, h5⟩) h
  have hloose : ∀ i, CellLoose lo (entry r.values i) (entry t.values i) ∧ CellStays st (entry g.values i) (entry r.values i) ∧
      CellOk ok (entry tb.items i) (entry r.values i) := by
    intro i
    rcases hvals i with ⟨h1, h2, h3⟩ | ⟨c, h1, h2⟩
    · rw [h3]
      exact ⟨(hlo.1 i).trans hl.trans (cell_loose hl (hf.2.1 i) (ht.2.1 i) (hst.1 i) h1 h2), CellStays.refl hl.stays (hg.2.1 i), hg.2.1 i⟩
    · rw [h1]; exact h2
  have hr2 : ∀ i, entry r.refs i = entry t.refs i := by
    intro i
    rcases hrefs i with ⟨h1, h2⟩ | h1
    · rw [h2, hlo.2 i]; exact refDiff_none (hst.2 i) h1
    · exact h1
  refine ⟨r, hr, ⟨hlen.trans ht.1, fun i => (hloose i).2.2, hrlen.trans ht.2.2.1, fun i q hq => ht.2.2.2 i q (by rw [← hr2 i]; exact hq)⟩,
    ⟨fun i => (hloose i).1, hr2⟩, fun i => (hloose i).2.1, fun i hi => ?_⟩
  rw [hlo.2 i]
  exact hst.2 i (by rw [← hr2 i]; exact hi)


/-! ## Lists -/

/-- The first part of a diff, applied to a list with the same ids in any order. -/
theorem phase1_loose (ad : S → X → D → Res X) (dn : S → D → Res X) (tb : Table S) (em : Nat × Row X → Option (Nat × ItemDiff D))
    (keep : Nat → Bool) (P : Nat → Row X → Prop) (nx : Nat) (xs : List (Nat × Row X)) (L : List (Nat × Row X))
    (hxs : (xs.map (·.1)).Nodup) (hL : (L.map (·.1)).Nodup) (hsub : ∀ x ∈ xs, x.1 ∈ L.map (·.1))
    (h : ∀ x ∈ xs, (em x = none ∧ keep x.1 = true ∧ ∀ y ∈ L, y.1 = x.1 → P x.1 y.2) ∨
      (∃ d, em x = some (x.1, .modify d) ∧ keep x.1 = true ∧ ∀ y ∈ L, y.1 = x.1 → ∃ row, modifyItem ad dn tb y.2 d = .ok row ∧ P x.1 row) ∨
      (em x = some (x.1, .delete) ∧ keep x.1 = false)) :
    ∃ R, applyItems ad dn tb (xs.filterMap em) ⟨L, nx⟩ = .ok ⟨R, nx⟩ ∧
      R.map (·.1) = (L.map (·.1)).filter (fun i => decide (i ∉ xs.map (·.1)) || keep i) ∧
      ∀ y ∈ R, (y.1 ∈ xs.map (·.1) → P y.1 y.2) ∧ (y.1 ∉ xs.map (·.1) → y ∈ L) := by
  induction xs generalizing L with
  | nil =>
    refine ⟨L, rfl, ?_, fun y hy => ⟨fun h => (nomatch h), fun _ => hy⟩⟩
    rw [List.filter_eq_self.mpr]
    intro i _
    simp
  | cons x xs ih =>
    rw [List.map_cons, List.nodup_cons] at hxs
    have hfil : ∀ (M : List Nat), keep x.1 = true →
        M.filter (fun i => decide (i ∉ (x :: xs).map (·.1)) || keep i) = M.filter (fun i => decide (i ∉ xs.map (·.1)) || keep i) := by
      intro M hk
      refine List.filter_congr fun i _ => ?_
      by_cases hi : i = x.1
      · rw [hi, hk]; simp
      · rw [decide_eq_decide.mpr (not_congr (show i ∈ (x :: xs).map (·.1) ↔ i ∈ xs.map (·.1) by rw [List.map_cons, List.mem_cons]; simp [hi]))]
    rcases h x (by simp) with ⟨h1, h2, h3⟩ | ⟨d, h1, h2, h3⟩ | ⟨h1, h2⟩
    · obtain ⟨R, hR1, hR2, hR3⟩ := ih L hxs.2 hL (fun y hy => hsub y (by simp [hy])) (fun y hy => h y (by simp [hy]))
      refine ⟨R, by rw [List.filterMap_cons, h1]; exact hR1, by rw [hfil _ h2]; exact hR2, fun y hy => ⟨fun hm => ?_, fun hm => ?_⟩⟩
      · rw [List.map_cons, List.mem_cons] at hm
        rcases hm with hm | hm
        · have := (hR3 y hy).2 (by rw [hm]; exact hxs.1)
          rw [hm]; exact h3 y this hm
        · exact (hR3 y hy).1 hm
      · exact (hR3 y hy).2 fun hm' => hm (by rw [List.map_cons]; exact List.mem_cons_of_mem _ hm')
    · obtain ⟨z, hz, hzid⟩ := List.mem_map.mp (hsub x (by simp))
      obtain ⟨row, hrow, hP⟩ := h3 z hz hzid
      have hfind : (SList.mk L nx).find x.1 = some z := by
        rw [← hzid]; exact find_mem (l := ⟨L, nx⟩) hL hz
      have hstep : applyItem ad dn tb ⟨L, nx⟩ (x.1, .modify d) = .ok ⟨L.map fun y => if y.1 = x.1 then (y.1, row) else y, nx⟩ := by
        unfold applyItem
        simp only [hfind, hrow, Res.map_ok, SList.step]
      have hids : (L.map fun y => if y.1 = x.1 then (y.1, row) else y).map (·.1) = L.map (·.1) := by
        rw [List.map_map]
        refine List.map_congr_left fun y _ => ?_
        simp only [Function.comp]
        split <;> rfl
      have hother : ∀ y ∈ (L.map fun y => if y.1 = x.1 then (y.1, row) else y), y.1 ≠ x.1 → y ∈ L := by
        intro y hy hne
        obtain ⟨w, hw, rfl⟩ := List.mem_map.mp hy
        split at hne
        · rename_i he; exact absurd he hne
        · rename_i he; rw [if_neg he]; exact hw
      have hthis : ∀ y ∈ (L.map fun y => if y.1 = x.1 then (y.1, row) else y), y.1 = x.1 → y.2 = row := by
        intro y hy he
        obtain ⟨w, hw, rfl⟩ := List.mem_map.mp hy
        split at he
        · rename_i h'; rw [if_pos h']
        · rename_i h'; exact absurd he h'
      obtain ⟨R, hR1, hR2, hR3⟩ := ih (L.map fun y => if y.1 = x.1 then (y.1, row) else y) hxs.2 (by rw [hids]; exact hL)
        (fun y hy => by rw [hids]; exact hsub y (by simp [hy])) (fun y hy => by
          have hne : ∀ w : Nat × Row X, w.1 = y.1 → w.1 ≠ x.1 := fun w hw he => hxs.1 (List.mem_map.mpr ⟨y, hy, by rw [← hw, he]⟩)
          rcases h y (by simp [hy]) with ⟨g1, g2, g3⟩ | ⟨d', g1, g2, g3⟩ | g
          · exact Or.inl ⟨g1, g2, fun w hw he => g3 w (hother w hw (hne w he)) he⟩
          · exact Or.inr (Or.inl ⟨d', g1, g2, fun w hw he => g3 w (hother w hw (hne w he)) he⟩)
          · exact Or.inr (Or.inr g))
      refine ⟨R, ?_, by rw [hfil _ h2, hR2, hids], fun y hy => ⟨fun hm => ?_, fun hm => ?_⟩⟩
      · rw [List.filterMap_cons, h1]
        simp only
        rw [applyItems, hstep, Res.bind_ok]
        exact hR1
      · rw [List.map_cons, List.mem_cons] at hm
        rcases hm with hm | hm
        · have := (hR3 y hy).2 (by rw [hm]; exact hxs.1)
          rw [hthis y this hm, hm]; exact hP
        · exact (hR3 y hy).1 hm
      · rw [List.map_cons, List.mem_cons, not_or] at hm
        exact hother y ((hR3 y hy).2 hm.2) hm.1
    · have hstep : applyItem ad dn tb ⟨L, nx⟩ (x.1, .delete) = .ok ⟨L.filter (·.1 ≠ x.1), nx⟩ := by
        unfold applyItem
        simp only [SList.step, SList.without]
      have hids : (L.filter (·.1 ≠ x.1)).map (·.1) = (L.map (·.1)).filter (· ≠ x.1) := by
        rw [List.filter_map]; rfl
      obtain ⟨R, hR1, hR2, hR3⟩ := ih (L.filter (·.1 ≠ x.1)) hxs.2 (by rw [hids]; exact List.Nodup.filter _ hL)
        (fun y hy => by
          rw [hids]
          refine List.mem_filter.mpr ⟨hsub y (by simp [hy]), decide_eq_true fun he => hxs.1 (List.mem_map.mpr ⟨y, hy, he⟩)⟩)
        (fun y hy => by
          rcases h y (by simp [hy]) with ⟨g1, g2, g3⟩ | ⟨d', g1, g2, g3⟩ | g
          · exact Or.inl ⟨g1, g2, fun w hw he => g3 w (List.mem_of_mem_filter hw) he⟩
          · exact Or.inr (Or.inl ⟨d', g1, g2, fun w hw he => g3 w (List.mem_of_mem_filter hw) he⟩)
          · exact Or.inr (Or.inr g))
      have hmemR : ∀ y ∈ R, y.1 ≠ x.1 := by
        intro y hy
        have : y.1 ∈ R.map (·.1) := List.mem_map.mpr ⟨y, hy, rfl⟩
        rw [hR2, hids] at this
        simpa using (List.mem_filter.mp (List.mem_of_mem_filter this)).2
      refine ⟨R, ?_, ?_, fun y hy => ⟨fun hm => ?_, fun hm => ?_⟩⟩
      · rw [List.filterMap_cons, h1]
        simp only
        rw [applyItems, hstep, Res.bind_ok]
        exact hR1
      · rw [hR2, hids, List.filter_filter]
        refine List.filter_congr fun i _ => ?_
        by_cases hi : i = x.1
        · subst hi; simp [h2]
        · have hiff : i ∈ (x :: xs).map (·.1) ↔ i ∈ xs.map (·.1) := by rw [List.map_cons, List.mem_cons]; simp [hi]
          rw [Bool.eq_iff_iff]
          simp only [Bool.and_eq_true, Bool.or_eq_true, decide_eq_true_eq, hiff]
          tauto
      · rw [List.map_cons, List.mem_cons] at hm
        rcases hm with hm | hm
        · exact absurd hm (hmemR y hy)
        · exact (hR3 y hy).1 hm
      · rw [List.map_cons, List.mem_cons, not_or] at hm
        exact List.mem_of_mem_filter ((hR3 y hy).2 hm.2)

theorem ListLoose.trans (ht : ∀ x y z, lo x y → lo y z → lo x z) {a b c : SList (Row X)} (h1 : ListLoose lo a b) (h2 : ListLoose lo b c) :
    ListLoose lo a c := by
  refine ⟨h1.1.trans h2.1, Nat.le_trans h1.2.1 h2.2.1, fun x hx z hz he => ?_⟩
  obtain ⟨y, hy, hyid⟩ := List.mem_map.mp (h1.1.mem_iff.mp (mem_ids hx))
  exact (h1.2.2 x hx y hy hyid.symm).trans ht (h2.2.2 y hy z hz (hyid.trans he))

/-- Applying the diff of two lists to a list that is the first one, but for what is not stored. -/
theorem applyListDiff_loose (hl : LevelLoose ok st lo gd nl ad dn) {st0 : X → X → Prop} (hl0 : LevelOk ok st0 gd nl ad dn) {ptr : Ptr}
    {tb : Table S} {g a b : SList (Row X)} (hg : ListOkF ok tb g) (ha : ListOkF ok tb a) (hb : ListOkF ok tb b) (hlo : ListLoose lo g a)
    (hst : ListStays st a b) {d : ListDiff D} (h : getMListDiff ptr gd nl tb a b = some d) :
    ∃ r, applyListDiff ad dn tb g d = .ok r ∧ ListOkF ok tb r ∧ ListLoose lo r b ∧ ListStays st g r := by
  obtain ⟨hg, _⟩ := hg
  obtain ⟨ha, _⟩ := ha
  obtain ⟨hb, hbf⟩ := hb
  rw [getMListDiff_some h, applyListDiff]
  simp only [SList.step]
  rw [applyItems_append]
  have hrow := hg.2.2.2.2.2.2
  have hmemg : ∀ x ∈ a.items, x.1 ∈ g.items.map (·.1) := fun x hx => hlo.1.mem_iff.mpr (mem_ids hx)
  obtain ⟨R, hR1, hR2, hR3⟩ := phase1_loose ad dn tb (oldItem ptr gd nl tb b) (fun i => decide (i ∈ b.ids))
    (fun i r => ∃ y ∈ g.items, y.1 = i ∧ ∃ z ∈ b.items, z.1 = i ∧ RowOk ok tb r ∧ RowLoose lo r z.2 ∧ RowStays st y.2 r)
    b.nextId a.items g.items ha.2.2.1 hg.2.2.1 hmemg (by
      intro x hx
      unfold oldItem
      cases hf : b.find x.1 with
      | none => exact Or.inr (Or.inr ⟨rfl, decide_eq_false (find_none.mp hf)⟩)
      | some z =>
        obtain ⟨hz, he⟩ := find_some hf
        have hk : decide (x.1 ∈ b.ids) = true := decide_eq_true (by rw [← he]; exact mem_ids hz)
        have hxok := ha.2.2.2.2.2.2 x hx
        have hzok := hb.2.2.2.2.2.2 z hz
        have hs := hst.2.2 x hx z hz he.symm
        simp only
        cases hc : compareItems (fun p => ptr (x.1 :: p)) gd nl tb x.2 z.2 with
        | none =>
          refine Or.inl ⟨rfl, hk, fun y hy hyid => ⟨y, hy, hyid, z, hz, he, hrow y hy, ?_, RowStays.refl hl.stays (hrow y hy)⟩⟩
          exact (hlo.2.2 y hy x hx hyid).trans hl.trans (compareItems_loose hl hxok hzok hs hc)
        | some d =>
          refine Or.inr (Or.inl ⟨d, rfl, hk, fun y hy hyid => ?_⟩)
          obtain ⟨r, h1, h2, h3, h4⟩ := modifyItem_loose hl (hrow y hy) hxok hzok (hlo.2.2 y hy x hx hyid) hs hc
          exact ⟨r, h1, y, hy, hyid, z, hz, he, h2, h3, h4⟩)
  have hids : R.map (·.1) = g.ids.filter (· ∈ b.ids) := by
    rw [hR2]
    refine List.filter_congr fun i hi => ?_
    have : i ∈ a.items.map (·.1) := hlo.1.mem_iff.mp hi
    simp [this]
  have hmem : ∀ i, i ∈ R.map (·.1) ↔ i ∈ a.ids ∧ i ∈ b.ids := by
    intro i; rw [hids, List.mem_filter, hlo.1.mem_iff]; simp
  have hRnd : (R.map (·.1)).Nodup := by rw [hids]; exact List.Nodup.filter _ hg.2.2.1
  rw [hR1, Res.bind_ok]
  obtain ⟨Q, h1, h2, _⟩ := phase2_any ad dn tb (fun id => decide (id ∈ a.ids)) (newItem nl tb) b.items R none b.nextId hb.2.2.1 hRnd
    (fun x hx ho => (hmem _).mpr ⟨of_decide_eq_true ho, mem_ids hx⟩)
    (fun x hx ho hm => absurd ((hmem _).mp hm).1 (of_decide_eq_false ho))
    (fun p hp => nomatch hp)
    (fun x hx _ => newItemFromDiff_newItem hl0 (hb.2.2.2.2.2.2 x hx))
  have hQ : ∀ y ∈ Q, (y.1 ∈ a.ids ∧ ∃ w ∈ g.items, w.1 = y.1 ∧ ∃ z ∈ b.items, z.1 = y.1 ∧ RowOk ok tb y.2 ∧ RowLoose lo y.2 z.2 ∧
      RowStays st w.2 y.2) ∨ (y.1 ∉ a.ids ∧ y ∈ b.items) := by
    intro y hy
    rcases List.mem_append.mp (h2.mem_iff.mp hy) with hy | hy
    · have hya := ((hmem y.1).mp (List.mem_map.mpr ⟨y, hy, rfl⟩)).1
      exact Or.inl ⟨hya, (hR3 y hy).1 hya⟩
    · obtain ⟨hy1, hy2⟩ := List.mem_filter.mp hy
      exact Or.inr ⟨by simpa using hy2, hy1⟩
  have hperm : (SList.mk Q b.nextId).ids.Perm b.ids := by
    have hnd : ((R ++ b.items.filter fun x => !decide (x.1 ∈ a.ids)).map (·.1)).Nodup := by
      rw [List.map_append, List.nodup_append]
      refine ⟨hRnd, (List.filter_sublist.map _).nodup hb.2.2.1, ?_⟩
      rintro i hi j hj rfl
      obtain ⟨y, hy, rfl⟩ := List.mem_map.mp hj
      have := (List.mem_filter.mp hy).2
      exact absurd ((hmem _).mp hi).1 (by simpa using this)
    refine (h2.map (·.1)).trans ((List.perm_ext_iff_of_nodup hnd hb.2.2.1).mpr ?_)
    intro i
    rw [List.map_append, List.mem_append, hmem]
    constructor
    · rintro (hi | hi)
      · exact hi.2
      · obtain ⟨y, hy, rfl⟩ := List.mem_map.mp hi
        exact mem_ids (List.mem_of_mem_filter hy)
    · intro hi
      by_cases hia : i ∈ a.ids
      · exact Or.inl ⟨hia, hi⟩
      · obtain ⟨y, hy, rfl⟩ := List.mem_map.mp hi
        exact Or.inr (List.mem_map.mpr ⟨y, List.mem_filter.mpr ⟨hy, by simpa using hia⟩, rfl⟩)
  have hlen : Q.length = b.items.length := by
    have := hperm.length_eq
    unfold SList.ids at this
    rwa [List.length_map, List.length_map] at this
  refine ⟨⟨Q, b.nextId⟩, h1, ⟨⟨hb.1, hb.2.1, hperm.nodup_iff.mpr hb.2.2.1, fun i hi => hb.2.2.2.1 i (hperm.mem_iff.mp hi), hb.2.2.2.2.1,
    by rw [hlen]; exact hb.2.2.2.2.2.1, fun y hy => ?_⟩, fun i hi => hbf i (hperm.mem_iff.mp hi)⟩,
    ⟨hperm, Nat.le_refl _, fun y hy z hz he => ?_⟩, Nat.le_trans hlo.2.1 hst.1,
    fun i hi => (hst.2.1 i (hperm.mem_iff.mp hi)).imp hlo.1.mem_iff.mpr (Nat.le_trans hlo.2.1), fun w hw y hy he => ?_⟩
  · rcases hQ y hy with ⟨_, _, _, _, _, _, _, h, _⟩ | ⟨_, hy⟩
    · exact h
    · exact hb.2.2.2.2.2.2 y hy
  · rcases hQ y hy with ⟨_, _, _, _, z', hz', hid, _, h, _⟩ | ⟨_, hy'⟩
    · rw [List.inj_on_of_nodup_map hb.2.2.1 hz hz' (he.symm.trans hid.symm)]; exact h
    · rw [List.inj_on_of_nodup_map hb.2.2.1 hz hy' he.symm]; exact RowLoose.refl hl.refl (hb.2.2.2.2.2.2 y hy')
  · rcases hQ y hy with ⟨_, w', hw', hid, _, _, _, _, _, h⟩ | ⟨hn, _⟩
    · rw [List.inj_on_of_nodup_map hg.2.2.1 hw hw' (he.trans hid.symm)]; exact h
    · exact absurd (by rw [← he]; exact hlo.1.mem_iff.mp (mem_ids hw)) hn

/-- Lists without difference are the same, but for what is not stored. -/
theorem getMListDiff_loose (hl : LevelLoose ok st lo gd nl ad dn) {ptr : Ptr} {tb : Table S} {a b : SList (Row X)}
    (ha : ListOk ok tb a) (hb : ListOk ok tb b) (hst : ListStays st a b) (h : getMListDiff ptr gd nl tb a b = none) : ListLoose lo a b := by
  unfold getMListDiff at h
  simp only at h
  split at h
  · rename_i h0
    rw [List.length_append] at h0
    have hc := creates_nil (Nat.eq_zero_of_add_eq_zero_left h0)
    have hold := List.length_eq_zero_iff.mp (Nat.eq_zero_of_add_eq_zero_right h0)
    have hall : ∀ x ∈ a.items, oldItem ptr gd nl tb b x = none := List.filterMap_eq_nil_iff.mp hold
    have hfind : ∀ x ∈ a.items, ∃ z, b.find x.1 = some z ∧ compareItems (fun p => ptr (x.1 :: p)) gd nl tb x.2 z.2 = none := by
      intro x hx
      have h1 := hall x hx
      unfold oldItem at h1
      cases hf : b.find x.1 with
      | none => rw [hf] at h1; cases h1
      | some z =>
        rw [hf] at h1
        simp only [Option.map_eq_none_iff] at h1
        exact ⟨z, rfl, h1⟩
    refine ⟨(List.perm_ext_iff_of_nodup ha.2.2.1 hb.2.2.1).mpr fun i => ⟨fun hi => ?_, fun hi => ?_⟩, hst.1, fun x hx z hz he => ?_⟩
    · obtain ⟨x, hx, rfl⟩ := List.mem_map.mp hi
      obtain ⟨z, hz, _⟩ := hfind x hx
      obtain ⟨hz, he⟩ := find_some hz
      rw [← he]; exact mem_ids hz
    · obtain ⟨y, hy, rfl⟩ := List.mem_map.mp hi
      exact of_decide_eq_true (hc y hy)
    · obtain ⟨z', hz', hcmp⟩ := hfind x hx
      obtain ⟨hz', he'⟩ := find_some hz'
      have : z = z' := List.inj_on_of_nodup_map hb.2.2.1 hz hz' (he.symm.trans he'.symm)
      subst this
      exact compareItems_loose hl (ha.2.2.2.2.2.2 x hx) (hb.2.2.2.2.2.2 z hz) (hst.2.2 x hx z hz he) hcmp
  · cases h

/-- The same holds one level up. -/
theorem LevelLoose.succ (hl : LevelLoose ok st lo gd nl ad dn) {st0 : X → X → Prop} (hl0 : LevelOk ok st0 gd nl ad dn) :
    LevelLoose (ListOkF ok) (ListStays st) (ListLoose lo) (fun ptr tb a b => getMListDiff ptr gd nl tb a b) (fun tb b => newList nl tb b)
      (fun tb a d => applyListDiff ad dn tb a d) (fun tb d => diffToNewList ad dn tb d) where
  refl := fun _ _ ⟨h, _⟩ => ⟨List.Perm.refl _, Nat.le_refl _, fun _ hx _ hy he => by
    rw [List.inj_on_of_nodup_map h.2.2.1 hx hy he]; exact RowLoose.refl hl.refl (h.2.2.2.2.2.2 _ hy)⟩
  trans := fun _ _ _ h1 h2 => h1.trans hl.trans h2
  stays := fun _ _ ⟨h, _⟩ => ⟨Nat.le_refl _, fun _ hi => Or.inl hi, fun _ hx _ hy he => by
    rw [List.inj_on_of_nodup_map h.2.2.1 hx hy he]; exact RowStays.refl hl.stays (h.2.2.2.2.2.2 _ hy)⟩
  new := fun _ _ hb => diffToNewList_newList hl0 hb.1
  same := fun _ _ a b ha hb hst h => getMListDiff_loose hl ha.1 hb.1 hst h
  mod := fun _ _ _ _ _ _ hg ha hb hlo hst h => applyListDiff_loose hl hl0 hg ha hb hlo hst h

end

theorem CellOk.mono {S X : Type} {ok ok' : S → X → Prop} (h : ∀ s x, ok s x → ok' s x) {c : Option (Col S)} {f : Option (Cell X)}
    (hf : CellOk ok c f) : CellOk ok' c f := by
  rcases c with _ | (_ | c | c) <;> rcases f with _ | (p | (_ | x)) <;> first | exact hf | exact h _ _ hf

theorem RowOk.mono {S X : Type} {ok ok' : S → X → Prop} (h : ∀ s x, ok s x → ok' s x) {tb : Table S} {r : Row X} (hr : RowOk ok tb r) :
    RowOk ok' tb r := ⟨hr.1, fun i => (hr.2.1 i).mono h, hr.2.2⟩

theorem ListOk.mono {S X : Type} {ok ok' : S → X → Prop} (h : ∀ s x, ok s x → ok' s x) {tb : Table S} {l : SList (Row X)}
    (hl : ListOk ok tb l) : ListOk ok' tb l :=
  ⟨hl.1, hl.2.1, hl.2.2.1, hl.2.2.2.1, hl.2.2.2.2.1, hl.2.2.2.2.2.1, fun x hx => (hl.2.2.2.2.2.2 x hx).mono h⟩

theorem objOk_of_objOkF : ∀ (n : Nat) (s : Sch n) (x : Obj n), ObjOkF n s x → ObjOk n s x
  | 0, s, _, _ => nomatch s
  | n + 1, _, _, h => ListOk.mono (objOk_of_objOkF n) h.1

theorem levelOkF (n : Nat) : LevelOk (ObjOkF n) (ObjStep n) (getDiffN n) (newListN n) (applyN n).2 (applyN n).1 := by
  have h := levelOk n
  have m := objOk_of_objOkF n
  exact ⟨fun s b hb => h.new s b (m _ _ hb), fun ptr s a b d ha hb => h.tot ptr s a b d (m _ _ ha) (m _ _ hb),
    fun ptr s a b ha hb => h.same ptr s a b (m _ _ ha) (m _ _ hb), fun ptr s a b d ha hb => h.mod ptr s a b d (m _ _ ha) (m _ _ hb)⟩

theorem levelLoose (n : Nat) : LevelLoose (ObjOkF n) (ObjStays n) (ObjLoose n) (getDiffN n) (newListN n) (applyN n).2 (applyN n).1 := by
  induction n with
  | zero =>
    exact ⟨fun s => Empty.elim s, fun a => Empty.elim a, fun s => Empty.elim s, fun s => Empty.elim s, fun _ s => Empty.elim s,
      fun _ s => Empty.elim s⟩
  | succ n ih => exact ih.succ (levelOkF n)

/-! ## The root object -/

theorem optUndefined_loose {n : Nat} {sch : RootSch n} {a b : Root n} (h : RootLoose n a b) (hb : OptListsUndefined n sch b) :
    OptListsUndefined n sch a := by
  intro i s hi
  have h1 := h i
  rw [hb i s hi] at h1
  rcases hx : entry a i with _ | (p | (_ | x)) <;> rw [hx] at h1 <;> simp only [CellLoose] at h1

/-- Applying the diff of two root objects to an object that is the first one, but for what is not stored. -/
theorem applyRootDiff_loose {n : Nat} {ptr : Ptr} {sch : RootSch n} {g f t : Root n} (hg : RootOkF n sch g) (hf : RootOkF n sch f)
    (ht : RootOkF n sch t) (hof : OptListsUndefined n sch f) (hot : OptListsUndefined n sch t) (hlo : RootLoose n g f)
    (hst : RootStays n f t) {d : RootDiff (DiffT n)} (h : getRootDiff n ptr sch f t = .ok d) :
    ∃ r, applyRootDiff n sch g d = .ok r ∧ RootOkF n sch r ∧ RootLoose n r t ∧ RootStays n g r := by
  obtain ⟨hg, hgf⟩ := hg
  obtain ⟨hf, hff⟩ := hf
  obtain ⟨ht, htf⟩ := ht
  rw [getRootDiff_eq ptr hf ht hof hot] at h
  cases h
  have hl := levelLoose n
  have hlen : g.length = t.length := hg.2.1.trans ht.2.1.symm
  let P : Nat → Cell (Obj n) → Prop := fun i c =>
    CellLoose (ObjLoose n) (some c) (entry t i) ∧ CellStays (ObjStays n) (entry g i) (some c) ∧ CellOk (ObjOkF n) (entry sch i) (some c)
  obtain ⟨v, hv, hvlen, hvin, hvout⟩ := applyRootParams_spec sch P
    (collect t.length fun i => paramDiff (ptr [i]) (entry f i) (entry t i)) g (collect_nodup _ _) (by
      intro x hx
      obtain ⟨hlt, hx⟩ := mem_collect.mp hx
      have hc := htf x.1
      have hti := paramDiff_some hx
      have hco := hc
      rw [hti] at hc
      obtain ⟨pt, vt, hc, _⟩ := hc.param
      refine ⟨by omega, by rw [hc]; simp, ?_, ?_, by rw [hti] at hco; exact hco⟩
      · rw [hti]; exact ParamLoose.refl _
      · have h1 := hlo x.1
        have h2 := hst x.1
        rw [hti] at h2
        rcases hgi : entry g x.1 with _ | (q | (_ | a)) <;> rcases hfi : entry f x.1 with _ | (q' | (_ | b)) <;>
          rw [hgi, hfi] at h1 <;> rw [hfi] at h2 <;> simp only [CellLoose] at h1
        · trivial
        · exact ⟨_, rfl⟩
        · obtain ⟨_, h2⟩ := h2; cases h2
        · obtain ⟨_, h2, _⟩ := h2; cases h2)
  obtain ⟨w, hw, hwlen, hwin, hwout⟩ := applyRootLists_spec (applyN n).2 (applyN n).1 sch P
    (collect t.length fun i => listDiff (getDiffN n fun p => ptr (i :: p)) (newListN n) (entry sch i) (entry f i) (entry t i))
    v (collect_nodup _ _) (by
      intro x hx
      obtain ⟨hlt, hx⟩ := mem_collect.mp hx
      refine ⟨by omega, ?_⟩
      have hnot : entry v x.1 = entry g x.1 := by
        refine hvout x.1 ?_
        intro hmem
        obtain ⟨_, hne⟩ := mem_collect_keys.mp hmem
        obtain ⟨p, hp⟩ := Option.ne_none_iff_exists'.mp hne
        obtain ⟨m, s, he, _⟩ := listDiff_some hx
        rw [paramDiff_some hp] at he
        cases he
      rw [hnot]
      obtain ⟨s, c, h1, h2, h3, h4, h5⟩ := applyList_loose hl (hgf x.1) (hff x.1) (htf x.1) (hlo x.1) (hst x.1) hx
      refine ⟨s, c, h1, ?_, h3, h4, h5⟩
      have hne : entry g x.1 ≠ none := by
        cases hs : entry sch x.1 with
        | none => rw [hs] at h1; cases h1
        | some col =>
          cases col with
          | param => rw [hs] at h1; cases h1
          | mlist s' => exact hg.2.2.2 x.1 s' (Or.inl hs)
          | optMil s' => exact hg.2.2.2 x.1 s' (Or.inr hs)
      have hgc := hg.2.2.1 x.1
      cases hge : entry g x.1 with
      | none => exact absurd hge hne
      | some gc =>
        cases gc with
        | param p =>
          rw [hge] at hgc
          obtain ⟨pt, vt, hc, _⟩ := hgc.param
          rw [hc] at h1
          cases h1
        | mil m => rw [applyRootList_eq, ← hge]; exact h2)
  have key : ∀ i, CellLoose (ObjLoose n) (entry w i) (entry t i) ∧ CellStays (ObjStays n) (entry g i) (entry w i) ∧
      CellOk (ObjOkF n) (entry sch i) (entry w i) := by
    intro i
    by_cases hi : i < t.length
    · by_cases hml : i ∈ (collect t.length fun i =>
          listDiff (getDiffN n fun p => ptr (i :: p)) (newListN n) (entry sch i) (entry f i) (entry t i)).map (·.1)
      · obtain ⟨c, h1, h2⟩ := hwin i hml
        rw [h1]; exact h2
      · rw [hwout i hml]
        by_cases hmp : i ∈ (collect t.length fun i => paramDiff (ptr [i]) (entry f i) (entry t i)).map (·.1)
        · obtain ⟨c, h1, h2⟩ := hvin i hmp
          rw [h1]; exact h2
        · rw [hvout i hmp]
          have h1 : paramDiff (ptr [i]) (entry f i) (entry t i) = none :=
            Classical.byContradiction fun hc => hmp (mem_collect_keys.mpr ⟨hi, hc⟩)
          have h2 : listDiff (getDiffN n fun p => ptr (i :: p)) (newListN n) (entry sch i) (entry f i) (entry t i) = none :=
            Classical.byContradiction fun hc => hml (mem_collect_keys.mpr ⟨hi, hc⟩)
          exact ⟨(hlo i).trans hl.trans (cell_loose hl (hff i) (htf i) (hst i) h1 h2), CellStays.refl hl.stays (hgf i),
            hgf i⟩
    · rw [entry_ge (l := w) (by omega), entry_ge (l := t) (by omega), entry_ge (l := g) (by omega)]
      exact ⟨trivial, trivial, by cases entry sch i with
        | none => trivial
        | some c => cases c <;> trivial⟩
  refine ⟨w, ?_, ⟨⟨hg.1, by have := hg.2.1; omega, fun i => (key i).2.2.mono (objOk_of_objOkF n), fun i s hi hn => ?_⟩, fun i => (key i).2.2⟩, fun i => (key i).1, fun i => (key i).2.1⟩
  · unfold applyRootDiff
    rw [hv, Res.bind_ok, hw]
  · have h1 := (key i).1
    rw [hn] at h1
    cases hti : entry t i with
    | none => exact ht.2.2.2 i s hi hti
    | some c =>
      rw [hti] at h1
      rcases c with p | (_ | x) <;> exact h1

/-! ## Changes one after another -/

section
variable {S X : Type} {ok : S → X → Prop} {st lo : X → X → Prop}

theorem CellStays.trans (h : ∀ s x y z, ok s x → st x y → st y z → st x z) {c : Option (Col S)} {a b d : Option (Cell X)} (ha : CellOk ok c a)
    (h1 : CellStays st a b) (h2 : CellStays st b d) : CellStays st a d := by
  rcases a with _ | (p | (_ | x))
  · trivial
  · obtain ⟨q, rfl⟩ := h1; exact h2
  · obtain ⟨m, rfl⟩ := h1
    cases m with
    | none => exact h2
    | some y => obtain ⟨z, rfl, _⟩ := h2; exact ⟨_, rfl⟩
  · obtain ⟨y, rfl, hxy⟩ := h1
    obtain ⟨z, rfl, hyz⟩ := h2
    refine ⟨z, rfl, ?_⟩
    rcases c with _ | (_ | s | s)
    · exact ha.elim
    · exact ha.elim
    · exact h s _ _ _ ha hxy hyz
    · exact h s _ _ _ ha hxy hyz

theorem RowStays.trans (h : ∀ s x y z, ok s x → st x y → st y z → st x z) {tb : Table S} {a b d : Row X} (ha : RowOk ok tb a)
    (h1 : RowStays st a b) (h2 : RowStays st b d) : RowStays st a d :=
  ⟨fun i => (h1.1 i).trans h (ha.2.1 i) (h2.1 i), fun i hi => h1.2 i (h2.2 i hi)⟩

theorem ListStays.trans (h : ∀ s x y z, ok s x → st x y → st y z → st x z) {tb : Table S} {a b d : SList (Row X)} (ha : ListOkF ok tb a)
    (h1 : ListStays st a b) (h2 : ListStays st b d) : ListStays st a d := by
  refine ⟨Nat.le_trans h1.1 h2.1, fun i hi => ?_, fun x hx z hz he => ?_⟩
  · rcases h2.2.1 i hi with h3 | h3
    · exact h1.2.1 i h3
    · exact .inr (Nat.le_trans h1.1 h3)
  · have hzi : z.1 ∈ b.ids := by
      rcases h2.2.1 z.1 (List.mem_map_of_mem hz) with h3 | h3
      · exact h3
      · have h4 := ha.2 x.1 (List.mem_map_of_mem hx)
        have h5 := h1.1
        omega
    obtain ⟨y, hy, hyz⟩ := List.mem_map.1 hzi
    exact (h1.2.2 x hx y hy (he.trans hyz.symm)).trans h (ha.1.2.2.2.2.2.2 x hx) (h2.2.2 y hy z hz hyz)

theorem CellStays.of_loose (h : ∀ x y, lo x y → st x y) {a b : Option (Cell X)} (hl : CellLoose lo a b) : CellStays st a b := by
  rcases a with _ | (p | (_ | x)) <;> rcases b with _ | (q | (_ | y)) <;> simp only [CellLoose] at hl
  · trivial
  · exact ⟨_, rfl⟩
  · exact ⟨_, rfl⟩
  · exact ⟨_, rfl, h _ _ hl⟩

theorem ListStays.of_loose (h : ∀ x y, lo x y → st x y) {a b : SList (Row X)} (hl : ListLoose lo a b) : ListStays st a b :=
  ⟨hl.2.1, fun _ hi => .inl (hl.1.mem_iff.2 hi), fun x hx y hy he =>
    ⟨fun i => .of_loose h ((hl.2.2 x hx y hy he).1 i), fun i hi => by rw [(hl.2.2 x hx y hy he).2 i]; exact hi⟩⟩

end

theorem objStays_trans : ∀ (n : Nat) (s : Sch n) (x y z : Obj n), ObjOkF n s x → ObjStays n x y → ObjStays n y z → ObjStays n x z
  | 0, s, _, _, _, _, _, _ => nomatch s
  | n + 1, _, _, _, _, ha, h1, h2 => ListStays.trans (objStays_trans n) ha h1 h2

theorem objStays_of_loose : ∀ (n : Nat) (x y : Obj n), ObjLoose n x y → ObjStays n x y
  | 0, x, _, _ => nomatch x
  | n + 1, _, _, h => ListStays.of_loose (objStays_of_loose n) h

theorem RootStays.refl {n : Nat} {sch : RootSch n} {a : Root n} (ha : RootOkF n sch a) : RootStays n a a :=
  fun i => CellStays.refl (levelLoose n).stays (ha.2 i)

theorem RootLoose.refl {n : Nat} {sch : RootSch n} {a : Root n} (ha : RootOkF n sch a) : RootLoose n a a :=
  fun i => CellLoose.refl (levelLoose n).refl (ha.2 i)

theorem RootLoose.trans {n : Nat} {a b c : Root n} (h1 : RootLoose n a b) (h2 : RootLoose n b c) : RootLoose n a c :=
  fun i => (h1 i).trans (levelLoose n).trans (h2 i)

theorem RootStays.trans {n : Nat} {sch : RootSch n} {a b c : Root n} (ha : RootOkF n sch a) (h1 : RootStays n a b) (h2 : RootStays n b c) :
    RootStays n a c := fun i => (h1 i).trans (objStays_trans n) (ha.2 i) (h2 i)

theorem RootStays.of_loose {n : Nat} {a b : Root n} (h : RootLoose n a b) : RootStays n a b := fun i => .of_loose (objStays_of_loose n) (h i)

end Verif.Diff
