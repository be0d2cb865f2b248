import Verif.Spec.DiffAlike
import Verif.Lemmas.DiffLoose
/-!
# Applying a diff to any version of what it was made for
-/
namespace Verif.Diff
open VarInt Codec Compaction LinkedMap

/-! ## Parameters -/

theorem ParamLoose.symm {p q : Param} (h : ParamLoose p q) : ParamLoose q p := by
  by_cases hp : (∃ a, p = .float (.val a)) ∨ ∃ a, p = .floatArray (.val a)
  · rcases hp with ⟨a, rfl⟩ | ⟨a, rfl⟩
    · cases q with
      | float q =>
        cases q with
        | val b =>
          rcases h with rfl | h
          · exact .inl rfl
          · exact .inr (by rw [eq64_comm]; exact h)
        | null => cases h
        | undef => cases h
      | _ => cases h
    · cases q with
      | floatArray q =>
        cases q with
        | val b =>
          rcases h with rfl | h
          · exact .inl rfl
          · exact .inr (by rw [eqFloats_comm]; exact h)
        | null => cases h
        | undef => cases h
      | _ => cases h
  · have : p = q := by
      cases p with
      | float a => cases a with
        | val a => exact absurd (Or.inl ⟨a, rfl⟩) hp
        | null => exact h
        | undef => exact h
      | floatArray a => cases a with
        | val a => exact absurd (Or.inr ⟨a, rfl⟩) hp
        | null => exact h
        | undef => exact h
      | _ => exact h
    rw [this]
    exact ParamLoose.refl q

section
variable {S X D : Type} {lo st : X → X → Prop}

theorem CellLoose.symm (hs : ∀ x y, lo x y → lo y x) {a b : Option (Cell X)} (h : CellLoose lo a b) : CellLoose lo b a := by
  rcases a with _ | (p | (_ | x)) <;> rcases b with _ | (q | (_ | y)) <;> simp only [CellLoose] at h ⊢
  · exact h.symm
  · exact hs _ _ h

theorem RowLoose.symm (hs : ∀ x y, lo x y → lo y x) {a b : Row X} (h : RowLoose lo a b) : RowLoose lo b a :=
  ⟨fun i => (h.1 i).symm hs, fun i => (h.2 i).symm⟩

theorem ListAlike.symm (hs : ∀ x y, lo x y → lo y x) {a b : SList (Row X)} (h : ListAlike lo a b) : ListAlike lo b a :=
  ⟨h.1.symm, fun x hx y hy he => (h.2 y hy x hx he.symm).symm hs⟩

theorem ListAlike.trans (ht : ∀ x y z, lo x y → lo y z → lo x z) {a b c : SList (Row X)} (h1 : ListAlike lo a b) (h2 : ListAlike lo b c) :
    ListAlike lo a c := by
  refine ⟨h1.1.trans h2.1, fun x hx z hz he => ?_⟩
  obtain ⟨y, hy, hyid⟩ := List.mem_map.mp (h1.1.mem_iff.mp (mem_ids hx))
  exact (h1.2 x hx y hy hyid.symm).trans ht (h2.2 y hy z hz (hyid.trans he))

/-- What is known about the lists inside the items. -/
structure LevelAlike (ok : S → X → Prop) (st lo : X → X → Prop) (gd : Ptr → S → X → X → Option D) (nl : S → X → D)
    (ad : S → X → D → Res X) (dn : S → D → Res X) : Prop where
  refl : ∀ s x, ok s x → lo x x
  trans : ∀ x y z, lo x y → lo y z → lo x z
  new : ∀ s b, ok s b → dn s (nl s b) = .ok b
  same : ∀ ptr s a b, ok s a → ok s b → st a b → gd ptr s a b = none → lo a b
  mod : ∀ ptr s g a b d, ok s g → ok s a → ok s b → lo g a → st a b → gd ptr s a b = some d →
    ∃ r, ad s g d = .ok r ∧ ok s r ∧ lo r b ∧ ∀ e, st e g → st e b → st e r

variable {ok : S → X → Prop} {gd : Ptr → S → X → X → Option D} {nl : S → X → D} {ad : S → X → D → Res X} {dn : S → D → Res X}

/-- The stored list diff gives the new list, but for what is not stored. -/
theorem applyList_alike (hl : LevelAlike ok st lo gd nl ad dn) {ptr : Ptr} {c : Option (Col S)} {g f t : Option (Cell X)}
    (hg : CellOk ok c g) (hf : CellOk ok c f) (ht : CellOk ok c t) (hlo : CellLoose lo g f) (hst : CellStays st f t) {d : Option D}
    (h : listDiff (gd ptr) nl c f t = some d) :
    ∃ s x, c.bind Col.tables = some s ∧ applyList ad dn s g d = .ok x ∧ CellLoose lo (some x) t ∧
      (∀ e, CellStays st e g → CellStays st e t → CellStays st e (some x)) ∧ CellOk ok c (some x) := by
  obtain ⟨m, s, rfl, hs⟩ := listDiff_some h
  obtain ⟨s', hs', hx⟩ := ht.tables
  have : s' = s := by rw [hs] at hs'; exact (Option.some.inj hs').symm
  subst this
  refine ⟨s', ?_⟩
  unfold listDiff at h
  rw [hs] at h
  simp only at h
  have key : ∀ b, m = some b → (dn s' (nl s' b)).map (fun l => Cell.mil (some l)) = .ok (.mil m) :=
    fun b hb => by rw [hl.new s' b (hx b hb), hb]; rfl
  rcases f with _ | (p | (_ | a))
  · rcases g with _ | (q | (_ | g)) <;> simp only [CellLoose] at hlo
    cases m with
    | none => cases h; exact ⟨_, hs, rfl, CellLoose.refl hl.refl ht, fun _ _ h => h, ht⟩
    | some b => cases h; exact ⟨_, hs, key b rfl, CellLoose.refl hl.refl ht, fun _ _ h => h, ht⟩
  · obtain ⟨_, hst⟩ := hst; cases hst
  · rcases g with _ | (q | (_ | g)) <;> simp only [CellLoose] at hlo
    cases m with
    | none => cases h
    | some b => cases h; exact ⟨_, hs, key b rfl, CellLoose.refl hl.refl ht, fun _ _ h => h, ht⟩
  · rcases g with _ | (q | (_ | g)) <;> simp only [CellLoose] at hlo
    obtain ⟨b, hb, hst⟩ := hst
    cases hb
    obtain ⟨s2, hs2, ha⟩ := hf.tables
    have : s2 = s' := by rw [hs] at hs2; exact (Option.some.inj hs2).symm
    subst this
    obtain ⟨s3, hs3, hg'⟩ := hg.tables
    have : s3 = s2 := by rw [hs] at hs3; exact (Option.some.inj hs3).symm
    subst this
    simp only [Option.map_eq_some_iff] at h
    obtain ⟨d', hd, rfl⟩ := h
    obtain ⟨r, h1, h2, h3, h4⟩ := hl.mod ptr s3 g a b d' (hg' g rfl) (ha a rfl) (hx b rfl) hlo hst hd
    refine ⟨.mil (some r), hs, by simp only [applyList, h1, Res.map_ok], h3, ?_, ?_⟩
    · intro e he1 he2
      rcases e with _ | (q | (_ | e))
      · trivial
      · obtain ⟨_, he1⟩ := he1; cases he1
      · exact ⟨_, rfl⟩
      · obtain ⟨x1, hx1, he1⟩ := he1
        obtain ⟨x2, hx2, he2⟩ := he2
        cases hx1
        cases hx2
        exact ⟨r, rfl, h4 e he1 he2⟩
    · rcases c with _ | (_ | c | c)
      · cases hs
      · cases hs
      · cases hs; exact h2
      · cases hs; exact h2

/-- A member that is not stored is the same, but for what is not stored. -/
theorem cell_alike (hl : LevelAlike ok st lo gd nl ad dn) {ptr : Ptr} {b : Bool} {c : Option (Col S)}
    {f t : Option (Cell X)} (hf : CellOk ok c f) (ht : CellOk ok c t) (hst : CellStays st f t)
    (hp : paramDiff b f t = none) (h : listDiff (gd ptr) nl c f t = none) : CellLoose lo f t := by
  rcases f with _ | (p | (_ | a))
  · rcases t with _ | (q | m)
    · trivial
    · cases hp
    · obtain ⟨s, hs, hx⟩ := ht.tables
      unfold listDiff at h
      rw [hs] at h
      cases m <;> cases h
  · obtain ⟨q, rfl⟩ := hst
    unfold paramDiff at hp
    simp only at hp
    split at hp
    · rename_i he
      exact loose_of_identEq he
    · cases hp
  · obtain ⟨m, rfl⟩ := hst
    obtain ⟨s, hs, hx⟩ := ht.tables
    unfold listDiff at h
    rw [hs] at h
    cases m with
    | none => trivial
    | some b => cases h
  · obtain ⟨b', rfl, hst⟩ := hst
    obtain ⟨s, hs, hx⟩ := ht.tables
    unfold listDiff at h
    rw [hs] at h
    obtain ⟨s2, hs2, ha⟩ := hf.tables
    have : s2 = s := by rw [hs] at hs2; exact (Option.some.inj hs2).symm
    subst this
    simp only [Option.map_eq_none_iff] at h
    exact hl.same ptr s2 a b' (ha a rfl) (hx b' rfl) hst h

/-- Items without difference are the same, but for what is not stored. -/
theorem compareItems_alike (hl : LevelAlike ok st lo gd nl ad dn) {ptr : Ptr} {tb : Table S} {f t : Row X}
    (hf : RowOk ok tb f) (ht : RowOk ok tb t) (hst : RowStays st f t) (h : compareItems ptr gd nl tb f t = none) : RowLoose lo f t := by
  rcases compareItems_cases (ptr := ptr) (gd := gd) (nl := nl) (tb := tb) (f := f) (t := t) with ⟨_, hp, hls, hr⟩ | h'
  · refine ⟨fun i => ?_, fun i => ?_⟩
    · by_cases hi : i < t.values.length
      · exact cell_alike hl (hf.2.1 i) (ht.2.1 i) (hst.1 i) (hp i hi) (hls i hi)
      · rw [entry_ge (Nat.not_lt.mp hi), entry_ge (by rw [hf.1, ← ht.1]; exact Nat.not_lt.mp hi)]
        trivial
    · by_cases hi : i < t.refs.length
      · exact refDiff_none (hst.2 i) (hr i hi)
      · rw [entry_ge (Nat.not_lt.mp hi), entry_ge (by rw [hf.2.2.1, ← ht.2.2.1]; exact Nat.not_lt.mp hi)]
  · rw [h] at h'; cases h'

/-- Applying the diff of an item. -/
theorem modifyItem_alike (hl : LevelAlike ok st lo gd nl ad dn) {ptr : Ptr} {tb : Table S} {g f t : Row X}
    (hg : RowOk ok tb g) (hf : RowOk ok tb f) (ht : RowOk ok tb t) (hlo : RowLoose lo g f) (hst : RowStays st f t) {d : RowDiff D}
    (h : compareItems ptr gd nl tb f t = some d) :
    ∃ r, modifyItem ad dn tb g d = .ok r ∧ RowOk ok tb r ∧ RowLoose lo r t ∧ ∀ e, RowStays st e g → RowStays st e t → RowStays st e r := by
  obtain ⟨r, hr, hlen, hrlen, hvals, hrefs⟩ := modifyItem_on (ad := ad) (dn := dn) (g := g) hg ht
    (fun i c => CellLoose lo (some c) (entry t.values i) ∧
      (∀ e, CellStays st e (entry g.values i) → CellStays st e (entry t.values i) → CellStays st e (some c)) ∧ CellOk ok (entry tb.items i) (some c))
    (fun i p hp => by
      have hti := paramDiff_some hp
      have hto := ht.2.1 i
      rw [hti] at hto ⊢
      exact ⟨ParamLoose.refl p, fun _ _ h => h, hto⟩)
    (fun i d hd => by
      obtain ⟨s, x, h1, h2, h3, h4, h5⟩ := applyList_alike hl (hg.2.1 i) (hf.2.1 i) (ht.2.1 i) (hlo.1 i) (hst.1 i) hd
      exact ⟨s, x, h1, h2, h3, h4, h5⟩) h
  have hloose : ∀ i, CellLoose lo (entry r.values i) (entry t.values i) ∧
      (∀ e, CellStays st e (entry g.values i) → CellStays st e (entry t.values i) → CellStays st e (entry r.values i)) ∧
      CellOk ok (entry tb.items i) (entry r.values i) := by
    intro i
    rcases hvals i with ⟨h1, h2, h3⟩ | ⟨c, h1, h2⟩
    · rw [h3]
      exact ⟨(hlo.1 i).trans hl.trans (cell_alike hl (hf.2.1 i) (ht.2.1 i) (hst.1 i) h1 h2), fun _ h _ => h, hg.2.1 i⟩
    · rw [h1]; exact h2
  have hr2 : ∀ i, entry r.refs i = entry t.refs i := by
    intro i
    rcases hrefs i with ⟨h1, h2⟩ | h1
    · rw [h2, hlo.2 i]; exact refDiff_none (hst.2 i) h1
    · exact h1
  refine ⟨r, hr, ⟨hlen.trans ht.1, fun i => (hloose i).2.2, hrlen.trans ht.2.2.1, fun i q hq => ht.2.2.2 i q (by rw [← hr2 i]; exact hq)⟩,
    ⟨fun i => (hloose i).1, hr2⟩, fun e he1 he2 => ⟨fun i => (hloose i).2.1 _ (he1.1 i) (he2.1 i), fun i hi => he2.2 i (by rw [← hr2 i]; exact hi)⟩⟩

/-! ## Lists -/

/-- Applying the diff of two lists to a list that is alike the first one. -/
theorem applyListDiff_alike {q : Prop} (hl : LevelAlike ok st lo gd nl ad dn) {st0 : X → X → Prop} (hl0 : LevelOk ok st0 gd nl ad dn) {ptr : Ptr}
    {tb : Table S} {g a b : SList (Row X)} (hg : ListOkF ok tb g) (ha : ListOkF ok tb a) (hb : ListOkF ok tb b) (hlo : ListAlike lo g a)
    (hst : ListHolds q st a b) {d : ListDiff D} (h : getMListDiff ptr gd nl tb a b = some d) :
    ∃ r, applyListDiff ad dn tb g d = .ok r ∧ ListOkF ok tb r ∧ ListAlike lo r b ∧
      ∀ e, ListHolds q st e g → ListHolds q st e b → ListHolds q st e r := by
  obtain ⟨hg, _⟩ := hg
  obtain ⟨ha, _⟩ := ha
  obtain ⟨hb, hbf⟩ := hb
  rw [getMListDiff_some h, applyListDiff]
  simp only [SList.step]
  rw [applyItems_append]
  have hrow := hg.2.2.2.2.2.2
  have hmemg : ∀ x ∈ a.items, x.1 ∈ g.items.map (·.1) := fun x hx => hlo.1.mem_iff.mpr (mem_ids hx)
  obtain ⟨R, hR1, hR2, hR3⟩ := phase1_loose ad dn tb (oldItem ptr gd nl tb b) (fun i => decide (i ∈ b.ids))
    (fun i r => ∃ y ∈ g.items, y.1 = i ∧ ∃ z ∈ b.items, z.1 = i ∧ RowOk ok tb r ∧ RowLoose lo r z.2 ∧
      ∀ e, RowStays st e y.2 → RowStays st e z.2 → RowStays st e r)
    b.nextId a.items g.items ha.2.2.1 hg.2.2.1 hmemg (by
      intro x hx
      unfold oldItem
      cases hf : b.find x.1 with
      | none => exact Or.inr (Or.inr ⟨rfl, decide_eq_false (find_none.mp hf)⟩)
      | some z =>
        obtain ⟨hz, he⟩ := find_some hf
        have hk : decide (x.1 ∈ b.ids) = true := decide_eq_true (by rw [← he]; exact mem_ids hz)
        have hxok := ha.2.2.2.2.2.2 x hx
        have hzok := hb.2.2.2.2.2.2 z hz
        have hs := hst.2 x hx z hz he.symm
        simp only
        cases hc : compareItems (fun p => ptr (x.1 :: p)) gd nl tb x.2 z.2 with
        | none =>
          refine Or.inl ⟨rfl, hk, fun y hy hyid => ⟨y, hy, hyid, z, hz, he, hrow y hy, ?_, fun _ h _ => h⟩⟩
          exact (hlo.2 y hy x hx hyid).trans hl.trans (compareItems_alike hl hxok hzok hs hc)
        | some d =>
          refine Or.inr (Or.inl ⟨d, rfl, hk, fun y hy hyid => ?_⟩)
          obtain ⟨r, h1, h2, h3, h4⟩ := modifyItem_alike hl (hrow y hy) hxok hzok (hlo.2 y hy x hx hyid) hs hc
          exact ⟨r, h1, y, hy, hyid, z, hz, he, h2, h3, h4⟩)
  have hids : R.map (·.1) = g.ids.filter (· ∈ b.ids) := by
    rw [hR2]
    refine List.filter_congr fun i hi => ?_
    have : i ∈ a.items.map (·.1) := hlo.1.mem_iff.mp hi
    simp [this]
  have hmem : ∀ i, i ∈ R.map (·.1) ↔ i ∈ a.ids ∧ i ∈ b.ids := by
    intro i; rw [hids, List.mem_filter, hlo.1.mem_iff]; simp
  have hRnd : (R.map (·.1)).Nodup := by rw [hids]; exact List.Nodup.filter _ hg.2.2.1
  rw [hR1, Res.bind_ok]
  obtain ⟨Q, h1, h2, _⟩ := phase2_any ad dn tb (fun id => decide (id ∈ a.ids)) (newItem nl tb) b.items R none b.nextId hb.2.2.1 hRnd
    (fun x hx ho => (hmem _).mpr ⟨of_decide_eq_true ho, mem_ids hx⟩)
    (fun x hx ho hm => absurd ((hmem _).mp hm).1 (of_decide_eq_false ho))
    (fun p hp => nomatch hp)
    (fun x hx _ => newItemFromDiff_newItem hl0 (hb.2.2.2.2.2.2 x hx))
  have hQ : ∀ y ∈ Q, (y.1 ∈ a.ids ∧ ∃ w ∈ g.items, w.1 = y.1 ∧ ∃ z ∈ b.items, z.1 = y.1 ∧ RowOk ok tb y.2 ∧ RowLoose lo y.2 z.2 ∧
      ∀ e, RowStays st e w.2 → RowStays st e z.2 → RowStays st e y.2) ∨ (y.1 ∉ a.ids ∧ y ∈ b.items) := by
    intro y hy
    rcases List.mem_append.mp (h2.mem_iff.mp hy) with hy | hy
    · have hya := ((hmem y.1).mp (List.mem_map.mpr ⟨y, hy, rfl⟩)).1
      exact Or.inl ⟨hya, (hR3 y hy).1 hya⟩
    · obtain ⟨hy1, hy2⟩ := List.mem_filter.mp hy
      exact Or.inr ⟨by simpa using hy2, hy1⟩
  have hperm : (SList.mk Q b.nextId).ids.Perm b.ids := by
    have hnd : ((R ++ b.items.filter fun x => !decide (x.1 ∈ a.ids)).map (·.1)).Nodup := by
      rw [List.map_append, List.nodup_append]
      refine ⟨hRnd, (List.filter_sublist.map _).nodup hb.2.2.1, ?_⟩
      rintro i hi j hj rfl
      obtain ⟨y, hy, rfl⟩ := List.mem_map.mp hj
      have := (List.mem_filter.mp hy).2
      exact absurd ((hmem _).mp hi).1 (by simpa using this)
    refine (h2.map (·.1)).trans ((List.perm_ext_iff_of_nodup hnd hb.2.2.1).mpr ?_)
    intro i
    rw [List.map_append, List.mem_append, hmem]
    constructor
    · rintro (hi | hi)
      · exact hi.2
      · obtain ⟨y, hy, rfl⟩ := List.mem_map.mp hi
        exact mem_ids (List.mem_of_mem_filter hy)
    · intro hi
      by_cases hia : i ∈ a.ids
      · exact Or.inl ⟨hia, hi⟩
      · obtain ⟨y, hy, rfl⟩ := List.mem_map.mp hi
        exact Or.inr (List.mem_map.mpr ⟨y, List.mem_filter.mpr ⟨hy, by simpa using hia⟩, rfl⟩)
  have hlen : Q.length = b.items.length := by
    have := hperm.length_eq
    unfold SList.ids at this
    rwa [List.length_map, List.length_map] at this
  refine ⟨⟨Q, b.nextId⟩, h1, ⟨⟨hb.1, hb.2.1, hperm.nodup_iff.mpr hb.2.2.1, fun i hi => hb.2.2.2.1 i (hperm.mem_iff.mp hi), hb.2.2.2.2.1,
    by rw [hlen]; exact hb.2.2.2.2.2.1, fun y hy => ?_⟩, fun i hi => hbf i (hperm.mem_iff.mp hi)⟩,
    ⟨hperm, fun y hy z hz he => ?_⟩, fun e he1 he2 => ⟨he2.1, fun w hw y hy he => ?_⟩⟩
  · rcases hQ y hy with ⟨_, _, _, _, _, _, _, h, _⟩ | ⟨_, hy⟩
    · exact h
    · exact hb.2.2.2.2.2.2 y hy
  · rcases hQ y hy with ⟨_, _, _, _, z', hz', hid, _, h, _⟩ | ⟨_, hy'⟩
    · rw [List.inj_on_of_nodup_map hb.2.2.1 hz hz' (he.symm.trans hid.symm)]; exact h
    · rw [List.inj_on_of_nodup_map hb.2.2.1 hz hy' he.symm]; exact RowLoose.refl hl.refl (hb.2.2.2.2.2.2 y hy')
  · rcases hQ y hy with ⟨_, w', hw', hid, z, hz, hzid, _, _, h⟩ | ⟨_, hy'⟩
    · exact h w.2 (he1.2 w hw w' hw' (he.trans hid.symm)) (he2.2 w hw z hz (he.trans hzid.symm))
    · exact he2.2 w hw y hy' he

/-- Lists without difference are the same, but for what is not stored. -/
theorem getMListDiff_alike {q : Prop} (hl : LevelAlike ok st lo gd nl ad dn) {ptr : Ptr} {tb : Table S} {a b : SList (Row X)}
    (ha : ListOk ok tb a) (hb : ListOk ok tb b) (hst : ListHolds q st a b) (h : getMListDiff ptr gd nl tb a b = none) : ListAlike lo a b := by
  unfold getMListDiff at h
  simp only at h
  split at h
  · rename_i h0
    rw [List.length_append] at h0
    have hc := creates_nil (Nat.eq_zero_of_add_eq_zero_left h0)
    have hold := List.length_eq_zero_iff.mp (Nat.eq_zero_of_add_eq_zero_right h0)
    have hall : ∀ x ∈ a.items, oldItem ptr gd nl tb b x = none := List.filterMap_eq_nil_iff.mp hold
    have hfind : ∀ x ∈ a.items, ∃ z, b.find x.1 = some z ∧ compareItems (fun p => ptr (x.1 :: p)) gd nl tb x.2 z.2 = none := by
      intro x hx
      have h1 := hall x hx
      unfold oldItem at h1
      cases hf : b.find x.1 with
      | none => rw [hf] at h1; cases h1
      | some z =>
        rw [hf] at h1
        simp only [Option.map_eq_none_iff] at h1
        exact ⟨z, rfl, h1⟩
    refine ⟨(List.perm_ext_iff_of_nodup ha.2.2.1 hb.2.2.1).mpr fun i => ⟨fun hi => ?_, fun hi => ?_⟩, fun x hx z hz he => ?_⟩
    · obtain ⟨x, hx, rfl⟩ := List.mem_map.mp hi
      obtain ⟨z, hz, _⟩ := hfind x hx
      obtain ⟨hz, he⟩ := find_some hz
      rw [← he]; exact mem_ids hz
    · obtain ⟨y, hy, rfl⟩ := List.mem_map.mp hi
      exact of_decide_eq_true (hc y hy)
    · obtain ⟨z', hz', hcmp⟩ := hfind x hx
      obtain ⟨hz', he'⟩ := find_some hz'
      have : z = z' := List.inj_on_of_nodup_map hb.2.2.1 hz hz' (he.symm.trans he'.symm)
      subst this
      exact compareItems_alike hl (ha.2.2.2.2.2.2 x hx) (hb.2.2.2.2.2.2 z hz) (hst.2 x hx z hz he) hcmp
  · cases h

/-- The same holds one level up. -/
theorem LevelAlike.succ {q : Prop} (hl : LevelAlike ok st lo gd nl ad dn) {st0 : X → X → Prop} (hl0 : LevelOk ok st0 gd nl ad dn) :
    LevelAlike (ListOkF ok) (ListHolds q st) (ListAlike lo) (fun ptr tb a b => getMListDiff ptr gd nl tb a b) (fun tb b => newList nl tb b)
      (fun tb a d => applyListDiff ad dn tb a d) (fun tb d => diffToNewList ad dn tb d) where
  refl := fun _ _ ⟨h, _⟩ => ⟨List.Perm.refl _, fun _ hx _ hy he => by
    rw [List.inj_on_of_nodup_map h.2.2.1 hx hy he]; exact RowLoose.refl hl.refl (h.2.2.2.2.2.2 _ hy)⟩
  trans := fun _ _ _ h1 h2 => h1.trans hl.trans h2
  new := fun _ _ hb => diffToNewList_newList hl0 hb.1
  same := fun _ _ a b ha hb hst h => getMListDiff_alike hl ha.1 hb.1 hst h
  mod := fun _ _ _ _ _ _ hg ha hb hlo hst h => applyListDiff_alike hl hl0 hg ha hb hlo hst h

end

theorem levelAlike (q : Prop) (n : Nat) :
    LevelAlike (ObjOkF n) (ObjHolds q n) (ObjAlike n) (getDiffN n) (newListN n) (applyN n).2 (applyN n).1 := by
  induction n with
  | zero =>
    exact ⟨fun s => Empty.elim s, fun a => Empty.elim a, fun s => Empty.elim s, fun _ s => Empty.elim s, fun _ s => Empty.elim s⟩
  | succ n ih => exact ih.succ (levelOkF n)

theorem objAlike_symm : ∀ (n : Nat) (x y : Obj n), ObjAlike n x y → ObjAlike n y x
  | 0, x, _, _ => nomatch x
  | n + 1, _, _, h => ListAlike.symm (objAlike_symm n) h

/-! ## The root object -/

theorem RootAlike.refl {n : Nat} {sch : RootSch n} {a : Root n} (ha : RootOkF n sch a) : RootAlike n a a :=
  fun i => CellLoose.refl (levelAlike True n).refl (ha.2 i)

theorem RootAlike.symm {n : Nat} {a b : Root n} (h : RootAlike n a b) : RootAlike n b a := fun i => (h i).symm (objAlike_symm n)

theorem RootAlike.trans {n : Nat} {a b c : Root n} (h1 : RootAlike n a b) (h2 : RootAlike n b c) : RootAlike n a c :=
  fun i => (h1 i).trans (levelAlike True n).trans (h2 i)

/-- Applying the diff of two root objects to an object that is alike the first one. -/
theorem applyRootDiff_alike {q : Prop} {n : Nat} {ptr : Ptr} {sch : RootSch n} {g f t : Root n} (hg : RootOkF n sch g) (hf : RootOkF n sch f)
    (ht : RootOkF n sch t) (hof : OptListsUndefined n sch f) (hot : OptListsUndefined n sch t) (hlo : RootAlike n g f)
    (hst : RootHolds q n f t) {d : RootDiff (DiffT n)} (h : getRootDiff n ptr sch f t = .ok d) :
    ∃ r, applyRootDiff n sch g d = .ok r ∧ RootOkF n sch r ∧ RootAlike n r t ∧
      ∀ e, RootHolds q n e g → RootHolds q n e t → RootHolds q n e r := by
  obtain ⟨hg, hgf⟩ := hg
  obtain ⟨hf, hff⟩ := hf
  obtain ⟨ht, htf⟩ := ht
  rw [getRootDiff_eq ptr hf ht hof hot] at h
  cases h
  have hl := levelAlike q n
  have hlen : g.length = t.length := hg.2.1.trans ht.2.1.symm
  let P : Nat → Cell (Obj n) → Prop := fun i c =>
    CellLoose (ObjAlike n) (some c) (entry t i) ∧
      (∀ e, CellStays (ObjHolds q n) e (entry g i) → CellStays (ObjHolds q n) e (entry t i) → CellStays (ObjHolds q n) e (some c)) ∧
      CellOk (ObjOkF n) (entry sch i) (some c)
  obtain ⟨v, hv, hvlen, hvin, hvout⟩ := applyRootParams_spec sch P
    (collect t.length fun i => paramDiff (ptr [i]) (entry f i) (entry t i)) g (collect_nodup _ _) (by
      intro x hx
      obtain ⟨hlt, hx⟩ := mem_collect.mp hx
      have hc := htf x.1
      have hti := paramDiff_some hx
      have hco := hc
      rw [hti] at hc
      obtain ⟨pt, vt, hc, _⟩ := hc.param
      refine ⟨by omega, by rw [hc]; simp, ?_, ?_, by rw [hti] at hco; exact hco⟩
      · rw [hti]; exact ParamLoose.refl _
      · rw [hti]; exact fun _ _ h => h)
  obtain ⟨w, hw, hwlen, hwin, hwout⟩ := applyRootLists_spec (applyN n).2 (applyN n).1 sch P
    (collect t.length fun i => listDiff (getDiffN n fun p => ptr (i :: p)) (newListN n) (entry sch i) (entry f i) (entry t i))
    v (collect_nodup _ _) (by
      intro x hx
      obtain ⟨hlt, hx⟩ := mem_collect.mp hx
      refine ⟨by omega, ?_⟩
      have hnot : entry v x.1 = entry g x.1 := by
        refine hvout x.1 ?_
        intro hmem
        obtain ⟨_, hne⟩ := mem_collect_keys.mp hmem
        obtain ⟨p, hp⟩ := Option.ne_none_iff_exists'.mp hne
        obtain ⟨m, s, he, _⟩ := listDiff_some hx
        rw [paramDiff_some hp] at he
        cases he
      rw [hnot]
      obtain ⟨s, c, h1, h2, h3, h4, h5⟩ := applyList_alike hl (hgf x.1) (hff x.1) (htf x.1) (hlo x.1) (hst x.1) hx
      refine ⟨s, c, h1, ?_, h3, h4, h5⟩
      have hne : entry g x.1 ≠ none := by
        cases hs : entry sch x.1 with
        | none => rw [hs] at h1; cases h1
        | some col =>
          cases col with
          | param => rw [hs] at h1; cases h1
          | mlist s' => exact hg.2.2.2 x.1 s' (Or.inl hs)
          | optMil s' => exact hg.2.2.2 x.1 s' (Or.inr hs)
      have hgc := hg.2.2.1 x.1
      cases hge : entry g x.1 with
      | none => exact absurd hge hne
      | some gc =>
        cases gc with
        | param p =>
          rw [hge] at hgc
          obtain ⟨pt, vt, hc, _⟩ := hgc.param
          rw [hc] at h1
          cases h1
        | mil m => rw [applyRootList_eq, ← hge]; exact h2)
  have key : ∀ i, CellLoose (ObjAlike n) (entry w i) (entry t i) ∧
      (∀ e, CellStays (ObjHolds q n) e (entry g i) → CellStays (ObjHolds q n) e (entry t i) → CellStays (ObjHolds q n) e (entry w i)) ∧
      CellOk (ObjOkF n) (entry sch i) (entry w i) := by
    intro i
    by_cases hi : i < t.length
    · by_cases hml : i ∈ (collect t.length fun i =>
          listDiff (getDiffN n fun p => ptr (i :: p)) (newListN n) (entry sch i) (entry f i) (entry t i)).map (·.1)
      · obtain ⟨c, h1, h2⟩ := hwin i hml
        rw [h1]; exact h2
      · rw [hwout i hml]
        by_cases hmp : i ∈ (collect t.length fun i => paramDiff (ptr [i]) (entry f i) (entry t i)).map (·.1)
        · obtain ⟨c, h1, h2⟩ := hvin i hmp
          rw [h1]; exact h2
        · rw [hvout i hmp]
          have h1 : paramDiff (ptr [i]) (entry f i) (entry t i) = none :=
            Classical.byContradiction fun hc => hmp (mem_collect_keys.mpr ⟨hi, hc⟩)
          have h2 : listDiff (getDiffN n fun p => ptr (i :: p)) (newListN n) (entry sch i) (entry f i) (entry t i) = none :=
            Classical.byContradiction fun hc => hml (mem_collect_keys.mpr ⟨hi, hc⟩)
          exact ⟨(hlo i).trans hl.trans (cell_alike hl (hff i) (htf i) (hst i) h1 h2), fun _ h _ => h, hgf i⟩
    · rw [entry_ge (l := w) (by omega), entry_ge (l := t) (by omega), entry_ge (l := g) (by omega)]
      exact ⟨trivial, fun _ h _ => h, by cases entry sch i with
        | none => trivial
        | some c => cases c <;> trivial⟩
  refine ⟨w, ?_, ⟨⟨hg.1, by have := hg.2.1; omega, fun i => (key i).2.2.mono (objOk_of_objOkF n), fun i s hi hn => ?_⟩, fun i => (key i).2.2⟩,
    fun i => (key i).1, fun e he1 he2 i => (key i).2.1 _ (he1 i) (he2 i)⟩
  · unfold applyRootDiff
    rw [hv, Res.bind_ok, hw]
  · have h1 := (key i).1
    rw [hn] at h1
    cases hti : entry t i with
    | none => exact ht.2.2.2 i s hi hti
    | some c =>
      rw [hti] at h1
      rcases c with p | (_ | x) <;> exact h1

/-! ## What is held -/

section
variable {S X : Type} {ok : S → X → Prop} {st st' lo : X → X → Prop}

theorem CellStays.of_alike (h : ∀ s x y, ok s y → lo x y → st x y) {c : Option (Col S)} {a b : Option (Cell X)} (hb : CellOk ok c b)
    (hl : CellLoose lo a b) : CellStays st a b := by
  rcases a with _ | (p | (_ | x)) <;> rcases b with _ | (q | (_ | y)) <;> simp only [CellLoose] at hl
  · trivial
  · exact ⟨_, rfl⟩
  · exact ⟨_, rfl⟩
  · refine ⟨_, rfl, ?_⟩
    rcases c with _ | (_ | s | s)
    · exact hb.elim
    · exact hb.elim
    · exact h s _ _ hb hl
    · exact h s _ _ hb hl

theorem ListHolds.of_alike {q : Prop} (h : ∀ s x y, ok s y → lo x y → st x y) {tb : Table S} {a b : SList (Row X)} (hb : ListOkF ok tb b)
    (hl : ListAlike lo a b) : ListHolds q st a b :=
  ⟨fun _ i hi => hb.2 i (hl.1.mem_iff.1 hi), fun x hx y hy he =>
    ⟨fun i => .of_alike h ((hb.1.2.2.2.2.2.2 y hy).2.1 i) ((hl.2 x hx y hy he).1 i), fun i hi => by rw [(hl.2 x hx y hy he).2 i]; exact hi⟩⟩

theorem CellStays.left (h : ∀ x x' y, lo x' x → st x y → st x' y) {a a' b : Option (Cell X)} (hl : CellLoose lo a' a) (hs : CellStays st a b) :
    CellStays st a' b := by
  rcases a' with _ | (p | (_ | x)) <;> rcases a with _ | (q | (_ | y)) <;> simp only [CellLoose] at hl
  · trivial
  · exact hs
  · exact hs
  · obtain ⟨z, rfl, hz⟩ := hs
    exact ⟨z, rfl, h _ _ _ hl hz⟩

theorem ListHolds.left {q : Prop} (h : ∀ x x' y, lo x' x → st x y → st x' y) {a a' b : SList (Row X)} (hl : ListAlike lo a' a)
    (hs : ListHolds q st a b) : ListHolds q st a' b := by
  refine ⟨fun hq i hi => hs.1 hq i (hl.1.mem_iff.1 hi), fun x hx z hz he => ?_⟩
  obtain ⟨y, hy, hyid⟩ := List.mem_map.mp (hl.1.mem_iff.mp (mem_ids hx))
  have h1 := hl.2 x hx y hy hyid.symm
  have h2 := hs.2 y hy z hz (hyid.trans he)
  exact ⟨fun i => (h2.1 i).left h (h1.1 i) , fun i hi => by rw [h1.2 i]; exact h2.2 i hi⟩

theorem CellStays.go (h : ∀ x y z, st x y → st' y z → st x z) {a b d : Option (Cell X)} (h1 : CellStays st a b) (h2 : CellStays st' b d) :
    CellStays st a d := by
  rcases a with _ | (p | (_ | x))
  · trivial
  · obtain ⟨q, rfl⟩ := h1; exact h2
  · obtain ⟨m, rfl⟩ := h1
    cases m with
    | none => exact h2
    | some y => obtain ⟨z, rfl, _⟩ := h2; exact ⟨_, rfl⟩
  · obtain ⟨y, rfl, hxy⟩ := h1
    obtain ⟨z, rfl, hyz⟩ := h2
    exact ⟨z, rfl, h _ _ _ hxy hyz⟩

theorem ListHolds.go (h : ∀ x y z, st x y → st' y z → st x z) {a b d : SList (Row X)}
    (h1 : ListHolds True st a b) (h2 : ListStays st' b d) : ListHolds True st a d := by
  refine ⟨fun _ i hi => lt_of_lt_of_le (h1.1 trivial i hi) h2.1, fun x hx z hz he => ?_⟩
  have hzi : z.1 ∈ b.ids := by
    rcases h2.2.1 z.1 (List.mem_map_of_mem hz) with h3 | h3
    · exact h3
    · have h4 := h1.1 trivial x.1 (List.mem_map_of_mem hx)
      omega
  obtain ⟨y, hy, hyz⟩ := List.mem_map.1 hzi
  have h3 := h1.2 x hx y hy (he.trans hyz.symm)
  have h4 := h2.2.2 y hy z hz hyz
  exact ⟨fun i => (h3.1 i).go h (h4.1 i), fun i hi => h3.2 i (h4.2 i hi)⟩

end

theorem objHolds_of_alike (q : Prop) : ∀ (n : Nat) (s : Sch n) (x y : Obj n), ObjOkF n s y → ObjAlike n x y → ObjHolds q n x y
  | 0, s, _, _, _, _ => nomatch s
  | n + 1, _, _, _, hy, h => ListHolds.of_alike (objHolds_of_alike q n) hy h

theorem objHolds_left (q : Prop) : ∀ (n : Nat) (x x' y : Obj n), ObjAlike n x' x → ObjHolds q n x y → ObjHolds q n x' y
  | 0, x, _, _, _, _ => nomatch x
  | n + 1, _, _, _, h1, h2 => ListHolds.left (objHolds_left q n) h1 h2

theorem objHolds_go : ∀ (n : Nat) (x y z : Obj n), ObjHolds True n x y → ObjStays n y z → ObjHolds True n x z
  | 0, x, _, _, _, _ => nomatch x
  | n + 1, _, _, _, h1, h2 => ListHolds.go (objHolds_go n) h1 h2

theorem RootHolds.of_alike {q : Prop} {n : Nat} {sch : RootSch n} {a b : Root n} (hb : RootOkF n sch b) (h : RootAlike n a b) :
    RootHolds q n a b := fun i => .of_alike (objHolds_of_alike q n) (hb.2 i) (h i)

theorem RootHolds.left {q : Prop} {n : Nat} {a a' b : Root n} (h1 : RootAlike n a' a) (h2 : RootHolds q n a b) : RootHolds q n a' b :=
  fun i => (h2 i).left (objHolds_left q n) (h1 i)

/-- Sessions keep what is held. -/
theorem RootHolds.go {n : Nat} {a b c : Root n} (h1 : RootHolds True n a b) (h2 : RootStays n b c) : RootHolds True n a c :=
  fun i => (h1 i).go (objHolds_go n) (h2 i)

end Verif.Diff
