import Verif.Lemmas.DiffList
import Verif.Lemmas.DiffCodecList
/-! Computed diffs fit their definitions; the diff of a root object. -/
namespace Verif.Diff
open VarInt Codec Compaction LinkedMap

section
variable {S X D : Type}

/-- What is known about the diffs of the lists inside the items. -/
structure LevelFits (ok : S → X → Prop) (gd : Ptr → S → X → X → Option D) (nl : S → X → D) (dok : S → D → Prop) : Prop where
  new : ∀ s b, ok s b → dok s (nl s b)
  mod : ∀ ptr s a b d, ok s a → ok s b → gd ptr s a b = some d → dok s d

theorem keys_collect {β : Type} {n : Nat} (hn : n < 2 ^ 62) (f : Nat → Option β) : Keys ((collect n f).map (·.1)) := by
  refine ⟨collect_sorted n f, fun i hi => ?_⟩
  have := (mem_collect_keys.mp hi).1
  omega

theorem listEntry_ok {ok : S → X → Prop} {gd : Ptr → S → X → X → Option D} {nl : S → X → D} {dok : S → D → Prop}
    (hl : LevelFits ok gd nl dok) {ptr : Ptr} {c : Option (Col S)} {f t : Option (Cell X)} (hf : CellOk ok c f) (ht : CellOk ok c t)
    {d : Option D} (h : listDiff (gd ptr) nl c f t = some d) : ListEntryOk dok c d := by
  obtain ⟨m, s, rfl, hs⟩ := listDiff_some h
  obtain ⟨s', hs', hx⟩ := ht.tables
  have : s' = s := by rw [hs] at hs'; exact (Option.some.inj hs').symm
  subst this
  have hd : (d = none ∧ m = none) ∨ ∃ e, d = some e ∧ dok s' e := by
    unfold listDiff at h
    rw [hs] at h
    simp only at h
    cases f with
    | none => cases m with
      | none => cases h; exact Or.inl ⟨rfl, rfl⟩
      | some b => cases h; exact Or.inr ⟨_, rfl, hl.new s' b (hx b rfl)⟩
    | some f =>
      cases f with
      | param p => cases m with
        | none => cases h; exact Or.inl ⟨rfl, rfl⟩
        | some b => cases h; exact Or.inr ⟨_, rfl, hl.new s' b (hx b rfl)⟩
      | mil m' =>
        cases m' with
        | none => cases m with
          | none => cases h
          | some b => cases h; exact Or.inr ⟨_, rfl, hl.new s' b (hx b rfl)⟩
        | some a => cases m with
          | none => cases h; exact Or.inl ⟨rfl, rfl⟩
          | some b =>
            obtain ⟨s2, hs2, ha⟩ := hf.tables
            have : s2 = s' := by rw [hs] at hs2; exact (Option.some.inj hs2).symm
            subst this
            simp only [Option.map_eq_some_iff] at h
            obtain ⟨e, he, rfl⟩ := h
            exact Or.inr ⟨e, rfl, hl.mod ptr s2 a b e (ha a rfl) (hx b rfl) he⟩
  cases c with
  | none => cases hs
  | some c =>
    cases c with
    | param => cases hs
    | mlist s2 =>
      cases hs
      rcases hd with ⟨rfl, rfl⟩ | ⟨e, rfl, he⟩
      · exact ht
      · exact he
    | optMil s2 =>
      cases hs
      rcases hd with ⟨rfl, rfl⟩ | ⟨e, rfl, he⟩
      · trivial
      · exact he

/-- The members of a diff fit the columns. -/
theorem members_ok {ok : S → X → Prop} {gd : Ptr → S → X → X → Option D} {nl : S → X → D} {dok : S → D → Prop}
    (hl : LevelFits ok gd nl dok) (ptr : Ptr) {cols : List (Option (Col S))} {f t : List (Option (Cell X))}
    (hc : cols.length < 2 ^ 62) (htl : t.length = cols.length)
    (hf : ∀ i, CellOk ok (entry cols i) (entry f i)) (ht : ∀ i, CellOk ok (entry cols i) (entry t i)) :
    MembersOk dok cols (collect t.length fun i => paramDiff (ptr [i]) (entry f i) (entry t i))
      (collect t.length fun i => listDiff (gd fun p => ptr (i :: p)) nl (entry cols i) (entry f i) (entry t i)) := by
  have hn : t.length < 2 ^ 62 := by omega
  refine ⟨keys_collect hn _, keys_collect hn _, ?_, ?_, ?_⟩
  · have h1 := collect_length_le t.length fun i => paramDiff (ptr [i]) (entry f i) (entry t i)
    have h2 := collect_length_le t.length fun i => listDiff (gd fun p => ptr (i :: p)) nl (entry cols i) (entry f i) (entry t i)
    omega
  · intro x hx
    have h1 := paramDiff_some (mem_collect.mp hx).2
    have h2 := ht x.1
    rw [h1] at h2
    exact h2.param
  · intro x hx
    exact listEntry_ok hl (hf x.1) (ht x.1) (mem_collect.mp hx).2

theorem row_ok {ok : S → X → Prop} {gd : Ptr → S → X → X → Option D} {nl : S → X → D} {dok : S → D → Prop}
    (hl : LevelFits ok gd nl dok) (ptr : Ptr) {tb : Table S} {f t : Row X} (hc : tb.items.length < 2 ^ 62)
    (hr : tb.refs.length < 2 ^ 62) (hf : ∀ i, CellOk ok (entry tb.items i) (entry f.values i)) (ht : RowOk ok tb t) :
    RowDiffOk dok tb
      ⟨collect t.values.length fun i => paramDiff (ptr [i]) (entry f.values i) (entry t.values i),
       collect t.refs.length fun i => refDiff (entry f.refs i) (entry t.refs i),
       collect t.values.length fun i =>
        listDiff (gd fun p => ptr (i :: p)) nl (entry tb.items i) (entry f.values i) (entry t.values i)⟩ := by
  have hn : t.refs.length < 2 ^ 62 := by have := ht.2.2.1; omega
  refine ⟨members_ok hl ptr hc ht.1 hf ht.2.1, keys_collect hn _, ?_, ?_⟩
  · have := collect_length_le t.refs.length fun i => refDiff (entry f.refs i) (entry t.refs i)
    simp only
    omega
  · intro x hx
    exact ht.2.2.2 _ _ (refDiff_some (mem_collect.mp hx).2)

theorem newItem_eq (gd : Ptr → S → X → X → Option D) (nl : S → X → D) (tb : Table S) (t : Row X) :
    newItem nl tb t =
      ⟨collect t.values.length fun i => paramDiff true (entry [] i) (entry t.values i),
       collect t.refs.length fun i => refDiff (entry [] i) (entry t.refs i),
       collect t.values.length fun i => listDiff (gd fun _ => true) nl (entry tb.items i) (entry [] i) (entry t.values i)⟩ := by
  unfold newItem
  have h1 : ∀ i, entry ([] : List (Option (Cell X))) i = none := fun i => entry_ge (by simp)
  have h2 : ∀ i, entry ([] : List (Option (Qv String))) i = none := fun i => entry_ge (by simp)
  simp only [h1, h2]
  congr 1
  congr 1; funext i
  unfold refDiff
  cases entry t.refs i <;> rfl

theorem newItem_ok {ok : S → X → Prop} {gd : Ptr → S → X → X → Option D} {nl : S → X → D} {dok : S → D → Prop}
    (hl : LevelFits ok gd nl dok) {tb : Table S} {t : Row X} (hc : tb.items.length < 2 ^ 62)
    (hr : tb.refs.length < 2 ^ 62) (ht : RowOk ok tb t) : RowDiffOk dok tb (newItem nl tb t) := by
  rw [newItem_eq gd]
  refine row_ok (f := ⟨[], []⟩) hl (fun _ => true) hc hr ?_ ht
  intro i
  have h1 : entry ([] : List (Option (Cell X))) i = none := entry_ge (by simp)
  simp only [h1]
  cases entry tb.items i with
  | none => trivial
  | some c => cases c <;> trivial

theorem creates_ok {dok : S → D → Prop} {tb : Table S} {ni : Row X → RowDiff D} {old : Nat → Bool} {Q : List (Nat × Row X)}
    (prev : Option Nat) (hp : ∀ p, prev = some p → p < 2 ^ 64)
    (h : ∀ x ∈ Q, x.1 < 2 ^ 64 ∧ RowDiffOk dok tb (ni x.2)) :
    (creates old ni prev Q).length ≤ Q.length ∧ ∀ x ∈ creates old ni prev Q, x.1 < 2 ^ 64 ∧ ItemDiffOk dok tb x.2 := by
  induction Q generalizing prev with
  | nil => exact ⟨Nat.le_refl _, fun x hx => nomatch hx⟩
  | cons y Q ih =>
    obtain ⟨h1, h2⟩ := ih (some y.1) (by intro p hp; cases hp; exact (h y (by simp)).1) fun x hx => h x (by simp [hx])
    rw [creates]
    constructor
    · rw [List.length_append, List.length_cons]
      split <;> simp <;> omega
    · intro x hx
      rcases List.mem_append.mp hx with hx | hx
      · split at hx
        · cases hx
        · simp only [List.mem_cons, List.not_mem_nil, or_false] at hx
          subst hx
          exact ⟨(h y (by simp)).1, hp, (h y (by simp)).2⟩
      · exact h2 x hx

theorem newList_ok {ok : S → X → Prop} {gd : Ptr → S → X → X → Option D} {nl : S → X → D} {dok : S → D → Prop}
    (hl : LevelFits ok gd nl dok) {tb : Table S} {b : SList (Row X)} (hb : ListOk ok tb b) :
    ListDiffOk dok tb (newList nl tb b) := by
  obtain ⟨h1, h2⟩ := creates_ok (dok := dok) (tb := tb) (ni := newItem nl tb) (old := fun _ => false) (Q := b.items) none
    (fun p hp => nomatch hp)
    (fun x hx => ⟨hb.2.2.2.1 _ (mem_ids hx), newItem_ok hl hb.1 hb.2.1 (hb.2.2.2.2.2.2 x hx)⟩)
  refine ⟨hb.2.2.2.2.1, ?_, h2⟩
  have := hb.2.2.2.2.2.1
  unfold newList
  simp only
  omega

theorem getMListDiff_ok {ok : S → X → Prop} {gd : Ptr → S → X → X → Option D} {nl : S → X → D} {dok : S → D → Prop}
    (hl : LevelFits ok gd nl dok) {ptr : Ptr} {tb : Table S} {a b : SList (Row X)} (ha : ListOk ok tb a) (hb : ListOk ok tb b)
    {d : ListDiff D} (h : getMListDiff ptr gd nl tb a b = some d) : ListDiffOk dok tb d := by
  rw [getMListDiff_some h]
  obtain ⟨h1, h2⟩ := creates_ok (dok := dok) (tb := tb) (ni := newItem nl tb) (old := fun id => decide (id ∈ a.ids)) (Q := b.items)
    none (fun p hp => nomatch hp)
    (fun x hx => ⟨hb.2.2.2.1 _ (mem_ids hx), newItem_ok hl hb.1 hb.2.1 (hb.2.2.2.2.2.2 x hx)⟩)
  refine ⟨hb.2.2.2.2.1, ?_, ?_⟩
  · have h3 := hb.2.2.2.2.2.1
    have h4 := ha.2.2.2.2.2.1
    have h5 := List.length_filterMap_le (oldItem ptr gd nl tb b) a.items
    simp only [List.length_append]
    omega
  · intro x hx
    rcases List.mem_append.mp hx with hx | hx
    · obtain ⟨y, hy, ho⟩ := List.mem_filterMap.mp hx
      unfold oldItem at ho
      cases hf : b.find y.1 with
      | none =>
        rw [hf] at ho
        cases ho
        exact ⟨ha.2.2.2.1 _ (mem_ids hy), trivial⟩
      | some z =>
        rw [hf] at ho
        simp only [Option.map_eq_some_iff] at ho
        obtain ⟨e, he, rfl⟩ := ho
        refine ⟨ha.2.2.2.1 _ (mem_ids hy), ?_⟩
        rcases compareItems_cases (ptr := fun p => ptr (y.1 :: p)) (gd := gd) (nl := nl) (tb := tb) (f := y.2) (t := z.2)
          with h' | h'
        · rw [h'.1] at he; cases he
        · rw [he] at h'
          cases h'
          exact row_ok hl (fun p => ptr (y.1 :: p)) ha.1 ha.2.1 (ha.2.2.2.2.2.2 y hy).2.1
            (hb.2.2.2.2.2.2 z (find_some hf).1)
    · exact h2 x hx

theorem LevelFits.succ {ok : S → X → Prop} {gd : Ptr → S → X → X → Option D} {nl : S → X → D} {dok : S → D → Prop}
    (hl : LevelFits ok gd nl dok) :
    LevelFits (ListOk ok) (fun ptr tb a b => getMListDiff ptr gd nl tb a b) (fun tb b => newList nl tb b) (ListDiffOk dok) where
  new := fun _ _ hb => newList_ok hl hb
  mod := fun _ _ _ _ _ ha hb h => getMListDiff_ok hl ha hb h

end

theorem levelFits (n : Nat) : LevelFits (ObjOk n) (getDiffN n) (newListN n) (DiffOk n) := by
  induction n with
  | zero => exact ⟨fun s => Empty.elim s, fun _ s => Empty.elim s⟩
  | succ n ih => exact ih.succ

/-! ## The root object -/

theorem collectR_ok {β : Type} {f : Nat → Res (Option β)} {g : Nat → Option β} {is : List Nat} (h : ∀ i ∈ is, f i = .ok (g i)) :
    collectR f is = .ok (is.filterMap fun i => (g i).map fun b => (i, b)) := by
  induction is with
  | nil => rfl
  | cons i is ih =>
    rw [collectR, h i (by simp), ih fun j hj => h j (by simp [hj]), Res.bind_ok, Res.bind_ok, List.filterMap_cons]
    cases g i <;> rfl

theorem collectR_panic {β : Type} {f : Nat → Res (Option β)} {is : List Nat} (h : ∀ i ∈ is, f i ≠ .err)
    (hp : ∃ i ∈ is, f i = .panic) : collectR f is = .panic := by
  induction is with
  | nil => obtain ⟨i, hi, _⟩ := hp; cases hi
  | cons i is ih =>
    rw [collectR]
    cases hf : f i with
    | err => exact absurd hf (h i (by simp))
    | panic => rfl
    | ok a =>
      rw [Res.bind_ok, ih fun j hj => h j (by simp [hj])]
      · rfl
      · obtain ⟨j, hj, hjp⟩ := hp
        rcases List.mem_cons.mp hj with rfl | hj
        · rw [hf] at hjp; cases hjp
        · exact ⟨j, hj, hjp⟩

/-- Neither of the two lists that may be undefined is defined. -/
def OptCell {S X : Type} (c : Option (Col S)) (f t : Option (Cell X)) : Prop :=
  ∀ s, c = some (.optMil s) → f = some (.mil none) ∧ t = some (.mil none)

theorem rootListDiff_eq {S X D : Type} {ok : S → X → Prop} (gd : S → X → X → Option D) (nl : S → X → D) {c : Option (Col S)}
    {f t : Option (Cell X)} (hf : CellOk ok c f) (ht : CellOk ok c t)
    (hpf : ∀ s, c = some (.mlist s) ∨ c = some (.optMil s) → f ≠ none) (ho : OptCell c f t) :
    rootListDiff gd nl c f t = .ok (listDiff gd nl c f t) := by
  cases t with
  | none => rfl
  | some t =>
    cases t with
    | param p => rfl
    | mil m =>
      obtain ⟨s, hs, hx⟩ := ht.tables
      cases c with
      | none => cases hs
      | some c =>
        cases c with
        | param => cases hs
        | mlist s' =>
          cases m with
          | none => exact ht.elim
          | some b =>
            cases f with
            | none => exact absurd rfl (hpf s' (Or.inl rfl))
            | some f =>
              cases f with
              | param p => exact hf.elim
              | mil m' => cases m' with
                | none => exact hf.elim
                | some a => rfl
        | optMil s' =>
          obtain ⟨h1, h2⟩ := ho s' rfl
          cases h2
          subst h1
          rfl

theorem rootListDiff_cases {S X D : Type} {ok : S → X → Prop} (gd : S → X → X → Option D) (nl : S → X → D) {c : Option (Col S)}
    {f t : Option (Cell X)} (hf : CellOk ok c f) (ht : CellOk ok c t)
    (hpf : ∀ s, c = some (.mlist s) ∨ c = some (.optMil s) → f ≠ none)
    (hpt : ∀ s, c = some (.mlist s) ∨ c = some (.optMil s) → t ≠ none) :
    rootListDiff gd nl c f t ≠ .err ∧ (¬ OptCell c f t → rootListDiff gd nl c f t = .panic) := by
  by_cases ho : OptCell c f t
  · rw [rootListDiff_eq gd nl hf ht hpf ho]
    exact ⟨by simp, fun h => absurd ho h⟩
  · have : rootListDiff gd nl c f t = .panic := by
      obtain ⟨s, hs⟩ : ∃ s, c = some (.optMil s) := by
        by_cases hc : ∃ s, c = some (.optMil s)
        · exact hc
        · exact absurd (fun s hs => absurd ⟨s, hs⟩ hc) ho
      subst hs
      cases t with
      | none => exact absurd rfl (hpt s (Or.inr rfl))
      | some t => cases t with
        | param => exact ht.elim
        | mil m => cases f with
          | none => exact absurd rfl (hpf s (Or.inr rfl))
          | some f => cases f with
            | param => exact hf.elim
            | mil m' =>
              cases m <;> cases m'
              · exact absurd (fun _ _ => ⟨rfl, rfl⟩) ho
              · rfl
              · rfl
              · rfl
    rw [this]
    exact ⟨by simp, fun _ => rfl⟩

theorem optCell_of {n : Nat} {sch : RootSch n} {f t : Root n} (hf : OptListsUndefined n sch f) (ht : OptListsUndefined n sch t)
    (i : Nat) : OptCell (entry sch i) (entry f i) (entry t i) := fun s hs => ⟨hf i s hs, ht i s hs⟩

theorem getRootDiff_eq {n : Nat} (ptr : Ptr) {sch : RootSch n} {f t : Root n} (hf : RootOk n sch f) (ht : RootOk n sch t)
    (hof : OptListsUndefined n sch f) (hot : OptListsUndefined n sch t) :
    getRootDiff n ptr sch f t = .ok
      ⟨collect t.length fun i => paramDiff (ptr [i]) (entry f i) (entry t i),
       collect t.length fun i => listDiff (getDiffN n fun p => ptr (i :: p)) (newListN n) (entry sch i) (entry f i) (entry t i)⟩ := by
  unfold getRootDiff
  rw [collectR_ok (g := fun i => listDiff (getDiffN n fun p => ptr (i :: p)) (newListN n) (entry sch i) (entry f i) (entry t i))]
  · rfl
  · intro i _
    exact rootListDiff_eq _ _ (hf.2.2.1 i) (ht.2.2.1 i) (hf.2.2.2 i) (optCell_of hof hot i)

theorem getRootDiff_panic {n : Nat} (ptr : Ptr) {sch : RootSch n} {f t : Root n} (hf : RootOk n sch f) (ht : RootOk n sch t)
    (h : ¬ (OptListsUndefined n sch f ∧ OptListsUndefined n sch t)) : getRootDiff n ptr sch f t = .panic := by
  unfold getRootDiff
  rw [collectR_panic]
  · rfl
  · intro i _
    exact (rootListDiff_cases _ _ (hf.2.2.1 i) (ht.2.2.1 i) (hf.2.2.2 i) (ht.2.2.2 i)).1
  · refine Classical.byContradiction fun hno => h ?_
    have hall : ∀ i, OptCell (entry sch i) (entry f i) (entry t i) := by
      intro i
      by_cases hi : i < t.length
      · refine Classical.byContradiction fun hc => hno ⟨i, List.mem_range.mpr hi, ?_⟩
        exact (rootListDiff_cases _ _ (hf.2.2.1 i) (ht.2.2.1 i) (hf.2.2.2 i) (ht.2.2.2 i)).2 hc
      · intro s hs
        exact absurd (entry_lt hs) (by have := ht.2.1; omega)
    exact ⟨fun i s hs => (hall i s hs).1, fun i s hs => (hall i s hs).2⟩

/-- The members of a computed diff fit the columns. -/
theorem getRootDiff_ok {n : Nat} {ptr : Ptr} {sch : RootSch n} {f t : Root n} (hf : RootOk n sch f) (ht : RootOk n sch t)
    (hof : OptListsUndefined n sch f) (hot : OptListsUndefined n sch t) {d : RootDiff (DiffT n)}
    (h : getRootDiff n ptr sch f t = .ok d) : MembersOk (DiffOk n) sch d.params d.lists := by
  rw [getRootDiff_eq ptr hf ht hof hot] at h
  cases h
  exact members_ok (levelFits n) ptr ht.1 ht.2.1 hf.2.2.1 ht.2.2.1

theorem applyRootList_eq {S X D : Type} (ad : S → X → D → Res X) (dn : S → D → Res X) (s : S) (m : Option X) (d : Option D) :
    applyRootList ad dn s (some (.mil m)) d = applyList ad dn s (some (.mil m)) d := by
  cases m <;> cases d <;> rfl

/-- Applying the diff of a root object gives the new object. -/
theorem applyRootDiff_mod {n : Nat} {ptr : Ptr} {sch : RootSch n} {f t : Root n} (hf : RootOk n sch f) (ht : RootOk n sch t)
    (hof : OptListsUndefined n sch f) (hot : OptListsUndefined n sch t) (hst : RootStep n f t) {d : RootDiff (DiffT n)}
    (h : getRootDiff n ptr sch f t = .ok d) : applyRootDiff n sch f d = .ok t := by
  rw [getRootDiff_eq ptr hf ht hof hot] at h
  cases h
  have hlen : f.length = t.length := hf.2.1.trans ht.2.1.symm
  obtain ⟨v, hv, hvlen, hvin, hvout⟩ := applyRootParams_spec sch (fun i c => entry t i = some c)
    (collect t.length fun i => paramDiff (ptr [i]) (entry f i) (entry t i)) f (collect_nodup _ _) (by
      intro x hx
      obtain ⟨hlt, hx⟩ := mem_collect.mp hx
      have hc := ht.2.2.1 x.1
      rw [paramDiff_some hx] at hc
      obtain ⟨pt, vt, hc, _⟩ := hc.param
      exact ⟨by omega, by rw [hc]; simp, paramDiff_some hx⟩)
  obtain ⟨w, hw, hwlen, hwin, hwout⟩ := applyRootLists_spec (applyN n).2 (applyN n).1 sch (fun i c => entry t i = some c)
    (collect t.length fun i => listDiff (getDiffN n fun p => ptr (i :: p)) (newListN n) (entry sch i) (entry f i) (entry t i))
    v (collect_nodup _ _) (by
      intro x hx
      obtain ⟨hlt, hx⟩ := mem_collect.mp hx
      refine ⟨by omega, ?_⟩
      have hnot : entry v x.1 = entry f x.1 := by
        refine hvout x.1 ?_
        intro hmem
        obtain ⟨_, hne⟩ := mem_collect_keys.mp hmem
        obtain ⟨p, hp⟩ := Option.ne_none_iff_exists'.mp hne
        obtain ⟨m, s, he, _⟩ := listDiff_some hx
        rw [paramDiff_some hp] at he
        cases he
      rw [hnot]
      obtain ⟨s, c, h1, h2, h3⟩ := applyList_mod (levelOk n) (hf.2.2.1 x.1) (ht.2.2.1 x.1) (hst x.1) hx
      refine ⟨s, c, h1, ?_, h3⟩
      have hne : entry f x.1 ≠ none := by
        cases hs : entry sch x.1 with
        | none => rw [hs] at h1; cases h1
        | some col =>
          cases col with
          | param => rw [hs] at h1; cases h1
          | mlist s' => exact hf.2.2.2 x.1 s' (Or.inl hs)
          | optMil s' => exact hf.2.2.2 x.1 s' (Or.inr hs)
      have hfc := hf.2.2.1 x.1
      cases hfe : entry f x.1 with
      | none => exact absurd hfe hne
      | some fc =>
        cases fc with
        | param p =>
          rw [hfe] at hfc
          obtain ⟨pt, vt, hc, _⟩ := hfc.param
          rw [hc] at h1
          cases h1
        | mil m => rw [applyRootList_eq, ← hfe]; exact h2)
  unfold applyRootDiff
  rw [hv, Res.bind_ok, hw]
  refine congrArg Res.ok (entry_ext (by omega) fun i => ?_)
  by_cases hi : i < t.length
  · by_cases hml : i ∈ (collect t.length fun i =>
        listDiff (getDiffN n fun p => ptr (i :: p)) (newListN n) (entry sch i) (entry f i) (entry t i)).map (·.1)
    · obtain ⟨c, h1, h2⟩ := hwin i hml
      rw [h1, h2]
    · rw [hwout i hml]
      by_cases hmp : i ∈ (collect t.length fun i => paramDiff (ptr [i]) (entry f i) (entry t i)).map (·.1)
      · obtain ⟨c, h1, h2⟩ := hvin i hmp
        rw [h1, h2]
      · rw [hvout i hmp]
        have h1 : paramDiff (ptr [i]) (entry f i) (entry t i) = none :=
          Classical.byContradiction fun hc => hmp (mem_collect_keys.mpr ⟨hi, hc⟩)
        have h2 : listDiff (getDiffN n fun p => ptr (i :: p)) (newListN n) (entry sch i) (entry f i) (entry t i) = none :=
          Classical.byContradiction fun hc => hml (mem_collect_keys.mpr ⟨hi, hc⟩)
        exact cell_same (levelOk n) (hf.2.2.1 i) (ht.2.2.1 i) (hst i) h1 h2
  · rw [entry_ge (by omega), entry_ge (by omega)]

/-! ## Sizes -/

theorem tagBits_pos (k : KVal) : 1 ≤ (tagBits k).length := by
  cases k <;> simp [tagBits, appendBits]

theorem flatMap_tagBits_length (ks : List KVal) : ks.length ≤ (ks.flatMap tagBits).length := by
  induction ks with
  | nil => simp
  | cons k ks ih =>
    rw [List.flatMap_cons, List.length_append, List.length_cons]
    have := tagBits_pos k
    omega

theorem bitsToBytes_length (l : List Bool) : l.length ≤ 8 * (bitsToBytes l).length := by
  induction l using bitsToBytes.induct with
  | case1 => simp
  | case2 b l ih =>
    rw [bitsToBytes, List.length_cons, List.length_cons]
    rw [List.length_drop] at ih
    omega

theorem length_lt_of_encode {ks : List KVal} {out : Bytes} (h : encodeVals ks = .ok out) (hl : out.length < 2 ^ 60) :
    ks.length < 2 ^ 63 := by
  unfold encodeVals at h
  split at h
  · cases h
  · cases h
    simp only [List.length_append] at hl
    have h1 := flatMap_tagBits_length ks
    have h2 := bitsToBytes_length (ks.flatMap tagBits)
    omega

/-- What is written is read back, as bytes. -/
theorem good_bytes {α : Type} {w : Res (List KVal)} {r : Rd KVal α} {c : Bool} {a : α} (h : Good w r c a) :
    ∃ bytes, w.bind encodeVals = .ok bytes ∧ (bytes.length < 2 ^ 60 → ∃ vals, decodeVals bytes = .ok (vals, []) ∧
      r vals = if c then .ok (a, []) else .err) := by
  obtain ⟨o, rfl, hv, hr⟩ := h
  obtain ⟨out, hout⟩ := encodeVals_ok_of_valid o hv
  refine ⟨out, hout, fun hl => ⟨o.map norm, ?_, ?_⟩⟩
  · have := decode_encodeVals o hv (length_lt_of_encode hout hl) out hout (by omega) []
    rwa [List.append_nil] at this
  · have := hr []
    rwa [List.append_nil] at this

/-! ## Definitions all of whose diffs can be read -/

/-- If lists have ids below 11 and everything an id below 22, the ids are not stored as numbers. -/
theorem storeIds_legible {P L : List Nat} (hP : P.Pairwise (· < ·)) (hL : L.Pairwise (· < ·)) (h1 : ∀ i ∈ P, i < 22)
    (h2 : ∀ i ∈ L, i < 11) (hd : L ≠ []) (n : List Nat) : storeIds P L ≠ .numbers n := by
  have hm : ∀ (b : Nat) (l : List Nat), 0 < b → (∀ i ∈ l, i < b) → (maxAndLen l).1 < b := by
    intro b l hb hl
    unfold maxAndLen
    cases h : l.getLast? with
    | none => exact hb
    | some m => exact hl m (List.mem_of_getLast? h)
  have hn : ∀ l : List Nat, l ≠ [] → 1 ≤ (maxAndLen l).2 := by
    intro l hl
    unfold maxAndLen
    cases h : l.getLast? with
    | none => exact absurd (List.getLast?_eq_none_iff.1 h) hl
    | some m => exact List.length_pos_iff.2 hl
  have hz : P = [] → (maxAndLen P).1 = 0 := by rintro rfl; rfl
  have p1 := hm 22 P (by decide) h1
  have l1 := hm 11 L (by decide) h2
  have l2 := hn L hd
  have p2 := hn P
  have key : calcType (Nat.max (Nat.max 0 (maxAndLen P).1) (maxAndLen L).1) (0 + (maxAndLen P).2 + (maxAndLen L).2) ≠ .numbers := by
    have hp : (maxAndLen P).1 = 0 ∨ 1 ≤ (maxAndLen P).2 := by
      by_cases h : P = []
      · exact .inl (hz h)
      · exact .inr (p2 h)
    generalize (maxAndLen P).1 = a at *
    generalize (maxAndLen P).2 = a' at *
    generalize (maxAndLen L).1 = b at *
    generalize (maxAndLen L).2 = b' at *
    have e : Nat.max (Nat.max 0 a) b = max a b := by
      show max (max 0 a) b = max a b
      rw [Nat.zero_max]
    rw [e]
    unfold calcType
    rw [if_neg (by omega), if_pos (by omega), if_pos (by omega)]
    simp
  unfold storeIds
  simp only
  split <;> simp_all

theorem readable_legible {S D : Type} {dok : S → D → Prop} {c : D → Bool} {small : S → Prop} {tb : Table S}
    (hc : ∀ s d, small s → dok s d → c d = true)
    (hs : ∀ i t, entry tb.items i = some (.mlist t) ∨ entry tb.items i = some (.optMil t) → i < 11 ∧ (∀ j c, entry tb.items j = some c → j < 22) ∧ small t)
    {d : RowDiff D} (h : RowDiffOk dok tb d) : rowReadable c d = true := by
  obtain ⟨⟨hP, hL, _, hp, hls⟩, _⟩ := h
  unfold rowReadable
  rw [Bool.and_eq_true]
  have hlist : ∀ x ∈ d.lists, x.1 < 11 ∧ ∀ j c, entry tb.items j = some c → j < 22 := by
    intro x hx
    have := hls x hx
    cases he : entry tb.items x.1 with
    | none => rw [he] at this; exact this.elim
    | some col =>
      rw [he] at this
      cases col with
      | param => exact this.elim
      | mlist s => exact ⟨(hs x.1 s (Or.inl he)).1, (hs x.1 s (Or.inl he)).2.1⟩
      | optMil s => exact ⟨(hs x.1 s (Or.inr he)).1, (hs x.1 s (Or.inr he)).2.1⟩
  constructor
  · by_cases hne : d.lists = []
    · rw [hne]
      split <;> rfl
    · obtain ⟨y, hy⟩ := List.exists_mem_of_ne_nil _ hne
      have := storeIds_legible hP.1 hL.1 (by
          intro i hi
          obtain ⟨x, hx, rfl⟩ := List.mem_map.mp hi
          obtain ⟨pt, vt, he, _⟩ := hp x hx
          exact (hlist y hy).2 _ _ he) (by
          intro i hi
          obtain ⟨x, hx, rfl⟩ := List.mem_map.mp hi
          exact (hlist x hx).1) (by simpa using hne)
      split
      · rename_i n hn; exact absurd hn (this n)
      · rfl
  · rw [List.all_eq_true]
    intro x hx
    have := hls x hx
    cases hd : x.2 with
    | none => rfl
    | some e =>
      rw [hd] at this
      cases he : entry tb.items x.1 with
      | none => rw [he] at this; exact this.elim
      | some col =>
        rw [he] at this
        cases col with
        | param => exact this.elim
        | mlist s => exact hc s e (hs x.1 s (Or.inl he)).2.2 this
        | optMil s => exact hc s e (hs x.1 s (Or.inr he)).2.2 this

theorem readable_of_legible (n : Nat) : ∀ s d, LegibleTables n s → DiffOk n s d → readable n d = true := by
  induction n with
  | zero => intro s; exact Empty.elim s
  | succ n ih =>
    intro tb d hs hd
    obtain ⟨_, _, hitems⟩ := hd
    show listReadable (readable n) d = true
    unfold listReadable
    rw [List.all_eq_true]
    intro x hx
    have hx2 := (hitems x hx).2
    cases hi : x.2 with
    | delete => rfl
    | create prev e => rw [hi] at hx2; exact readable_legible (ih) hs hx2.2
    | modify e => rw [hi] at hx2; exact readable_legible (ih) hs hx2

theorem rootReadable_of_legible {n : Nat} {sch : RootSch n} {d : RootDiff (DiffT n)}
    (hs : ∀ i s, entry sch i = some (.mlist s) ∨ entry sch i = some (.optMil s) → LegibleTables n s)
    (h : MembersOk (DiffOk n) sch d.params d.lists) : rootReadable n d = true := by
  unfold rootReadable
  rw [List.all_eq_true]
  intro x hx
  have := h.2.2.2.2 x hx
  cases hd : x.2 with
  | none => rfl
  | some e =>
    rw [hd] at this
    cases he : entry sch x.1 with
    | none => rw [he] at this; exact this.elim
    | some col =>
      rw [he] at this
      cases col with
      | param => exact this.elim
      | mlist s => exact readable_of_legible n s e (hs x.1 s (Or.inl he)) this
      | optMil s => exact readable_of_legible n s e (hs x.1 s (Or.inr he)) this

end Verif.Diff
