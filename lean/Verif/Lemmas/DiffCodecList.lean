import Verif.Lemmas.DiffCodec
/-! Reading back what is written, continued: items, lists and the root object. -/
namespace Verif.Diff
open VarInt Codec Compaction LinkedMap

section
variable {S D : Type}

/-- A list entry of a diff fits its column. -/
def ListEntryOk (dok : S → D → Prop) : Option (Col S) → Option D → Prop
  | some (.mlist s), some d => dok s d
  | some (.optMil _), none => True
  | some (.optMil s), some d => dok s d
  | _, _ => False

/-- The parameters and lists of a diff fit the columns. -/
def MembersOk (dok : S → D → Prop) (cols : List (Option (Col S))) (params : List (Nat × Param)) (lists : List (Nat × Option D)) :
    Prop :=
  Keys (params.map (·.1)) ∧ Keys (lists.map (·.1)) ∧ params.length + lists.length < 2 ^ 64 ∧
  (∀ x ∈ params, ∃ pt vt, entry cols x.1 = some (.param pt vt) ∧ ParamOk pt vt x.2) ∧
  ∀ x ∈ lists, ListEntryOk dok (entry cols x.1) x.2

def RowDiffOk (dok : S → D → Prop) (tb : Table S) (d : RowDiff D) : Prop :=
  MembersOk dok tb.items d.params d.lists ∧ Keys (d.refs.map (·.1)) ∧ d.refs.length < 2 ^ 64 ∧
  ∀ x ∈ d.refs, ∃ vt, tb.refs[x.1]? = some vt ∧ RefOk vt x.2

def ItemDiffOk (dok : S → D → Prop) (tb : Table S) : ItemDiff D → Prop
  | .delete => True
  | .modify d => RowDiffOk dok tb d
  | .create prev d => (∀ p, prev = some p → p < 2 ^ 64) ∧ RowDiffOk dok tb d

def ListDiffOk (dok : S → D → Prop) (tb : Table S) (d : ListDiff D) : Prop :=
  d.next < 2 ^ 64 ∧ d.items.length < 2 ^ 64 ∧ ∀ x ∈ d.items, x.1 < 2 ^ 64 ∧ ItemDiffOk dok tb x.2

/-- All diffs of a level that fit are written, and read back exactly if they are readable. -/
def LevelGood (dok : S → D → Prop) (wl : S → D → Res (List KVal)) (rl : S → Rd KVal D) (c : D → Bool) : Prop :=
  ∀ s d, dok s d → Good (wl s d) (rl s) (c d) d

theorem good_members_params (F : FloatOps) {dok : S → D → Prop} {cols : List (Option (Col S))} {params : List (Nat × Param)}
    {lists : List (Nat × Option D)} (h : MembersOk dok cols params lists) :
    Good (writeParams F cols params) (readNumbers (readAParam F cols) (params.map (·.1))) true params := by
  obtain ⟨_, _, _, hp, _⟩ := h
  have := good_each (fun x =>
    match entry cols x.1 with
    | some (.param _ vt) => writeParam F vt x.2
    | _ => .panic) (readAParam F cols) (fun _ => true) params (by
      intro x hx
      obtain ⟨pt, vt, he, hok⟩ := hp x hx
      simp only [readAParam, he]
      obtain ⟨o, h1, h2, h3⟩ := good_param F pt vt x.2 hok
      exact ⟨o, h1, h2, reads_bind_pure h3 some⟩)
  rwa [show (params.all fun _ => true) = true by simp] at this

theorem good_members_lists {dok : S → D → Prop} {wl : S → D → Res (List KVal)} {rl : S → Rd KVal D} {c : D → Bool}
    (hl : LevelGood dok wl rl c) {cols : List (Option (Col S))} {params : List (Nat × Param)} {lists : List (Nat × Option D)}
    (h : MembersOk dok cols params lists) :
    Good (writeLdLists wl cols lists) (readNumbers (readAList rl cols) (lists.map (·.1))) (lists.all fun x => x.2.all c) lists := by
  obtain ⟨_, _, _, _, hp⟩ := h
  refine good_each (fun x =>
    match entry cols x.1 with
    | some (.mlist s) =>
      match x.2 with
      | some d => wl s d
      | none => .err
    | some (.optMil s) =>
      match x.2 with
      | some d => (wl s d).map fun v => .bit true :: v
      | none => .ok [.bit false]
    | _ => .panic) (readAList rl cols) (fun x => x.2.all c) lists ?_
  intro x hx
  have hok := hp x hx
  obtain ⟨i, od⟩ := x
  cases he : entry cols i with
  | none => rw [he] at hok; exact hok.elim
  | some col =>
    cases col with
    | param pt vt => rw [he] at hok; cases od <;> exact hok.elim
    | mlist s =>
      rw [he] at hok
      cases od with
      | none => exact hok.elim
      | some d =>
        obtain ⟨o, h1, h2, h3⟩ := hl s d hok
        refine ⟨o, by simpa only [he] using h1, h2, ?_⟩
        simp only [readAList, he]
        exact reads_bind_pure h3 fun d => some (some d)
    | optMil s =>
      rw [he] at hok
      cases od with
      | none =>
        refine ⟨[.bit false], by simp only [he], ?_, ?_⟩
        · intro k hk; simp only [List.mem_cons, List.not_mem_nil, or_false] at hk; subst hk; trivial
        · simp only [readAList, he]
          exact reads_bit (b := false) (reads_pure (some none))
      | some d =>
        obtain ⟨o, h1, h2, h3⟩ := hl s d hok
        refine ⟨.bit true :: o, by simp only [he, h1, Res.map_ok], ?_, ?_⟩
        · intro k hk
          rcases List.mem_cons.mp hk with rfl | hk
          · trivial
          · exact h2 k hk
        · simp only [readAList, he]
          exact reads_bit (b := true) (reads_bind_pure h3 fun d => some (some d))

/-- the column is a parameter -/
def isParam (cols : List (Option (Col S))) (i : Nat) : Bool :=
  match entry cols i with
  | some (.param ..) => true
  | _ => false

theorem isParam_of_param {dok : S → D → Prop} {cols : List (Option (Col S))} {params : List (Nat × Param)}
    {lists : List (Nat × Option D)} (h : MembersOk dok cols params lists) : ∀ i ∈ params.map (·.1), isParam cols i = true := by
  intro i hi
  obtain ⟨x, hx, rfl⟩ := List.mem_map.mp hi
  obtain ⟨pt, vt, he, _⟩ := h.2.2.2.1 x hx
  simp [isParam, he]

theorem isParam_of_list {dok : S → D → Prop} {cols : List (Option (Col S))} {params : List (Nat × Param)}
    {lists : List (Nat × Option D)} (h : MembersOk dok cols params lists) : ∀ i ∈ lists.map (·.1), isParam cols i = false := by
  intro i hi
  obtain ⟨x, hx, rfl⟩ := List.mem_map.mp hi
  have := h.2.2.2.2 x hx
  unfold isParam
  cases he : entry cols x.1 with
  | none => rfl
  | some col =>
    cases col with
    | param pt vt => rw [he] at this; cases hx2 : x.2 <;> rw [hx2] at this <;> exact this.elim
    | mlist s => rfl
    | optMil s => rfl

theorem isList_of_list {dok : S → D → Prop} {cols : List (Option (Col S))} {params : List (Nat × Param)}
    {lists : List (Nat × Option D)} (h : MembersOk dok cols params lists) :
    ∀ i ∈ lists.map (·.1), ∃ s, entry cols i = some (.mlist s) ∨ entry cols i = some (.optMil s) := by
  intro i hi
  obtain ⟨x, hx, rfl⟩ := List.mem_map.mp hi
  have := h.2.2.2.2 x hx
  cases he : entry cols x.1 with
  | none => rw [he] at this; exact this.elim
  | some col =>
    cases col with
    | param pt vt => rw [he] at this; cases hx2 : x.2 <;> rw [hx2] at this <;> exact this.elim
    | mlist s => exact ⟨s, Or.inl rfl⟩
    | optMil s => exact ⟨s, Or.inr rfl⟩

theorem members_disjoint {dok : S → D → Prop} {cols : List (Option (Col S))} {params : List (Nat × Param)}
    {lists : List (Nat × Option D)} (h : MembersOk dok cols params lists) :
    ∀ i ∈ params.map (·.1), i ∉ lists.map (·.1) := by
  intro i hi hl
  have h1 := isParam_of_param h i hi
  rw [isParam_of_list h i hl] at h1
  cases h1

/-- Reading the members named by the stored ids. -/
def readStored {α : Type} (f : Nat → Rd KVal (Option α)) : StoredIDs → Rd KVal (List (Nat × α))
  | .zero => Rd.pure []
  | .u64 b => readWord b 0 f
  | .bits bs => readWords64 f bs 0
  | .numbers n => readNumbers f n

theorem readStored_spec {α : Type} (f : Nat → Rd KVal (Option α)) (s : StoredIDs) : readStored f s = readNumbers f s.ids := by
  cases s with
  | zero => rfl
  | u64 b => exact readWord_spec b 0 f
  | bits bs => exact readWords64_spec f bs 0
  | numbers n => rfl

theorem readAParam_skip (F : FloatOps) (cols : List (Option (Col S))) (i : Nat) (h : isParam cols i = false) :
    readAParam F cols i = Rd.pure none := by
  unfold isParam at h
  unfold readAParam
  split at h
  · cases h
  · rename_i hne
    split
    · rename_i he; exact absurd he (hne _ _)
    · rfl

theorem readAList_skip (rl : S → Rd KVal D) (cols : List (Option (Col S))) (i : Nat) (h : isParam cols i = true) :
    readAList rl cols i = Rd.pure none := by
  unfold isParam at h
  unfold readAList
  split at h
  · rename_i he; simp only [he]
  · cases h

theorem readAListNumber_eq (rl : S → Rd KVal D) (cols : List (Option (Col S))) (i : Nat) (h : entry cols i ≠ none) :
    readAListNumber rl cols i = readAList rl cols i := by
  unfold readAListNumber readAList
  cases he : entry cols i with
  | none => exact absurd he h
  | some col => cases col <;> rfl

theorem readNumbers_congr {α : Type} (f g : Nat → Rd KVal (Option α)) (ids : List Nat) (h : ∀ i ∈ ids, f i = g i) :
    readNumbers f ids = readNumbers g ids := by
  induction ids with
  | nil => rfl
  | cons i ids ih => rw [readNumbers, readNumbers, h i (by simp), ih fun j hj => h j (by simp [hj])]

theorem stored_params (F : FloatOps) {dok : S → D → Prop} {cols : List (Option (Col S))} {params : List (Nat × Param)}
    {lists : List (Nat × Option D)} (h : MembersOk dok cols params lists) :
    readStored (readAParam F cols) (storeIds (params.map (·.1)) (lists.map (·.1))) =
      readNumbers (readAParam F cols) (params.map (·.1)) := by
  rw [readStored_spec, readNumbers_filter _ (isParam cols) _ fun i _ => readAParam_skip F cols i,
    filter_ids_params _ _ h.1 h.2.1 (members_disjoint h) (by simpa using h.2.2.1) _ (isParam_of_param h) (isParam_of_list h)]

theorem stored_lists (rl : S → Rd KVal D) {dok : S → D → Prop} {cols : List (Option (Col S))} {params : List (Nat × Param)}
    {lists : List (Nat × Option D)} (h : MembersOk dok cols params lists) :
    readStored (readAList rl cols) (storeIds (params.map (·.1)) (lists.map (·.1))) =
      readNumbers (readAList rl cols) (lists.map (·.1)) := by
  rw [readStored_spec, readNumbers_filter _ (fun i => !isParam cols i) _ fun i _ hi => readAList_skip rl cols i (by simpa using hi),
    filter_ids_lists _ _ h.1 h.2.1 (members_disjoint h) (by simpa using h.2.2.1) _
      (fun i hi => by simp [isParam_of_param h i hi]) (fun i hi => by simp [isParam_of_list h i hi])]

theorem members_entry {dok : S → D → Prop} {cols : List (Option (Col S))} {params : List (Nat × Param)}
    {lists : List (Nat × Option D)} (h : MembersOk dok cols params lists) :
    ∀ i ∈ (storeIds (params.map (·.1)) (lists.map (·.1))).ids, entry cols i ≠ none := by
  intro i hi
  rcases ((storeIds_spec _ _ h.1 h.2.1 (members_disjoint h) (by simpa using h.2.2.1)).2.1 i).mp hi with hi | hi
  · have := isParam_of_param h i hi
    intro he
    simp [isParam, he] at this
  · obtain ⟨s, he | he⟩ := isList_of_list h i hi <;> simp [he]

theorem good_refs (metas : List VType) (refs : List (Nat × Qv String)) (hk : Keys (refs.map (·.1))) (hl : refs.length < 2 ^ 64)
    (h : ∀ x ∈ refs, ∃ vt, metas[x.1]? = some vt ∧ RefOk vt x.2) :
    Good (writeRefs metas refs) (readRefs metas) true refs := by
  have hspec := storeIds_spec (refs.map (·.1)) [] hk ⟨List.Pairwise.nil, fun i hi => nomatch hi⟩ (fun _ _ => by simp) (by simpa using hl)
  have heach := good_each (fun x : Nat × Qv String =>
      match metas[x.1]? with
      | some vt => writeQv vt x.2.type (writeVal x.2)
      | none => .panic) (readARefAt metas) (fun _ => true) refs (by
        intro x hx
        obtain ⟨vt, he, hok⟩ := h x hx
        simp only [readARefAt, he]
        obtain ⟨o, h1, h2, h3⟩ := good_ref vt x.2 hok
        exact ⟨o, h1, h2, reads_bind_pure h3 some⟩)
  rw [show (refs.all fun _ => true) = true by simp] at heach
  have hids : (storeIds (refs.map (·.1)) []).ids = refs.map (·.1) := by
    have := filter_ids_params (refs.map (·.1)) [] hk ⟨List.Pairwise.nil, fun i hi => nomatch hi⟩ (fun _ _ => by simp)
      (by simpa using hl) (fun _ => true) (fun _ _ => rfl) (fun i hi => nomatch hi)
    rwa [List.filter_eq_self.mpr (fun _ _ => rfl)] at this
  have hread : readRefs metas = Rd.bind readStoredIds (readStored (readARefAt metas)) := by
    unfold readRefs
    congr 1
  rw [hread]
  unfold writeRefs
  simp only [storeIdsRef_eq]
  obtain ⟨o, h1, h2, h3⟩ := heach
  have hreads : Reads (readStored (readARefAt metas) (storeIds (refs.map (·.1)) [])) (o.map norm) true refs := by
    rw [readStored_spec, hids]; exact h3
  generalize storeIds (refs.map (·.1)) [] = si at *
  by_cases hz : si = .zero
  · subst hz
    have hr : refs = [] := by simpa using (hspec.2.2.2.1 rfl).1
    subst hr
    refine ⟨_, rfl, valid_writeStoredIds .zero trivial, ?_⟩
    rw [norm_writeStoredIds]
    have := reads_ids (s := .zero) trivial (k := readStored (readARefAt metas)) (reads_pure [])
    rwa [List.append_nil] at this
  · refine ⟨writeStoredIds si ++ o, ?_, ?_, ?_⟩
    · cases si <;> first | exact absurd rfl hz | exact congrArg (Res.map fun v => writeStoredIds _ ++ v) h1
    · intro k hk
      rcases List.mem_append.mp hk with hk | hk
      · exact valid_writeStoredIds _ hspec.1 k hk
      · exact h2 k hk
    · rw [List.map_append, norm_writeStoredIds]
      exact reads_ids hspec.1 hreads

theorem reads_false_of {α β : Type} (r : Rd KVal α) (k : α → Rd KVal β) (w : List KVal) (b : β)
    (h : ∀ rest, r (w ++ rest) = .err) : Reads (Rd.bind r k) w false b := by
  intro rest
  simp [Rd.bind, h]

/-- A list among the numbers stops the reading of parameters. -/
theorem readStrict_err (F : FloatOps) {dok : S → D → Prop} {cols : List (Option (Col S))} {params : List (Nat × Param)}
    {lists : List (Nat × Option D)} (h : MembersOk dok cols params lists) (hne : lists ≠ []) (o : List KVal)
    (ho : Reads (readNumbers (readAParam F cols) (params.map (·.1))) (o.map norm) true params) (rest : List KVal) :
    readNumbers (readAParamStrict F cols) (params.map (·.1) ++ lists.map (·.1)) (o.map norm ++ rest) = .err := by
  rw [readNumbers_append]
  have hsame : readNumbers (readAParamStrict F cols) (params.map (·.1)) = readNumbers (readAParam F cols) (params.map (·.1)) := by
    refine readNumbers_congr _ _ _ ?_
    intro i hi
    have := isParam_of_param h i hi
    unfold readAParamStrict readAParam
    unfold isParam at this
    split at this
    · rename_i he; simp only [he]
    · cases this
  rw [hsame]
  unfold Rd.bind
  rw [ho rest]
  simp only [if_true, Res.bind_ok]
  obtain ⟨x, xs, rfl⟩ := List.exists_cons_of_ne_nil hne
  have hstrict : readAParamStrict F cols x.1 = Rd.fail := by
    have := isParam_of_list h x.1 (by simp)
    unfold readAParamStrict
    unfold isParam at this
    split at this
    · cases this
    · rename_i hn
      split
      · rename_i he; exact absurd he (hn _ _)
      · rfl
  simp [readNumbers, Rd.bind, hstrict, Rd.fail]

theorem good_item2 (F : FloatOps) {dok : S → D → Prop} {wl : S → D → Res (List KVal)} {rl : S → Rd KVal D} {c : D → Bool}
    (hl : LevelGood dok wl rl c) (tb : Table S) (d : RowDiff D) (h : RowDiffOk dok tb d) :
    Good (writeListItem2 F wl tb d) (readListItem2 F rl tb) (rowReadable c d) d := by
  obtain ⟨hm, hrk, hrl, hr⟩ := h
  have hspec := storeIds_spec _ _ hm.1 hm.2.1 (members_disjoint hm) (by simpa using hm.2.2.1)
  obtain ⟨op, hp1, hp2, hp3⟩ := good_members_params F hm
  obtain ⟨ol, hl1, hl2, hl3⟩ := good_members_lists hl hm
  obtain ⟨orf, hr1, hr2, hr3⟩ := good_refs tb.refs d.refs hrk hrl hr
  have hsp := stored_params F hm
  have hsl := stored_lists rl hm
  have hent := members_entry hm
  have hvalid : ∀ k ∈ writeStoredIds (storeIds (d.params.map (·.1)) (d.lists.map (·.1))) ++ (op ++ (ol ++ orf)), Valid k := by
    intro k hk
    simp only [List.mem_append] at hk
    rcases hk with hk | hk | hk | hk
    · exact valid_writeStoredIds _ hspec.1 k hk
    · exact hp2 k hk
    · exact hl2 k hk
    · exact hr2 k hk
  unfold writeListItem2 rowReadable readListItem2
  cases hs : storeIds (d.params.map (·.1)) (d.lists.map (·.1)) with
  | zero =>
    obtain ⟨hP, hL⟩ := hspec.2.2.2.1 hs
    have hP : d.params = [] := by simpa using hP
    have hL : d.lists = [] := by simpa using hL
    refine ⟨writeStoredIds .zero ++ orf, by simp only [hr1, Res.map_ok], ?_, ?_⟩
    · intro k hk
      rcases List.mem_append.mp hk with hk | hk
      · exact valid_writeStoredIds .zero trivial k hk
      · exact hr2 k hk
    · rw [List.map_append, norm_writeStoredIds, hL]
      refine reads_ids (s := .zero) trivial ?_
      have := reads_bind_pure hr3 fun refs => RowDiff.mk (D := D) [] refs []
      have hd : d = ⟨[], d.refs, []⟩ := by cases d; simp only at hP hL; rw [hP, hL]
      rw [hd]
      simpa using this
  | u64 b =>
    rw [hs] at hsp hsl hspec hvalid
    refine ⟨_, by simp only [hp1, hl1, hr1, Res.bind_ok, Res.map_ok], hvalid, ?_⟩
    rw [List.map_append, norm_writeStoredIds, List.map_append, List.map_append]
    refine reads_ids hspec.1 ?_
    rw [← hsp] at hp3
    rw [← hsl] at hl3
    have := reads_bind hp3 (k := fun params => Rd.bind (readWord b 0 (readAList rl tb.items)) fun lists =>
          Rd.bind (readRefs tb.refs) fun refs => Rd.pure (RowDiff.mk params refs lists))
      (reads_bind hl3 (k := fun lists => Rd.bind (readRefs tb.refs) fun refs => Rd.pure (RowDiff.mk d.params refs lists))
        (reads_bind_pure hr3 fun refs => RowDiff.mk d.params refs d.lists))
    rw [Bool.and_true] at this
    exact this
  | bits bs =>
    rw [hs] at hsp hsl hspec hvalid
    refine ⟨_, by simp only [hp1, hl1, hr1, Res.bind_ok, Res.map_ok], hvalid, ?_⟩
    rw [List.map_append, norm_writeStoredIds, List.map_append, List.map_append]
    refine reads_ids hspec.1 ?_
    rw [← hsp] at hp3
    rw [← hsl] at hl3
    have := reads_bind hp3 (k := fun params => Rd.bind (readWords64 (readAList rl tb.items) bs 0) fun lists =>
          Rd.bind (readRefs tb.refs) fun refs => Rd.pure (RowDiff.mk params refs lists))
      (reads_bind hl3 (k := fun lists => Rd.bind (readRefs tb.refs) fun refs => Rd.pure (RowDiff.mk d.params refs lists))
        (reads_bind_pure hr3 fun refs => RowDiff.mk d.params refs d.lists))
    rw [Bool.and_true] at this
    exact this
  | numbers n =>
    have hn : n = d.params.map (·.1) ++ d.lists.map (·.1) := by
      have : storeIds (d.params.map (·.1)) (d.lists.map (·.1)) = .numbers (d.params.map (·.1) ++ d.lists.map (·.1)) := by
        unfold storeIds at hs ⊢
        simp only at hs ⊢
        split at hs <;> first | cases hs | skip
        rename_i ht
        rfl
      rw [hs] at this
      cases this
      rfl
    rw [hs] at hsp hsl hspec hvalid hent
    refine ⟨_, by simp only [hp1, hl1, hr1, Res.bind_ok, Res.map_ok], hvalid, ?_⟩
    rw [List.map_append, norm_writeStoredIds, List.map_append, List.map_append]
    refine reads_ids hspec.1 ?_
    by_cases hL : d.lists = []
    · have hn' : n = d.params.map (·.1) := by rw [hn, hL]; simp
      have hstrict : readNumbers (readAParamStrict F tb.items) n = readNumbers (readAParam F tb.items) (d.params.map (·.1)) := by
        rw [hn']
        refine readNumbers_congr _ _ _ ?_
        intro i hi
        have := isParam_of_param hm i hi
        unfold readAParamStrict readAParam
        unfold isParam at this
        split at this
        · rename_i he; simp only [he]
        · cases this
      have hlist : readNumbers (readAListNumber rl tb.items) n = readNumbers (readAList rl tb.items) (d.lists.map (·.1)) := by
        rw [readNumbers_congr _ _ n fun i hi => readAListNumber_eq rl tb.items i (hent i hi)]
        exact hsl
      have := reads_bind hp3 (k := fun params => Rd.bind (readNumbers (readAList rl tb.items) (d.lists.map (·.1))) fun lists =>
            Rd.bind (readRefs tb.refs) fun refs => Rd.pure (RowDiff.mk params refs lists))
        (reads_bind hl3 (k := fun lists => Rd.bind (readRefs tb.refs) fun refs => Rd.pure (RowDiff.mk d.params refs lists))
          (reads_bind_pure hr3 fun refs => RowDiff.mk d.params refs d.lists))
      rw [Bool.and_true] at this
      simp only [hstrict, hlist, hL, List.isEmpty_nil, List.all_nil, Bool.and_true]
      rw [hL] at this
      have hd : d = ⟨d.params, d.refs, []⟩ := by cases d; simp only at hL; rw [hL]
      rw [hd]
      simpa using this
    · have hc : (d.lists.isEmpty && d.lists.all fun x => x.2.all c) = false := by
        cases hd : d.lists with
        | nil => exact absurd hd hL
        | cons x xs => simp
      simp only [hc]
      intro rest
      rw [hn]
      have := readStrict_err F hm hL op hp3 (ol.map norm ++ orf.map norm ++ rest)
      simp only [Rd.bind, List.append_assoc] at this ⊢
      rw [this]
      rfl

theorem good_item (F : FloatOps) {dok : S → D → Prop} {wl : S → D → Res (List KVal)} {rl : S → Rd KVal D} {c : D → Bool}
    (hl : LevelGood dok wl rl c) (tb : Table S) (d : ItemDiff D) (h : ItemDiffOk dok tb d) :
    Good (writeListItem F wl tb d) (readListItem F rl tb) (itemReadable c d) d := by
  cases d with
  | delete =>
    refine ⟨_, rfl, ?_, ?_⟩
    · intro k hk
      simp only [List.mem_cons, List.not_mem_nil, or_false] at hk
      rcases hk with rfl | rfl <;> trivial
    · refine reads_bit (b := false) ?_
      simp only [Bool.false_eq_true, if_false]
      refine reads_bit (b := false) ?_
      exact reads_pure _
  | modify d =>
    obtain ⟨o, h1, h2, h3⟩ := good_item2 F hl tb d h
    refine ⟨.bit true :: o, by simp only [writeListItem, h1, Res.map_ok], ?_, ?_⟩
    · intro k hk
      rcases List.mem_cons.mp hk with rfl | hk
      · trivial
      · exact h2 k hk
    · exact reads_bit (b := true) (reads_bind_pure h3 fun d => ItemDiff.modify d)
  | create prev d =>
    obtain ⟨o, h1, h2, h3⟩ := good_item2 F hl tb d h.2
    cases prev with
    | none =>
      refine ⟨.bit false :: .bit true :: .bit false :: o, by simp [writeListItem, h1], ?_, ?_⟩
      · intro k hk
        simp only [List.mem_cons] at hk
        rcases hk with rfl | rfl | rfl | hk
        · trivial
        · trivial
        · trivial
        · exact h2 k hk
      · refine reads_bit (b := false) ?_
        simp only [Bool.false_eq_true, if_false]
        refine reads_bit (b := true) ?_
        simp only [if_true]
        refine reads_bit (b := false) ?_
        exact reads_bind_pure h3 fun d => ItemDiff.create none d
    | some p =>
      refine ⟨.bit false :: .bit true :: .bit true :: compU64 p :: o, by simp [writeListItem, h1], ?_, ?_⟩
      · intro k hk
        simp only [List.mem_cons] at hk
        rcases hk with rfl | rfl | rfl | rfl | hk
        · trivial
        · trivial
        · trivial
        · exact valid_compU64 p (h.1 p rfl)
        · exact h2 k hk
      · simp only [List.map_cons, norm_bit, norm_compU64]
        refine reads_bit (b := false) ?_
        simp only [Bool.false_eq_true, if_false]
        refine reads_bit (b := true) ?_
        simp only [if_true]
        refine reads_bit (b := true) ?_
        simp only [if_true]
        exact reads_u64 (h.1 p rfl) (reads_bind_pure h3 fun d => ItemDiff.create (some p) d)

theorem good_list (F : FloatOps) {dok : S → D → Prop} {wl : S → D → Res (List KVal)} {rl : S → Rd KVal D} {c : D → Bool}
    (hl : LevelGood dok wl rl c) : LevelGood (ListDiffOk dok) (writeList F wl) (readList F rl) (listReadable c) := by
  intro tb d ⟨hn, hlen, hitems⟩
  have hloop : ∀ (xs : List (Nat × ItemDiff D)), (∀ x ∈ xs, x.1 < 2 ^ 64 ∧ ItemDiffOk dok tb x.2) →
      Good (writeEach (fun x => (writeListItem F wl tb x.2).map fun v => compU64 x.1 :: v) xs)
        (readTimes (Rd.bind readU64 fun id => Rd.bind (readListItem F rl tb) fun d => Rd.pure (id, d)) xs.length)
        (xs.all fun x => itemReadable c x.2) xs := by
    intro xs
    induction xs with
    | nil => intro _; exact ⟨[], rfl, (fun k hk => nomatch hk), reads_pure []⟩
    | cons x xs ih =>
      intro hx
      obtain ⟨o, h1, h2, h3⟩ := good_item F hl tb x.2 (hx x (by simp)).2
      obtain ⟨o', h1', h2', h3'⟩ := ih fun y hy => hx y (by simp [hy])
      refine ⟨compU64 x.1 :: o ++ o', by simp only [writeEach, h1, h1', Res.map_ok, Res.bind_ok], ?_, ?_⟩
      · intro k hk
        simp only [List.cons_append, List.mem_cons, List.mem_append] at hk
        rcases hk with rfl | hk | hk
        · exact valid_compU64 _ (hx x (by simp)).1
        · exact h2 k hk
        · exact h2' k hk
      · rw [List.map_append, List.map_cons, norm_compU64, List.all_cons, List.length_cons, readTimes]
        exact reads_bind (reads_u64 (hx x (by simp)).1 (reads_bind_pure h3 fun d => (x.1, d)))
          (reads_bind_pure h3' fun as => (x.1, x.2) :: as)
  obtain ⟨o, h1, h2, h3⟩ := hloop d.items hitems
  refine ⟨compU64 d.items.length :: compU64 d.next :: o, by simp only [writeList, h1, Res.map_ok], ?_, ?_⟩
  · intro k hk
    simp only [List.mem_cons] at hk
    rcases hk with rfl | rfl | hk
    · exact valid_compU64 _ hlen
    · exact valid_compU64 _ hn
    · exact h2 k hk
  · simp only [List.map_cons, norm_compU64]
    exact reads_u64 hlen (reads_u64 hn (reads_bind_pure h3 fun items => ListDiff.mk items d.next))

/-- Reading the members of the root object. -/
theorem reads_root (F : FloatOps) {dok : S → D → Prop} {wl : S → D → Res (List KVal)} {rl : S → Rd KVal D} {c : D → Bool}
    (hl : LevelGood dok wl rl c) (cols : List (Option (Col S))) (params : List (Nat × Param)) (lists : List (Nat × Option D))
    (hm : MembersOk dok cols params lists) :
    ∃ op ol, writeParams F cols params = .ok op ∧ writeLdLists wl cols lists = .ok ol ∧ (∀ k ∈ op, Valid k) ∧ (∀ k ∈ ol, Valid k) ∧
      Reads (Rd.bind (readStored (readAParam F cols) (storeIds (params.map (·.1)) (lists.map (·.1)))) fun p =>
        Rd.bind (readStored (readAList rl cols) (storeIds (params.map (·.1)) (lists.map (·.1)))) fun l =>
          Rd.pure (RootDiff.mk p l)) (op.map norm ++ ol.map norm) (lists.all fun x => x.2.all c) ⟨params, lists⟩ := by
  obtain ⟨op, hp1, hp2, hp3⟩ := good_members_params F hm
  obtain ⟨ol, hl1, hl2, hl3⟩ := good_members_lists hl hm
  rw [← stored_params F hm] at hp3
  rw [← stored_lists rl hm] at hl3
  refine ⟨op, ol, hp1, hl1, hp2, hl2, ?_⟩
  have h2 := reads_bind_pure hl3 (RootDiff.mk params)
  intro rest
  have e1 := hp3 (ol.map norm ++ rest)
  have e2 := h2 rest
  rw [Rd.bind, List.append_assoc, e1]
  exact e2

end

/-- A diff of level `n` fits its definition. -/
def DiffOk : (n : Nat) → Sch n → DiffT n → Prop
  | 0 => fun s _ => nomatch s
  | n + 1 => fun s d => ListDiffOk (DiffOk n) s d

theorem good_level (F : FloatOps) (n : Nat) : LevelGood (DiffOk n) (writeListN F n) (readListN F n) (readable n) := by
  induction n with
  | zero => intro s; exact nomatch s
  | succ n ih => exact good_list F ih

/-- The part of `read_root` after the ids. -/
def rootBody (F : FloatOps) (n : Nat) (sch : RootSch n) : StoredIDs → Rd KVal (RootDiff (DiffT n))
  | .zero => Rd.pure ⟨[], []⟩
  | .u64 b =>
    Rd.bind (readWord b 0 (readAParam F sch)) fun params =>
      Rd.bind (readWord b 0 (readAList (readListN F n) sch)) fun lists => Rd.pure ⟨params, lists⟩
  | .bits bs =>
    Rd.bind (readWords64 (readAParam F sch) bs 0) fun params =>
      Rd.bind (readWords64 (readAList (readListN F n) sch) bs 0) fun lists => Rd.pure ⟨params, lists⟩
  | .numbers v =>
    Rd.bind (readNumbers (readAParam F sch) v) fun params =>
      Rd.bind (readNumbers (readAListNumber (readListN F n) sch) v) fun lists => Rd.pure ⟨params, lists⟩

theorem readRoot_body (F : FloatOps) (n : Nat) (sch : RootSch n) :
    readRoot F n sch = Rd.bind readStoredIds (rootBody F n sch) := by
  unfold readRoot
  congr 1

theorem rootBody_eq (F : FloatOps) (n : Nat) (sch : RootSch n) (s : StoredIDs) (h : ∀ i ∈ s.ids, entry sch i ≠ none) :
    rootBody F n sch s =
    Rd.bind (readStored (readAParam F sch) s) fun params =>
      Rd.bind (readStored (readAList (readListN F n) sch) s) fun lists => Rd.pure (RootDiff.mk (D := DiffT n) params lists) := by
  cases s with
  | zero => rfl
  | u64 b => rfl
  | bits b => rfl
  | numbers v =>
    simp only [readStored, rootBody]
    rw [readNumbers_congr _ _ v fun i hi => readAListNumber_eq (readListN F n) sch i (h i hi)]

theorem good_root (F : FloatOps) (n : Nat) (sch : RootSch n) (d : RootDiff (DiffT n))
    (hm : MembersOk (DiffOk n) sch d.params d.lists) :
    Good (writeRoot F n sch d) (readRoot F n sch) (rootReadable n d) d := by
  have hspec := storeIds_spec _ _ hm.1 hm.2.1 (members_disjoint hm) (by simpa using hm.2.2.1)
  obtain ⟨op, ol, hp1, hl1, hp2, hl2, hreads⟩ := reads_root F (good_level F n) sch d.params d.lists hm
  rw [← rootBody_eq F n sch _ (members_entry hm)] at hreads
  rw [readRoot_body]
  unfold writeRoot rootReadable
  generalize hsi : storeIds (d.params.map (·.1)) (d.lists.map (·.1)) = si at *
  by_cases hz : si = .zero
  · subst hz
    obtain ⟨hP, hL⟩ := hspec.2.2.2.1 rfl
    have hP : d.params = [] := by simpa using hP
    have hL : d.lists = [] := by simpa using hL
    refine ⟨writeStoredIds .zero, rfl, valid_writeStoredIds _ trivial, ?_⟩
    rw [norm_writeStoredIds]
    have := reads_ids (s := .zero) trivial (k := rootBody F n sch) (reads_pure _)
    rw [List.append_nil] at this
    have hd : d = ⟨[], []⟩ := by cases d; simp only at hP hL; rw [hP, hL]
    rw [hd]
    exact this
  · refine ⟨writeStoredIds si ++ (op ++ ol), ?_, ?_, ?_⟩
    · cases si <;> first | exact absurd rfl hz | simp only [hp1, hl1, Res.bind_ok, Res.map_ok]
    · intro k hk
      simp only [List.mem_append] at hk
      rcases hk with hk | hk | hk
      · exact valid_writeStoredIds _ hspec.1 k hk
      · exact hp2 k hk
      · exact hl2 k hk
    · rw [List.map_append, norm_writeStoredIds, List.map_append]
      exact reads_ids hspec.1 hreads

end Verif.Diff
