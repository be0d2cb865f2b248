import Verif.Lemmas.Remover
/-! Helper lemmas: what is left in the directory after the removal of old files. -/
namespace Verif.Remover
open VarInt FileName FileHistory Phase History

/-! The files a kept file depends on are kept -/

theorem base_last (b : List Nat) (j : Nat) (p : Props) (hp : p.order = b ++ [j]) : orderBase p = b ∧ orderLast p = j := by
  unfold orderBase orderLast
  rw [hp]
  simp

theorem not_deeper (M : Nat) (h : FileHistory.History) (hs : Shallow M h) (p : Props) (hp : p.order.length = M + 1) :
    ¬ Deeper h p := by
  rintro ⟨q, hq, _, r, hr, he⟩
  have h1 := hs q hq
  rw [he, List.length_append, hp] at h1
  have : 1 ≤ r.length := List.length_pos_iff.2 hr
  omega

theorem marks_parent (M : Nat) (c : Bool) (h : FileHistory.History) (hh : HWF h) (hso : Sound M c h)
    (hs : Shallow M h) (p q : Props) (hp : p ∈ h.listFiles) (h2 : 2 ≤ p.order.length)
    (hc : p.order.length ≤ M ∨ c = false ∨ orderLast p = 0) (hq : h.getParent p = some q) : Marks M c h p q := by
  have hbase : ∀ (p : Props), 2 ≤ p.order.length → orderBase p ≠ [] := by
    intro p h2 he
    have := split_order p (by intro h0; rw [h0] at h2; simp at h2)
    rw [he] at this
    rw [this] at h2
    simp at h2
  have key : ∀ j (p : Props), p ∈ h.listFiles → 2 ≤ p.order.length → (p.order.length ≤ M ∨ c = false ∨ orderLast p = 0) →
      orderLast p = j → h.getParent p = some q →
      (c = true → p.order.length = M → ∀ i < j,
        ∃ x, h.getProps p.control (orderBase p ++ [i]) = some x ∧ x.prevCtl = p.prevCtl) → Marks M c h p q := by
    intro j
    induction j with
    | zero =>
      intro p _ h2 _ hj hq _
      exact .next _ _ _ (.parent (fun hf => hf.2 hj) (by omega) hq) (.self q)
    | succ j ih =>
      intro p hp h2 hc hj hq hsib
      by_cases hf : Flagged M c h p
      · obtain ⟨hct, hf'⟩ := hf
        rcases hf' with ⟨hd, hlen⟩ | ⟨_, hlen⟩
        · obtain ⟨x, hx, hxp⟩ := hsib hct hlen j (by omega)
          obtain ⟨m1, m2, m3, _⟩ := mem_of_key h hh _ _ _ hx
          obtain ⟨b1, b2⟩ := base_last _ _ _ m3
          have hxlen : x.order.length = p.order.length := by
            rw [m3, List.length_append, ← List.length_append]
            have := split_order p (by intro h0; rw [h0] at h2; simp at h2)
            conv_rhs => rw [this]
            simp
          refine .next _ x _ (.sibling ⟨hct, Or.inl ⟨hd, hlen⟩⟩ (by omega) (hbase p h2) (by rw [hj]; exact hx)) ?_
          refine ih x m1 (by omega) (Or.inl (by omega)) b2 ?_ ?_
          · unfold FileHistory.History.getParent at hq ⊢
            rw [hxp, b1]; exact hq
          · intro _ _ i hi
            rw [m2, b1, hxp]
            exact hsib hct hlen i (by omega)
        · exfalso
          rcases hc with hc | hc | hc
          · omega
          · rw [hct] at hc; cases hc
          · omega
      · exact .next _ _ _ (.parent (fun hff => hf hff.1) (by omega) hq) (.self q)
  by_cases hd : Deeper h p
  · refine key _ p hp h2 hc rfl hq (fun hct hlen i hi => ?_)
    exact (hso hct).2.2 p hp hlen (hbase p h2) hd i hi
  · refine .next _ _ _ (.parent (fun hff => ?_) (by omega) hq) (.self q)
    obtain ⟨⟨hct, hf⟩, hl⟩ := hff
    rcases hf with ⟨hd', _⟩ | ⟨_, hlen⟩
    · exact hd hd'
    · rcases hc with hc | hc | hc
      · omega
      · rw [hct] at hc; cases hc
      · exact hl hc

theorem marks_parents (M : Nat) (c : Bool) (h : FileHistory.History) (hh : HWF h) (hso : Sound M c h)
    (hs : Shallow M h) (fuel : Nat) (p : Props) (hp : p ∈ h.listFiles)
    (hc : p.order.length ≤ M ∨ c = false ∨ orderLast p = 0) (l : List Props) (hl : parents h fuel p = .ok l) :
    ∀ a ∈ l, Marks M c h p a := by
  induction fuel generalizing p l with
  | zero => cases hl; simp
  | succ fuel ih =>
    rw [parents] at hl
    by_cases h2 : 2 ≤ p.order.length
    · rw [if_pos h2] at hl
      cases hq : h.getParent p with
      | none => rw [hq] at hl; cases hl
      | some q =>
        rw [hq] at hl
        simp only at hl
        have hm := marks_parent M c h hh hso hs p q hp h2 hc hq
        have hqo : q.order.length = p.order.length - 1 := by
          rw [(mem_of_key h hh _ _ _ hq).2.2.1]; simp [orderBase]
        have hpl := hs p hp
        cases hr : parents h fuel q with
        | ok r =>
          rw [hr] at hl
          cases hl
          intro a ha
          rcases List.mem_cons.1 ha with rfl | ha
          · exact hm
          · exact hm.trans (ih q (mem_of_key h hh _ _ _ hq).1 (Or.inl (by omega)) r hr a ha)
        | err => rw [hr] at hl; cases hl
        | panic => rw [hr] at hl; cases hl
    · rw [if_neg h2] at hl; cases hl; simp

theorem marks_siblings (M : Nat) (h : FileHistory.History) (hh : HWF h) (hso : Sound M true h)
    (hs : Shallow M h) (k : Nat) (p : Props) (hp : p ∈ h.listFiles) (hlen : p.order.length = M + 1) (hk : orderLast p = k)
    (l : List Props) (hl : siblings h (orderBase p) k p = .ok l) :
    (∀ a ∈ l, Marks M true h p a) ∧ l.getLastD p ∈ h.listFiles ∧ orderLast (l.getLastD p) = 0 ∧
      Marks M true h p (l.getLastD p) := by
  induction k generalizing p l with
  | zero => cases hl; exact ⟨by simp, hp, hk, .self p⟩
  | succ k ih =>
    rw [siblings] at hl
    cases hq : h.getProps p.prevCtl (orderBase p ++ [k]) with
    | none => rw [hq] at hl; cases hl
    | some q =>
      rw [hq] at hl
      simp only at hl
      obtain ⟨m1, m2, m3, _⟩ := mem_of_key h hh _ _ _ hq
      obtain ⟨b1, b2⟩ := base_last _ _ _ m3
      have hpne : p.order ≠ [] := by intro h0; rw [h0] at hlen; simp at hlen
      have hsp := split_order p hpne
      have hbl : (orderBase p).length = M := by
        have := congrArg List.length hsp
        rw [hlen, List.length_append] at this
        simp at this; omega
      have hM := (hso rfl).1
      have hctl : p.prevCtl = p.control := (hso rfl).2.1 p hp hlen (by omega)
      have hstep : Step M true h p q := by
        refine .sibling ⟨rfl, Or.inr ⟨not_deeper M h hs p hlen, hlen⟩⟩ (by omega) ?_ ?_
        · intro h0; rw [h0] at hbl; exact hM hbl.symm
        · rw [hk, ← hctl]; exact hq
      have hm1 : Marks M true h p q := .next _ _ _ hstep (.self q)
      cases hr : siblings h (orderBase p) k q with
      | ok r =>
        rw [hr] at hl
        cases hl
        obtain ⟨i1, i2, i3, i4⟩ := ih q m1 (by rw [m3, List.length_append, hbl]; rfl) b2 r (by rw [b1]; exact hr)
        have hlast : (q :: r).getLastD p = r.getLastD q := List.getLastD_cons
        rw [hlast]
        refine ⟨fun a ha => ?_, i2, i3, hm1.trans i4⟩
        rcases List.mem_cons.1 ha with rfl | ha
        · exact hm1
        · exact hm1.trans (i1 a ha)
      | err => rw [hr] at hl; cases hl
      | panic => rw [hr] at hl; cases hl

/-- Everything needed to load a file is marked with it. -/
theorem marks_chain (M : Nat) (c : Bool) (h : FileHistory.History) (hh : HWF h) (hso : Sound M c h)
    (hs : Shallow M h) (p : Props) (hp : p ∈ h.listFiles) (l : List Props) (hl : ancestorsRev h p M c = .ok l) :
    ∀ a ∈ l, Marks M c h p a := by
  have hpne : p.order ≠ [] := (mem_of_key h hh _ _ _ ((mem_listFiles h hh p).1 hp)).2.2.2
  have hpl := hs p hp
  have hpos : 1 ≤ p.order.length := List.length_pos_iff.2 hpne
  by_cases hcase : p.order.length - 1 = M ∧ c = true
  · obtain ⟨hM, rfl⟩ := hcase
    rw [ancestorsRev_cumulative h p hpne M hM] at hl
    obtain ⟨sib, h1, h2⟩ := bind_ok_inv _ _ _ hl
    obtain ⟨pa, h3, h4⟩ := bind_ok_inv _ _ _ h2
    cases h4
    obtain ⟨s1, s2, s3, s4⟩ := marks_siblings M h hh hso hs _ p hp (by omega) rfl sib h1
    intro a ha
    rcases List.mem_cons.1 ha with rfl | ha
    · exact .self _
    · rcases List.mem_append.1 ha with ha | ha
      · exact s1 a ha
      · exact s4.trans (marks_parents M true h hh hso hs _ _ s2 (Or.inr (Or.inr s3)) pa h3 a ha)
  · rw [ancestorsRev_plain h p hpne M c (Or.inl hcase)] at hl
    obtain ⟨pa, h3, h4⟩ := bind_ok_inv _ _ _ hl
    cases h4
    intro a ha
    rcases List.mem_cons.1 ha with rfl | ha
    · exact .self _
    · refine marks_parents M c h hh hso hs _ p hp ?_ pa h3 a ha
      by_cases hct : c = true
      · left
        have : p.order.length - 1 ≠ M := fun h0 => hcase ⟨h0, hct⟩
        omega
      · right; left; simpa using hct

/-! Chains in a history that knows fewer files -/

theorem siblings_on (h h' : Hist) (K : Props → Prop)
    (hx : ∀ c o q, h.getProps c o = some q → K q → h'.getProps c o = some q) (base : List Nat) (k : Nat) (p : Props)
    (l : List Props) (hK : ∀ a ∈ l, K a) (hl : siblings h base k p = .ok l) : siblings h' base k p = .ok l := by
  induction k generalizing p l with
  | zero => exact hl
  | succ k ih =>
    rw [siblings] at hl ⊢
    cases hq : h.getProps p.prevCtl (base ++ [k]) with
    | none => rw [hq] at hl; cases hl
    | some q =>
      rw [hq] at hl
      simp only at hl
      cases hr : siblings h base k q with
      | ok r =>
        rw [hr] at hl
        cases hl
        rw [hx _ _ _ hq (hK q (by simp))]
        simp only
        rw [ih q r (fun a ha => hK a (by simp [ha])) hr]
        rfl
      | err => rw [hr] at hl; cases hl
      | panic => rw [hr] at hl; cases hl

theorem parents_on (h h' : Hist) (K : Props → Prop)
    (hx : ∀ c o q, h.getProps c o = some q → K q → h'.getProps c o = some q) (fuel : Nat) (p : Props)
    (l : List Props) (hK : ∀ a ∈ l, K a) (hl : parents h fuel p = .ok l) : parents h' fuel p = .ok l := by
  induction fuel generalizing p l with
  | zero => exact hl
  | succ k ih =>
    rw [parents] at hl ⊢
    by_cases h2 : 2 ≤ p.order.length
    · rw [if_pos h2] at hl ⊢
      cases hq : h.getParent p with
      | none => rw [hq] at hl; cases hl
      | some q =>
        rw [hq] at hl
        simp only at hl
        cases hr : parents h k q with
        | ok r =>
          rw [hr] at hl
          cases hl
          have hq' : h'.getParent p = some q := hx _ _ _ hq (hK q (by simp))
          rw [hq']
          simp only
          rw [ih q r (fun a ha => hK a (by simp [ha])) hr]
          rfl
        | err => rw [hr] at hl; cases hl
        | panic => rw [hr] at hl; cases hl
    · rw [if_neg h2] at hl ⊢
      exact hl

theorem ancestorsRev_on (h h' : Hist) (K : Props → Prop)
    (hx : ∀ c o q, h.getProps c o = some q → K q → h'.getProps c o = some q) (p : Props) (m : Nat) (cu : Bool)
    (l : List Props) (hK : ∀ a ∈ l, K a) (hl : ancestorsRev h p m cu = .ok l) : ancestorsRev h' p m cu = .ok l := by
  unfold ancestorsRev at hl ⊢
  split
  · rename_i h0; rw [if_pos h0] at hl; exact hl
  · rename_i h0
    rw [if_neg h0] at hl
    obtain ⟨sib, h1, h2⟩ := bind_ok_inv _ _ _ hl
    obtain ⟨pa, h3, h4⟩ := bind_ok_inv _ _ _ h2
    cases h4
    have h1' : (if p.order.length - 1 = m ∧ cu = true then siblings h' (orderBase p) (orderLast p) p else .ok []) = .ok sib := by
      split
      · rename_i hc; rw [if_pos hc] at h1; exact siblings_on h h' K hx _ _ _ _ (fun a ha => hK a (by simp [ha])) h1
      · rename_i hc; rw [if_neg hc] at h1; exact h1
    rw [h1']
    simp only [Res.bind_ok]
    rw [parents_on h h' K hx _ _ _ (fun a ha => hK a (by simp [ha])) h3]
    rfl

/-! The directory after the removal -/

theorem read_filter (d : Dir) (K : Bytes → Bool) (n : Bytes) (hn : K n = true) :
    Dir.read (d.filter fun e => K e.1) n = Dir.read d n := by
  induction d with
  | nil => rfl
  | cons e d ih =>
    obtain ⟨m, f⟩ := e
    rw [List.filter_cons]
    simp only
    by_cases hm : m = n
    · subst hm
      rw [if_pos hn, Dir.read, Dir.read, if_pos rfl, if_pos rfl]
    · rw [Dir.read, if_neg hm]
      by_cases hk : K m = true
      · rw [if_pos hk, Dir.read, if_neg hm]; exact ih
      · rw [if_neg hk]; exact ih

/-- the metadata of a name (if it has any) -/
def metaOf (n : Bytes) : Option Props :=
  match analyze n with
  | .ok x => x
  | _ => none

theorem createHistory_names (names : List Bytes) (h h' : Hist) (hc : createHistory names h = .ok h') :
    ∀ n ∈ names, analyze n = .ok (metaOf n) := by
  induction names generalizing h with
  | nil => simp
  | cons n names ih =>
    rw [createHistory] at hc
    obtain ⟨x, h1, h2⟩ := bind_ok_inv _ _ _ hc
    intro m hm
    rcases List.mem_cons.1 hm with rfl | hm
    · unfold metaOf; rw [h1]
    · cases x with
      | none => exact ih h h2 m hm
      | some p => exact ih _ h2 m hm

theorem metaOf_some (n : Bytes) (p : Props) (hn : metaOf n = some p) :
    InRange p ∧ analyze p.filename = .ok (some p) := by
  have ha : analyze n = .ok (some p) := by
    unfold metaOf at hn
    split at hn
    · rename_i x hx; rw [hx, hn]
    · cases hn
  obtain ⟨h1, h2, h3, h4, h5⟩ := analyze_some n p ha
  refine ⟨⟨h2, fun x hx => ?_⟩, ?_⟩
  · rcases List.mem_cons.1 hx with rfl | hx
    · omega
    · have := h5 x hx; omega
  · rw [analyze_untagged p h1 h2 h3, if_pos ⟨h4, h5⟩]

theorem foldl_getProps (ps : List Props) (hr : ∀ p ∈ ps, p.order ≠ []) (h : Hist) (c : Nat) (o : List Nat) :
    (ps.foldl FileHistory.History.add h).getProps c o =
      match (ps.filter fun p => decide (key p = c :: o)).getLast? with
      | some p => some p
      | none => h.getProps c o := by
  induction ps generalizing h with
  | nil => rfl
  | cons q ps ih =>
    rw [List.foldl_cons, ih (fun p hp => hr p (by simp [hp])), List.filter_cons, hgetProps_add h q (hr q (by simp))]
    by_cases hk : key q = c :: o
    · rw [if_pos hk, if_pos (by simpa using hk), List.getLast?_cons]
      cases hl : (ps.filter fun p => decide (key p = c :: o)).getLast? <;> simp
    · rw [if_neg hk, if_neg (by simpa using hk)]

theorem getLast_filter {α β : Type} (g : α → Option β) (K : α → Bool) (l : List α) (p : β)
    (hl : (l.filterMap g).getLast? = some p) (hK : ∀ n ∈ l, g n = some p → K n = true) :
    ((l.filter K).filterMap g).getLast? = some p := by
  induction l with
  | nil => simp at hl
  | cons n l ih =>
    rw [List.filterMap_cons] at hl
    have htail : (l.filterMap g).getLast? = some p → (((n :: l).filter K).filterMap g).getLast? = some p := by
      intro ht
      have := ih ht (fun m hm => hK m (by simp [hm]))
      rw [List.filter_cons]
      split
      · rw [List.filterMap_cons]
        split
        · exact this
        · rw [List.getLast?_cons, this]; rfl
      · exact this
    cases hg : g n with
    | none => rw [hg] at hl; exact htail hl
    | some x =>
      rw [hg] at hl
      simp only at hl
      rw [List.getLast?_cons] at hl
      cases ht : (l.filterMap g).getLast? with
      | some y =>
        rw [ht] at hl
        simp only [Option.getD_some, Option.some.injEq] at hl
        rw [hl] at ht
        exact htail ht
      | none =>
        rw [ht] at hl
        simp only [Option.getD_none, Option.some.injEq] at hl
        subst hl
        have hnil : l.filterMap g = [] := List.getLast?_eq_none_iff.1 ht
        have hnil' : (l.filter K).filterMap g = [] := by
          have hsub := (List.filter_sublist (p := K) (l := l)).filterMap g
          rw [hnil] at hsub
          exact List.sublist_nil.1 hsub
        rw [List.filter_cons, if_pos (hK n (by simp) hg), List.filterMap_cons, hg, hnil']
        rfl

/-- What the history of a directory knows. -/
theorem history_spec (dir : Dir) (h : Hist) (hh : createHistory (dir.map (·.1)) .empty = .ok h) :
    HWF h ∧ (∀ p ∈ h.listFiles, analyze p.filename = .ok (some p)) ∧
    ∀ c o, h.getProps c o = ((dir.map (·.1)).filterMap fun n => (metaOf n).filter fun p => decide (key p = c :: o)).getLast? := by
  have hn := createHistory_names _ _ _ hh
  rw [createHistory_fold _ metaOf hn] at hh
  cases hh
  have hall : ∀ p ∈ (dir.map (·.1)).filterMap metaOf, InRange p ∧ analyze p.filename = .ok (some p) := by
    intro p hp
    obtain ⟨n, _, hnp⟩ := List.mem_filterMap.1 hp
    exact metaOf_some n p hnp
  obtain ⟨w1, w2⟩ := foldl_add _ (fun p hp => (hall p hp).1) .empty hwf_empty
  refine ⟨w1, fun p hp => ?_, fun c o => ?_⟩
  · have hg := (mem_listFiles _ w1 p).1 hp
    rcases w2 _ _ _ hg with ⟨h1, _⟩ | h1
    · exact (hall p h1).2
    · rw [hgetProps] at h1; cases h1
  · rw [foldl_getProps _ (fun p hp => (hall p hp).1.1)]
    have he : ((dir.map (·.1)).filterMap metaOf).filter (fun p => decide (key p = c :: o)) =
        (dir.map (·.1)).filterMap fun n => (metaOf n).filter fun p => decide (key p = c :: o) := by
      rw [List.filter_filterMap]
    rw [he]
    cases List.getLast? (List.filterMap (fun n => (metaOf n).filter fun p => decide (key p = c :: o)) (dir.map (·.1))) with
    | some p => rfl
    | none => rw [hgetProps]; rfl

/-- The history of the directory after files have been removed still knows the other files. -/
theorem history_removed (dir : Dir) (h : Hist) (hh : createHistory (dir.map (·.1)) .empty = .ok h) (R : List Props)
    (hR : ∀ r ∈ R, r ∈ h.listFiles) :
    ∃ h', createHistory ((removeFiles R dir).map (·.1)) .empty = .ok h' ∧
      ∀ c o q, h.getProps c o = some q → q ∉ R → h'.getProps c o = some q := by
  have hn := createHistory_names _ _ _ hh
  obtain ⟨s1, s2, s3⟩ := history_spec dir h hh
  have hnames : (removeFiles R dir).map (·.1) = (dir.map (·.1)).filter fun n => !decide (n ∈ R.map (·.filename)) := by
    unfold removeFiles
    rw [List.filter_map]
    rfl
  have hn' : ∀ n ∈ (removeFiles R dir).map (·.1), analyze n = .ok (metaOf n) := by
    intro n hm
    rw [hnames] at hm
    exact hn n (List.mem_filter.1 hm).1
  have hc' := createHistory_fold _ metaOf hn' .empty
  refine ⟨_, hc', fun c o q hq hqR => ?_⟩
  obtain ⟨_, _, t3⟩ := history_spec _ _ hc'
  rw [t3, hnames]
  rw [s3] at hq
  refine getLast_filter _ _ _ q hq (fun n _ hgn => ?_)
  simp only [Bool.not_eq_eq_eq_not, Bool.not_true, decide_eq_false_iff_not]
  intro hmem
  obtain ⟨r, hr, rfl⟩ := List.mem_map.1 hmem
  have ha := s2 r (hR r hr)
  have : metaOf r.filename = some r := by unfold metaOf; rw [ha]
  rw [this] at hgn
  simp only [Option.filter] at hgn
  split at hgn
  · cases hgn; exact hqR hr
  · cases hgn

section
variable {S : Type}

/-- Files that are kept, with everything they depend on, load as before. -/
theorem load_removed (o : Opts) (ops : Ops S) (dir : Dir) (h : Hist)
    (hh : createHistory (dir.map (·.1)) .empty = .ok h) (R : List Props) (hR : ∀ r ∈ R, r ∈ h.listFiles) (p : Props)
    (hp : p ∈ h.listFiles)
    (hkeep : ∀ l, ancestorsRev h p o.maxPhase o.cumulative.isSome = .ok l → ∀ a ∈ l, a ∉ R) (s : S)
    (hl : load o ops dir h p = .ok s) :
    ∃ h', createHistory ((removeFiles R dir).map (·.1)) .empty = .ok h' ∧ p ∈ h'.listFiles ∧
      load o ops (removeFiles R dir) h' p = .ok s := by
  obtain ⟨h', c1, c2⟩ := history_removed dir h hh R hR
  obtain ⟨s1, s2, _⟩ := history_spec dir h hh
  obtain ⟨t1, _, _⟩ := history_spec _ h' c1
  refine ⟨h', c1, ?_, ?_⟩
  all_goals
    unfold load at hl
    rw [s2 p hp] at hl
    simp only [Res.bind_ok] at hl
    obtain ⟨rev, h1, h2⟩ := bind_ok_inv _ _ _ hl
    have hk := hkeep rev h1
  · obtain ⟨r, hr, _⟩ := ancestorsRev_shape _ _ _ _ _ h1
    exact (mem_listFiles h' t1 p).2 (c2 _ _ _ ((mem_listFiles h s1 p).1 hp) (hk p (by rw [hr]; simp)))
  · have hmem : ∀ a ∈ rev, a ∈ h.listFiles := by
      obtain ⟨r, hr, hrm⟩ := ancestorsRev_shape _ _ _ _ _ h1
      intro a ha
      rw [hr] at ha
      rcases List.mem_cons.1 ha with rfl | ha
      · exact hp
      · obtain ⟨c, o', hg⟩ := hrm a ha
        exact (mem_of_key h s1 _ _ _ hg).1
    unfold load
    rw [s2 p hp]
    simp only [Res.bind_ok]
    rw [ancestorsRev_on h h' (fun a => a ∉ R) c2 p _ _ rev hk h1]
    simp only [Res.bind_ok]
    have hread : ∀ a ∈ rev, (removeFiles R dir).read a.filename = dir.read a.filename := by
      intro a ha
      refine read_filter dir (fun n => !decide (n ∈ R.map (·.filename))) a.filename ?_
      simp only [Bool.not_eq_eq_eq_not, Bool.not_true, decide_eq_false_iff_not]
      intro hm
      obtain ⟨r, hr, he⟩ := List.mem_map.1 hm
      have e1 := s2 r (hR r hr)
      rw [he, s2 a (hmem a ha)] at e1
      simp only [Res.ok.injEq, Option.some.injEq] at e1
      subst e1
      exact hk a ha hr
    have hcomp : ∀ (l : List Props) (s0 : S), (∀ a ∈ l, a ∈ rev) →
        compose ops (removeFiles R dir) l s0 = compose ops dir l s0 := by
      intro l
      induction l with
      | nil => intro s0 _; rfl
      | cons a l ih =>
        intro s0 hl
        rw [compose, compose, hread a (hl a (by simp))]
        cases dir.read a.filename with
        | none => rfl
        | some f =>
          simp only
          cases ops.app s0 f.2 with
          | ok t => exact ih t (fun b hb => hl b (by simp [hb]))
          | err => rfl
          | panic => rfl
    rw [hcomp _ _ (fun a ha => List.mem_reverse.1 ha)]
    exact h2

end
end Verif.Remover
