import Verif.Lemmas.LinkedMap
/-! Helper lemmas: what can be observed of a linked map, cloning, construction, comparison, consumption. -/
namespace Verif.LinkedMap

section
variable {V : Type}

/-! ## Looking at a list -/

theorem Rep.node {m : LM V} {l1 l2 : List (Cell V)} {c : Cell V} (h : Rep m (l1 ++ c :: l2)) :
    m.deref (some c.1) = .ok ⟨tl none l1, hd l2 none, c.2.2, c.2.1⟩ := by
  obtain ⟨-, h2, -⟩ := (dll_append _ _ _ _ _).1 h.chain.dll
  exact deref_ok _ _ _ h2

theorem Rep.node_mem {m : LM V} {l : List (Cell V)} {c : Cell V} (h : Rep m l) (hc : c ∈ l) :
    ∃ q r, m.deref (some c.1) = .ok ⟨q, r, c.2.2, c.2.1⟩ := by
  obtain ⟨q, r, hq⟩ := dll_mem _ _ _ _ h.chain.dll c hc
  exact ⟨q, r, deref_ok _ _ _ hq⟩

theorem get_spec (m : LM V) (l : List (Cell V)) (h : Rep m l) (n id : Nat) :
    m.get id = .ok ((SList.find ⟨l.map val, n⟩ id).map (·.2)) := by
  unfold LM.get
  by_cases hid : id ∈ l.map (·.2.1)
  · obtain ⟨l1, c, l2, rfl, rfl⟩ := h.split id hid
    rw [h.lookup_some c (by simp), find_split l1 l2 c n h.ids]
    simp only
    rw [h.node]
    rfl
  · rw [(h.lookup_none id).2 hid, find_none l n id hid]
    rfl

theorem getFirst_spec (m : LM V) (l : List (Cell V)) (h : Rep m l) : m.getFirst = .ok (l.map val).head? := by
  unfold LM.getFirst
  rw [h.chain.first]
  cases l with
  | nil => rfl
  | cons c l =>
    simp only [hd_cons, LM.entryAt]
    rw [Rep.node (l1 := []) h]
    rfl

theorem getLast_spec (m : LM V) (l : List (Cell V)) (h : Rep m l) : m.getLast = .ok (l.map val).getLast? := by
  unfold LM.getLast
  rw [h.chain.last]
  rcases tl_mem l none with ⟨rfl, he⟩ | ⟨l', c, rfl, he⟩
  · rfl
  · rw [he]
    simp only [LM.entryAt]
    rw [h.node]
    simp [val]

theorem len_spec (m : LM V) (l : List (Cell V)) (h : Rep m l) : m.len = (l.map val).length := by
  unfold LM.len
  rw [h.map.length_eq]
  simp

theorem isEmpty_spec (m : LM V) (l : List (Cell V)) (h : Rep m l) : m.isEmpty = (l.map val).isEmpty := by
  have := len_spec m l h
  unfold LM.len at this
  unfold LM.isEmpty
  cases hm : m.map <;> cases hl : l <;> simp_all

/-! ## Cursors -/

theorem first_eq {m : LM V} {l1 l2 : List (Cell V)} {c : Cell V} (h : Rep m (l1 ++ c :: l2)) :
    m.first = some c.1 ↔ l1 = [] := by
  rw [h.chain.first]
  cases l1 with
  | nil => simp [hd]
  | cons d l1 =>
    have := h.chain.addrs
    simp only [List.cons_append, List.map_cons, List.nodup_cons, List.map_append, List.mem_append, List.mem_cons, not_or] at this
    simp only [List.cons_append, hd_cons, Option.some.injEq, reduceCtorEq, iff_false]
    exact this.1.2.1

theorem last_eq {m : LM V} {l1 l2 : List (Cell V)} {c : Cell V} (h : Rep m (l1 ++ c :: l2)) :
    m.last = some c.1 ↔ l2 = [] := by
  rw [h.chain.last]
  rcases tl_mem l2 (some c.1) with ⟨rfl, he⟩ | ⟨l', d, rfl, he⟩
  · simp [tl_append, tl]
  · rw [tl_append, tl_cons, he]
    have := h.chain.addrs
    rw [show l1 ++ c :: (l' ++ [d]) = (l1 ++ c :: l') ++ [d] by simp, List.map_append, List.nodup_append] at this
    have := this.2.2 c.1 (by simp) d.1 (by simp)
    simp [Ne.symm this]

theorem next_spec {m : LM V} {l1 l2 : List (Cell V)} {c : Cell V} (h : Rep m (l1 ++ c :: l2)) :
    Cursor.next m (some c.1) = .ok (some (val c), hd l2 none) := by
  unfold Cursor.next
  simp only
  rw [h.node]
  simp only [Res.map_ok]
  by_cases hl : l2 = []
  · rw [if_pos ((last_eq h).2 hl), hl]
    rfl
  · rw [if_neg (fun he => hl ((last_eq h).1 he))]
    rfl

theorem prev_spec {m : LM V} {l1 l2 : List (Cell V)} {c : Cell V} (h : Rep m (l1 ++ c :: l2)) :
    Cursor.prev m (some c.1) = .ok (some (val c), tl none l1) := by
  unfold Cursor.prev
  simp only
  rw [h.node]
  simp only [Res.map_ok]
  by_cases hl : l1 = []
  · rw [if_pos ((first_eq h).2 hl), hl]
    rfl
  · rw [if_neg (fun he => hl ((first_eq h).1 he))]
    rfl

theorem isFirst_spec {m : LM V} {l1 l2 : List (Cell V)} {c : Cell V} (h : Rep m (l1 ++ c :: l2)) :
    Cursor.isFirst m (some c.1) = .ok (decide (l1 = [])) := by
  unfold Cursor.isFirst
  simp only
  rw [h.node, getFirst_spec m _ h]
  cases l1 with
  | nil => simp [val]
  | cons d l1 =>
    have := h.ids
    simp only [List.cons_append, List.map_cons, List.nodup_cons, List.map_append, List.mem_append, List.mem_cons, not_or] at this
    simp [val, this.1.2.1]

theorem isLast_spec {m : LM V} {l1 l2 : List (Cell V)} {c : Cell V} (h : Rep m (l1 ++ c :: l2)) :
    Cursor.isLast m (some c.1) = .ok (decide (l2 = [])) := by
  unfold Cursor.isLast
  simp only
  rw [h.node, getLast_spec m _ h]
  rcases tl_mem l2 none with ⟨rfl, he⟩ | ⟨l', d, rfl, he⟩
  · simp [val]
  · have := h.ids
    rw [show l1 ++ c :: (l' ++ [d]) = (l1 ++ c :: l') ++ [d] by simp, List.map_append, List.nodup_append] at this
    have := this.2.2 c.2.1 (by simp) d.2.1 (by simp)
    rw [show (l1 ++ c :: (l' ++ [d])).map val = (l1 ++ c :: l').map val ++ [val d] by simp, List.getLast?_concat]
    simp [val, Ne.symm this]

theorem collect_next {m : LM V} (l1 l2 : List (Cell V)) (h : Rep m (l1 ++ l2)) (fuel : Nat) (hf : l2.length < fuel) :
    collect m (Cursor.next m) fuel (hd l2 none) = .ok (l2.map val) := by
  induction l2 generalizing l1 fuel with
  | nil =>
    obtain ⟨f, rfl⟩ : ∃ f, fuel = f + 1 := ⟨fuel - 1, by simp at hf; omega⟩
    rfl
  | cons c l2 ih =>
    obtain ⟨f, rfl⟩ : ∃ f, fuel = f + 1 := ⟨fuel - 1, by simp at hf; omega⟩
    simp only [hd_cons, collect]
    rw [next_spec h]
    simp only [Res.bind_ok]
    rw [ih (l1 ++ [c]) (by simpa using h) f (by simp at hf; omega)]
    rfl

theorem collect_prev {m : LM V} (l1 l2 : List (Cell V)) (h : Rep m (l1 ++ l2)) (fuel : Nat) (hf : l1.length < fuel) :
    collect m (Cursor.prev m) fuel (tl none l1) = .ok (l1.map val).reverse := by
  induction hn : l1.length generalizing l1 l2 fuel with
  | zero =>
    obtain ⟨f, rfl⟩ : ∃ f, fuel = f + 1 := ⟨fuel - 1, by omega⟩
    rw [List.length_eq_zero_iff] at hn
    subst hn
    rfl
  | succ n ih =>
    obtain ⟨f, rfl⟩ : ∃ f, fuel = f + 1 := ⟨fuel - 1, by omega⟩
    rcases tl_mem l1 none with ⟨rfl, he⟩ | ⟨l', d, rfl, he⟩
    · simp at hn
    · rw [he]
      simp only [collect]
      have h' : Rep m (l' ++ d :: l2) := by simpa using h
      rw [prev_spec h']
      simp only [Res.bind_ok]
      simp only [List.length_append, List.length_cons, List.length_nil] at hf hn
      rw [ih l' (d :: l2) h' f (by omega) (by omega)]
      simp

theorem iterAll_spec (m : LM V) (l : List (Cell V)) (h : Rep m l) : m.iterAll = .ok (l.map val) := by
  unfold LM.iterAll
  rw [h.chain.first]
  exact collect_next [] l h _ (by rw [len_spec m l h]; simp)

theorem iterAllRev_spec (m : LM V) (l : List (Cell V)) (h : Rep m l) : m.iterAllRev = .ok (l.map val).reverse := by
  unfold LM.iterAllRev
  rw [h.chain.last]
  exact collect_prev l [] (by simpa using h) _ (by rw [len_spec m l h]; simp)

theorem iterFromId_head {m : LM V} {l1 l2 : List (Cell V)} (h : Rep m (l1 ++ l2)) :
    (l2.map val).head?.bind (fun x => m.iterFromId x.1) = if l2 = [] then none else some (hd l2 none) := by
  cases l2 with
  | nil => rfl
  | cons c l2 =>
    simp only [List.map_cons, List.head?_cons, Option.bind_some, LM.iterFromId, val, hd_cons]
    rw [h.lookup_some c (by simp)]
    rfl

theorem iterFromId_last {m : LM V} {l1 l2 : List (Cell V)} (h : Rep m (l1 ++ l2)) :
    (l1.map val).getLast?.bind (fun x => m.iterFromId x.1) = if l1 = [] then none else some (tl none l1) := by
  rcases tl_mem l1 none with ⟨rfl, he⟩ | ⟨l', d, rfl, he⟩
  · rfl
  · rw [he, if_neg (by simp)]
    simp only [List.map_append, List.map_cons, List.map_nil, List.getLast?_append, List.getLast?_singleton, Option.some_or,
      Option.bind_some, LM.iterFromId, val]
    rw [h.lookup_some d (by simp)]
    rfl

/-! ## Linking one more cell -/

theorem link_spec (m : LM V) (l : List (Cell V)) (p c : Cell V) (hd : Dll m.heap none (l ++ [p]) none) (hf : Free m c)
    (hp : ((l ++ [p]).map (·.1)).Nodup) (hn : c.1 ∉ (l ++ [p]).map (·.1)) :
    ∃ m1 m', m.setNext (some p.1) (some c.1) = .ok m1 ∧ m1.setPrev (some c.1) (some p.1) = .ok m' ∧
      Dll m'.heap none (l ++ [p] ++ [c]) none ∧ Same m m' ∧ m'.first = m.first ∧ m'.last = m.last ∧
      ∀ a, a ≠ p.1 → a ≠ c.1 → m'.heap a = m.heap a := by
  obtain ⟨d1, d2, -⟩ := (dll_append _ _ _ _ _).1 hd
  simp only [List.map_append, List.map_cons, List.map_nil, List.mem_append, List.mem_singleton, not_or] at hn
  have hne : c.1 ≠ p.1 := hn.2
  have hpl : p.1 ∉ l.map (·.1) := by
    rw [List.map_append, List.nodup_append] at hp
    intro hm
    exact hp.2.2 p.1 hm p.1 (by simp) rfl
  refine ⟨{ m with heap := m.heap.set p.1 (some ⟨tl none l, some c.1, p.2.2, p.2.1⟩) },
    { m with heap := (m.heap.set p.1 (some ⟨tl none l, some c.1, p.2.2, p.2.1⟩)).set c.1 (some ⟨some p.1, none, c.2.2, c.2.1⟩) },
    ?_, ?_, ?_, ⟨rfl, rfl, rfl⟩, rfl, rfl, ?_⟩
  · rw [setNext_ok _ _ _ _ d2]
  · rw [setPrev_ok _ _ ⟨none, none, c.2.2, c.2.1⟩ _ (by simp only; rw [set_other _ _ _ _ hne]; exact hf)]
  · rw [dll_append, dll_append]
    refine ⟨⟨dll_set _ _ _ _ _ _ hn.1 (dll_set _ _ _ _ _ _ hpl d1), ?_, trivial⟩, ?_, trivial⟩
    · show (Heap.set _ _ _) p.1 = _
      rw [set_other _ _ _ _ (Ne.symm hne), set_self]
      rfl
    · show (Heap.set _ _ _) c.1 = _
      rw [set_self, tl_concat]
      rfl
  · intro a ha hc
    simp only
    rw [set_other _ _ _ _ hc, set_other _ _ _ _ ha]

/-! ## Cloning -/

theorem cloneLoop_spec (rest l : List (Cell V)) (p : Cell V) (m : LM V) (hd : Dll m.heap none (l ++ [p]) none)
    (hf : ∀ c ∈ rest, Free m c) (hl : ∀ c ∈ rest, lookup m.map c.2.1 = some c.1) (hn : ((l ++ [p] ++ rest).map (·.1)).Nodup) :
    ∃ m', cloneLoop (rest.map val) m p.1 = .ok m' ∧ Dll m'.heap none (l ++ [p] ++ rest) none ∧ Same m m' ∧
      m'.first = m.first ∧ m'.last = m.last := by
  induction rest generalizing l p m with
  | nil => exact ⟨m, rfl, by simpa using hd, ⟨rfl, rfl, rfl⟩, rfl, rfl⟩
  | cons c rest ih =>
    have hn' := hn
    rw [List.map_append, List.nodup_append] at hn
    obtain ⟨n1, n2, n3⟩ := hn
    rw [List.map_cons, List.nodup_cons] at n2
    obtain ⟨m1, m2, e1, e2, e3, e4, e5, e6, e7⟩ := link_spec m l p c hd (hf c (by simp)) n1
      (fun h => n3 c.1 h c.1 (by simp) rfl)
    obtain ⟨m3, f1, f2, f3, f4, f5⟩ := ih (l ++ [p]) c m2 e3 (by
        intro d hd'
        unfold Free
        have hdc : d.1 ≠ c.1 := fun h => n2.1 (h ▸ List.mem_map.2 ⟨d, hd', rfl⟩)
        have hdp : d.1 ≠ p.1 := fun h => n3 p.1 (by simp) d.1 (by simp only [List.map_cons, List.mem_cons]; exact Or.inr (List.mem_map.2 ⟨d, hd', rfl⟩)) h.symm
        rw [e7 _ hdp hdc]
        exact hf d (by simp [hd'])) (fun d hd' => by rw [e4.map]; exact hl d (by simp [hd'])) (by simpa using hn')
    refine ⟨m3, ?_, by simpa using f2, e4.trans f3, f4.trans e5, f5.trans e6⟩
    simp only [List.map_cons, cloneLoop, val]
    rw [hl c (by simp)]
    simp only
    rw [e1]
    simp only [Res.bind_ok]
    rw [e2]
    simp only [Res.bind_ok]
    exact f1

theorem clone_empty (m : LM V) (h : Rep m []) : m.clone = .ok new := by
  unfold LM.clone
  rw [isEmpty_spec m [] h]
  rfl

theorem clone_spec (m : LM V) (c : Cell V) (l : List (Cell V)) (h : Rep m (c :: l)) :
    ∃ m', m.clone = .ok m' ∧ Rep m' (c :: l) ∧ m'.nextId = m.nextId := by
  have hlast : ∃ q ∈ c :: l, m.getLast = .ok (some (val q)) ∧ m.last = some q.1 := by
    rw [getLast_spec m _ h, h.chain.last]
    rcases tl_mem (c :: l) none with ⟨h1, _⟩ | ⟨l', d, hl', he⟩
    · cases h1
    · rw [hl'] at he
      rw [hl', he]
      exact ⟨d, by simp, by simp, rfl⟩
  obtain ⟨q, hq, hq1, hq2⟩ := hlast
  let copy : LM V := { m with heap := fun a => (m.heap a).map fun n => { n with prev := none, next := none }, first := some c.1, last := some q.1 }
  have hfree : ∀ d ∈ c :: l, Free copy d := by
    intro d hd
    obtain ⟨x, y, hx⟩ := dll_mem _ _ _ _ h.chain.dll d hd
    simp only [Free, copy, hx]
    rfl
  obtain ⟨m', e1, e2, e3, e4, e5⟩ := cloneLoop_spec l [] c copy ⟨hfree c (by simp), trivial⟩ (fun d hd => hfree d (by simp [hd]))
    (fun d hd => h.lookup_some d (by simp [hd])) h.chain.addrs
  refine ⟨m', ?_, ⟨⟨e2, ?_, ?_, h.chain.addrs⟩, h.ids, ?_, ?_⟩, e3.nextId⟩
  · unfold LM.clone
    rw [isEmpty_spec m _ h, getFirst_spec m _ h, hq1]
    simp only [List.map_cons, List.isEmpty_cons, Bool.false_eq_true, if_false, List.head?_cons, Res.bind_ok]
    rw [show lookup m.map (val c).1 = some c.1 from h.lookup_some c (by simp), show lookup m.map (val q).1 = some q.1 from h.lookup_some q hq]
    simp only
    rw [iterAll_spec m _ h]
    exact e1
  · rw [e4]; rfl
  · rw [e5]
    show some q.1 = _
    rw [← hq2, h.chain.last]
  · rw [e3.map]; exact h.map
  · intro d hd; rw [e3.fresh]; exact h.fresh d hd

/-! ## Construction -/

theorem constructLoop_spec (items : List (Nat × V)) (l : List (Cell V)) (p : Cell V) (m : LM V)
    (hr : Rep { m with first := hd (l ++ [p]) none, last := tl none (l ++ [p]) } (l ++ [p]))
    (hn : ((l ++ [p]).map (·.2.1) ++ items.map (·.1)).Nodup) :
    ∃ m' q cells, constructLoop items m p.1 = .ok (m', q) ∧ cells.map val = items ∧ tl none (l ++ [p] ++ cells) = some q ∧
      Rep { m' with first := hd (l ++ [p] ++ cells) none, last := tl none (l ++ [p] ++ cells) } (l ++ [p] ++ cells) := by
  induction items generalizing l p m with
  | nil => exact ⟨m, p.1, [], rfl, rfl, by simp [tl_concat], by simpa using hr⟩
  | cons x items ih =>
    obtain ⟨id, v⟩ := x
    obtain ⟨h1, h2, h3⟩ := alloc_spec _ _ hr id v
    have hid : id ∉ (l ++ [p]).map (·.2.1) := by
      rw [List.nodup_append] at hn
      intro h
      exact hn.2.2 id h id (by simp) rfl
    obtain ⟨m1, m2, e1, e2, e3, e4, e5, e6, e7⟩ := link_spec (m.alloc id v).1 l p (m.fresh, id, v) h1.dll h2 h1.addrs h3
    have hch : Chain { m2 with first := hd (l ++ [p] ++ [(m.fresh, id, v)]) none, last := tl none (l ++ [p] ++ [(m.fresh, id, v)]) } (l ++ [p] ++ [(m.fresh, id, v)]) := by
      refine ⟨e3, rfl, rfl, ?_⟩
      rw [List.map_append, List.nodup_append]
      refine ⟨h1.addrs, by simp, ?_⟩
      intro a ha b hb hab
      simp only [List.map_cons, List.map_nil, List.mem_singleton] at hb
      rw [hab, hb] at ha
      exact h3 ha
    obtain ⟨f1, f2⟩ := insert_rep _ _ _ _ hr id v hid hch ⟨e4.map, e4.fresh, e4.nextId⟩ (List.perm_append_singleton _ _)
    have hlk : lookup m2.map id = none := by
      rw [e4.map]
      exact (hr.lookup_none id).2 hid
    have hmap : m2.map = m.map := e4.map
    obtain ⟨m', q, cells, g1, g2, g3, g4⟩ := ih (l ++ [p]) (m.fresh, id, v) { m2 with map := (id, m.fresh) :: m.map } f2
      (by simpa using hn)
    refine ⟨m', q, (m.fresh, id, v) :: cells, ?_, by simp [g2, val], by simpa using g3, by simpa using g4⟩
    unfold constructLoop
    have e : m.alloc id v = ((m.alloc id v).1, m.fresh) := rfl
    rw [e]
    simp only
    rw [show m.fresh = (m.fresh, id, v).1 from rfl, e1]
    simp only [Res.bind_ok]
    rw [show m.fresh = (m.fresh, id, v).1 from rfl, e2]
    simp only [Res.bind_ok]
    rw [mapInsert_new _ _ _ hlk, hmap]
    exact g1

theorem construct_spec (items : List (Nat × V)) (n : Nat) (hn : (items.map (·.1)).Nodup) :
    ∃ m l, construct items n = .ok m ∧ Rep m l ∧ l.map val = items ∧ m.nextId = if items = [] then 0 else n := by
  cases items with
  | nil =>
    obtain ⟨l, h1, h2, h3⟩ := new_refines (V := V)
    exact ⟨new, l, rfl, h1, h2.symm, rfl⟩
  | cons x items =>
    obtain ⟨id, v⟩ := x
    have hr0 : Rep (new : LM V) [] := ⟨⟨trivial, rfl, rfl, by simp⟩, by simp, by simp [new], by simp⟩
    obtain ⟨h1, h2, h3⟩ := alloc_spec (new : LM V) [] hr0 id v
    have hch : Chain { ((new : LM V).alloc id v).1 with first := some 0, last := some 0 } [(0, id, v)] := ⟨⟨h2, trivial⟩, rfl, rfl, by simp⟩
    obtain ⟨f1, f2⟩ := insert_rep (new : LM V) _ [] _ hr0 id v (by simp) hch ⟨rfl, rfl, rfl⟩ (List.Perm.refl _)
    obtain ⟨m', q, cells, g1, g2, g3, g4⟩ := constructLoop_spec items [] (0, id, v) (((new : LM V).alloc id v).1.mapInsert id 0).1
      f2 (by simpa using hn)
    refine ⟨{ m' with first := some 0, last := some q, nextId := n }, (0, id, v) :: cells, ?_, ?_, by simp [g2, val], by simp⟩
    · show Res.map (fun r : LM V × Nat => ({ r.1 with first := some 0, last := some r.2, nextId := n } : LM V))
        (constructLoop items (((new : LM V).alloc id v).1.mapInsert id 0).1 0) = _
      rw [g1]
      rfl
    · refine ⟨⟨g4.chain.dll, rfl, ?_, g4.chain.addrs⟩, g4.ids, g4.map, g4.fresh⟩
      exact g3.symm

/-! ## Comparison and consumption -/

theorem zipEq_spec [DecidableEq V] (l r : List (Nat × V)) (h : l.length = r.length) : zipEq l r = decide (l = r) := by
  induction l generalizing r with
  | nil =>
    cases r with
    | nil => rfl
    | cons x r => simp at h
  | cons x l ih =>
    cases r with
    | nil => simp at h
    | cons y r =>
      obtain ⟨a, v⟩ := x
      obtain ⟨b, w⟩ := y
      unfold zipEq
      rw [ih r (by simpa using h)]
      by_cases h1 : a = b <;> by_cases h2 : v = w <;> simp [h1, h2]

theorem beq_spec [DecidableEq V] (m n : LM V) (l r : List (Cell V)) (hm : Rep m l) (hn : Rep n r) :
    m.beq n = .ok (decide (l.map val = r.map val)) := by
  unfold LM.beq
  rw [len_spec m l hm, len_spec n r hn]
  by_cases h : (l.map val).length = (r.map val).length
  · rw [if_neg (by simpa using h), iterAll_spec m l hm, iterAll_spec n r hn]
    simp only [Res.bind_ok, Res.map_ok]
    rw [zipEq_spec _ _ h]
  · rw [if_pos h, decide_eq_false (fun he => h (by rw [he]))]

theorem mapRemove_into (m : LM V) (c : Cell V) (l : List (Cell V)) (hl : ∀ d ∈ c :: l, lookup m.map d.2.1 = some d.1 ∧ ∃ q r, m.heap d.1 = some ⟨q, r, d.2.2, d.2.1⟩)
    (hn : ((c :: l).map (·.1)).Nodup) (hi : ((c :: l).map (·.2.1)).Nodup) :
    ∀ d ∈ l, lookup (m.mapRemove c.2.1).map d.2.1 = some d.1 ∧ ∃ q r, (m.mapRemove c.2.1).heap d.1 = some ⟨q, r, d.2.2, d.2.1⟩ := by
  intro d hd
  rw [List.map_cons, List.nodup_cons] at hn hi
  obtain ⟨h1, h2⟩ := hl d (by simp [hd])
  unfold LM.mapRemove
  rw [(hl c (by simp)).1]
  simp only
  constructor
  · have hne : d.2.1 ≠ c.2.1 := fun h => hi.1 (h ▸ List.mem_map.2 ⟨d, hd, rfl⟩)
    have : ∀ mp : List (Nat × Nat), lookup (erase mp c.2.1) d.2.1 = lookup mp d.2.1 := by
      intro mp
      induction mp with
      | nil => rfl
      | cons x mp ih =>
        obtain ⟨k, a⟩ := x
        simp only [erase]
        by_cases hk : k = c.2.1
        · rw [if_pos hk]
          simp only [lookup]
          rw [if_neg (by rw [hk]; exact Ne.symm hne)]
        · rw [if_neg hk]
          simp only [lookup]
          rw [ih]
    rw [this]
    exact h1
  · obtain ⟨q, r, hq⟩ := h2
    refine ⟨q, r, ?_⟩
    rw [set_other _ _ _ _ (fun h : d.1 = c.1 => hn.1 (h ▸ List.mem_map.2 ⟨d, hd, rfl⟩))]
    exact hq

theorem intoLoop_spec (l : List (Cell V)) (m : LM V) (hl : ∀ d ∈ l, lookup m.map d.2.1 = some d.1 ∧ ∃ q r, m.heap d.1 = some ⟨q, r, d.2.2, d.2.1⟩)
    (hn : (l.map (·.1)).Nodup) (hi : (l.map (·.2.1)).Nodup) :
    intoLoop ((l.map val).map (·.1)) m = .ok (l.map val) := by
  induction l generalizing m with
  | nil => rfl
  | cons c l ih =>
    obtain ⟨h1, q, r, h2⟩ := hl c (by simp)
    simp only [List.map_cons, intoLoop]
    rw [show (val c).1 = c.2.1 from rfl, h1]
    simp only
    rw [deref_ok _ _ _ h2]
    simp only [Res.bind_ok]
    rw [List.map_cons, List.nodup_cons] at hn hi
    rw [ih (m.mapRemove c.2.1) (mapRemove_into m c l hl (by simpa using hn) (by simpa using hi)) hn.2 hi.2]
    rfl

theorem intoIter_spec (m : LM V) (l : List (Cell V)) (h : Rep m l) : m.intoIter = .ok (l.map val) := by
  unfold LM.intoIter
  rw [iterAll_spec m l h]
  exact intoLoop_spec l m (fun d hd => ⟨h.lookup_some d hd, dll_mem _ _ _ _ h.chain.dll d hd⟩) h.chain.addrs h.ids

end
end Verif.LinkedMap
