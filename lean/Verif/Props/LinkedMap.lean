import Verif.Lemmas.LinkedObs
/-!
# C14 to C17: mutable lists

The model is a heap of nodes with `prev`/`next` addresses and a map from ids to addresses (`Model/LinkedMap.lean`); reading
through a dangling or null pointer is a `panic`. The specification is an ordered list of (id, item) pairs
(`Spec/LinkedMap.lean`).
-/
namespace Verif.LinkedMap

section
variable {V : Type}

/-- Everything that can be observed of a list. -/
structure Observes (m : LM V) (s : SList V) : Prop where
  forwards : m.iterAll = .ok s.items
  backwards : m.iterAllRev = .ok s.items.reverse
  consumed : m.intoIter = .ok s.items
  item : ∀ id, m.get id = .ok ((s.find id).map (·.2))
  contains : ∀ id, m.containsKey id = decide (id ∈ s.ids)
  first : m.getFirst = .ok s.items.head?
  last : m.getLast = .ok s.items.getLast?
  length : m.len = s.items.length
  empty : m.isEmpty = s.items.isEmpty
  nextId : m.nextId = s.nextId

theorem observes_of_refines {m : LM V} {s : SList V} (h : Refines m s) : Observes m s := by
  obtain ⟨l, hr, hi, hn⟩ := h
  obtain ⟨items, n⟩ := s
  simp only at hi hn
  subst hi
  refine ⟨iterAll_spec m l hr, iterAllRev_spec m l hr, intoIter_spec m l hr, get_spec m l hr n, ?_, getFirst_spec m l hr,
    getLast_spec m l hr, len_spec m l hr, isEmpty_spec m l hr, hn.symm⟩
  intro id
  rw [containsKey_iff m l hr, ids_items (s := ⟨l.map val, n⟩) rfl]

theorem refines_construct (items : List (Nat × V)) (n : Nat) (h : (items.map (·.1)).Nodup) :
    ∃ m, construct items n = .ok m ∧ Refines m ⟨items, if items = [] then 0 else n⟩ := by
  obtain ⟨m, l, h1, h2, h3, h4⟩ := construct_spec items n h
  exact ⟨m, h1, l, h2, h3.symm, h4.symm⟩

theorem refines_clone {m : LM V} {s : SList V} (h : Refines m s) :
    ∃ m', m.clone = .ok m' ∧ Refines m' ⟨s.items, if s.items = [] then 0 else s.nextId⟩ := by
  obtain ⟨l, hr, hi, hn⟩ := h
  cases l with
  | nil =>
    refine ⟨new, clone_empty m hr, ?_⟩
    rw [hi]
    exact new_refines
  | cons c l =>
    obtain ⟨m', h1, h2, h3⟩ := clone_spec m c l hr
    refine ⟨m', h1, _, h2, hi, ?_⟩
    rw [hi, if_neg (by simp), hn, h3]

theorem refines_of_reach {m : LM V} {s : SList V} (h : Reach m s) : Refines m s := by
  induction h with
  | construct items n m hn hc =>
    obtain ⟨m', h1, h2⟩ := refines_construct items n hn
    rw [hc] at h1
    cases h1
    exact h2
  | clone m s m' _ hc ih =>
    obtain ⟨m1, h1, h2⟩ := refines_clone ih
    rw [hc] at h1
    cases h1
    exact h2
  | step m s op m' r _ ha hs ih =>
    obtain ⟨m1, h1, h2⟩ := step_refines m s ih op ha
    rw [hs] at h1
    cases h1
    exact h2

/-! ## C14 -/

/-- C14, full statement for the internal operations: on a list built from any pairs with distinct ids, every run of operations
whose automatic ids are free returns what the same run on an ordered list returns, and leaves a list that looks like it.
The one exception is an insertion with an automatic id that is already taken, see `C14_negation_id_taken`. -/
theorem C14_run (items : List (Nat × V)) (n : Nat) (hn : (items.map (·.1)).Nodup) (ops : List (Op V))
    (ha : SList.AdmitsAll ops ⟨items, if items = [] then 0 else n⟩) :
    ∃ m m', construct items n = .ok m ∧
      LM.run ops m = .ok (m', (SList.run ops ⟨items, if items = [] then 0 else n⟩).2) ∧
      Observes m' (SList.run ops ⟨items, if items = [] then 0 else n⟩).1 := by
  obtain ⟨m, h1, h2⟩ := refines_construct items n hn
  obtain ⟨m', h3, h4⟩ := run_refines ops m _ h2 ha
  exact ⟨m, m', h1, h3, observes_of_refines h4⟩

/-- Every list that can arise never reads through a bad pointer and looks like the ordered list it should be. -/
theorem C14_reachable (m : LM V) (s : SList V) (h : Reach m s) : Observes m s := observes_of_refines (refines_of_reach h)

theorem ids_lt_step (s : SList V) (op : Op V) (hp : op.IsPublic) (h : ∀ i ∈ s.ids, i < s.nextId) :
    (∀ i ∈ (s.step op).1.ids, i < (s.step op).1.nextId) ∧ s.nextId ≤ (s.step op).1.nextId := by
  obtain ⟨items, n⟩ := s
  simp only [SList.ids, List.mem_map, Prod.exists, exists_and_right, exists_eq_right, forall_exists_index] at h
  have hw : ∀ id i v, (i, v) ∈ SList.without ⟨items, n⟩ id → i < n := by
    intro id i v hi
    exact h i v (List.mem_filter.1 hi).1
  have hf : ∀ id x, SList.find ⟨items, n⟩ id = some x → x.1 < n := by
    intro id x hx
    exact h x.1 x.2 (List.mem_of_find?_eq_some hx)
  cases op with
  | insertFirst v =>
    simp only [SList.step, SList.ids, List.map_cons, List.mem_cons, List.mem_map, Prod.exists, exists_and_right, exists_eq_right]
    refine ⟨?_, by omega⟩
    rintro i (rfl | ⟨v, hi⟩)
    · omega
    · have := h i v hi; omega
  | insertLast v =>
    simp only [SList.step, SList.ids, List.map_append, List.map_cons, List.map_nil, List.mem_append, List.mem_singleton,
      List.mem_map, Prod.exists, exists_and_right, exists_eq_right]
    refine ⟨?_, by omega⟩
    rintro i (⟨v, hi⟩ | rfl)
    · have := h i v hi; omega
    · omega
  | insertFirstWithId id v => exact absurd hp (fun h => h)
  | insertLastWithId id v => exact absurd hp (fun h => h)
  | setNextId n => exact absurd hp id
  | remove id =>
    simp only [SList.step, SList.ids, List.mem_map, Prod.exists, exists_and_right, exists_eq_right]
    exact ⟨fun i ⟨v, hi⟩ => hw id i v hi, Nat.le_refl _⟩
  | removeFirst =>
    simp only [SList.step, SList.ids, List.mem_map, Prod.exists, exists_and_right, exists_eq_right]
    exact ⟨fun i ⟨v, hi⟩ => h i v (List.mem_of_mem_tail hi), Nat.le_refl _⟩
  | removeLast =>
    simp only [SList.step, SList.ids, List.mem_map, Prod.exists, exists_and_right, exists_eq_right]
    exact ⟨fun i ⟨v, hi⟩ => h i v ((List.dropLast_sublist _).subset hi), Nat.le_refl _⟩
  | setItem id v =>
    simp only [SList.step, SList.ids, List.mem_map]
    refine ⟨?_, Nat.le_refl _⟩
    rintro i ⟨x, ⟨y, hy, rfl⟩, rfl⟩
    have := h y.1 y.2 hy
    split <;> exact this
  | moveToFirst id =>
    simp only [SList.step]
    cases hfi : SList.find ⟨items, n⟩ id with
    | none => simp only [SList.ids, List.mem_map]; exact ⟨fun i ⟨x, hx, he⟩ => he ▸ h x.1 x.2 hx, Nat.le_refl _⟩
    | some x =>
      simp only [SList.ids, List.mem_map, List.mem_cons]
      refine ⟨?_, Nat.le_refl _⟩
      rintro i ⟨y, rfl | hy, rfl⟩
      · exact hf id y hfi
      · exact hw id y.1 y.2 hy
  | moveToLast id =>
    simp only [SList.step]
    cases hfi : SList.find ⟨items, n⟩ id with
    | none => simp only [SList.ids, List.mem_map]; exact ⟨fun i ⟨x, hx, he⟩ => he ▸ h x.1 x.2 hx, Nat.le_refl _⟩
    | some x =>
      simp only [SList.ids, List.mem_map, List.mem_append, List.mem_singleton]
      refine ⟨?_, Nat.le_refl _⟩
      rintro i ⟨y, hy | rfl, rfl⟩
      · exact hw id y.1 y.2 hy
      · exact hf id y hfi
  | moveToPrev next id =>
    simp only [SList.step]
    cases hfi : SList.find ⟨items, n⟩ id with
    | none => simp only [SList.ids, List.mem_map]; exact ⟨fun i ⟨x, hx, he⟩ => he ▸ h x.1 x.2 hx, Nat.le_refl _⟩
    | some x =>
      simp only
      split
      · simp only [SList.ids, List.mem_map, putBefore, List.mem_flatMap]
        refine ⟨?_, Nat.le_refl _⟩
        rintro i ⟨y, ⟨z, hz, hy⟩, rfl⟩
        split at hy
        · simp only [List.mem_cons, List.not_mem_nil, or_false] at hy
          rcases hy with rfl | rfl
          · exact hf id y hfi
          · exact hw id y.1 y.2 hz
        · simp only [List.mem_singleton] at hy
          rw [hy]
          exact hw id z.1 z.2 hz
      · simp only [SList.ids, List.mem_map]; exact ⟨fun i ⟨x, hx, he⟩ => he ▸ h x.1 x.2 hx, Nat.le_refl _⟩
  | moveToNext next id =>
    simp only [SList.step]
    cases hfi : SList.find ⟨items, n⟩ id with
    | none => simp only [SList.ids, List.mem_map]; exact ⟨fun i ⟨x, hx, he⟩ => he ▸ h x.1 x.2 hx, Nat.le_refl _⟩
    | some x =>
      simp only
      split
      · simp only [SList.ids, List.mem_map, putAfter, List.mem_flatMap]
        refine ⟨?_, Nat.le_refl _⟩
        rintro i ⟨y, ⟨z, hz, hy⟩, rfl⟩
        split at hy
        · simp only [List.mem_cons, List.not_mem_nil, or_false] at hy
          rcases hy with rfl | rfl
          · exact hw id y.1 y.2 hz
          · exact hf id y hfi
        · simp only [List.mem_singleton] at hy
          rw [hy]
          exact hw id z.1 z.2 hz
      · simp only [SList.ids, List.mem_map]; exact ⟨fun i ⟨x, hx, he⟩ => he ▸ h x.1 x.2 hx, Nat.le_refl _⟩

theorem admits_public (s : SList V) (op : Op V) (h : ∀ i ∈ s.ids, i < s.nextId) : s.Admits op := by
  have : s.nextId ∉ s.ids := fun hm => Nat.lt_irrefl _ (h _ hm)
  cases op <;> first | exact this | trivial

theorem admitsAll_public (ops : List (Op V)) (s : SList V) (hp : ∀ op ∈ ops, op.IsPublic) (h : ∀ i ∈ s.ids, i < s.nextId) :
    s.AdmitsAll ops := by
  induction ops generalizing s with
  | nil => trivial
  | cons op ops ih =>
    exact ⟨admits_public s op h, ih _ (fun o ho => hp o (by simp [ho])) (ids_lt_step s op (hp op (by simp)) h).1⟩

/-- C14 for the public interface (`MListMut`): no side condition on the operations at all. The list starts from any pairs with
distinct ids below the next id, as it is loaded from a file; a new list is the case of no pairs. -/
theorem C14_public (items : List (Nat × V)) (n : Nat) (hn : (items.map (·.1)).Nodup) (hlt : ∀ x ∈ items, x.1 < n)
    (ops : List (Op V)) (hp : ∀ op ∈ ops, op.IsPublic) :
    ∃ m m', construct items n = .ok m ∧
      LM.run ops m = .ok (m', (SList.run ops ⟨items, if items = [] then 0 else n⟩).2) ∧
      Observes m' (SList.run ops ⟨items, if items = [] then 0 else n⟩).1 := by
  refine C14_run items n hn ops (admitsAll_public ops _ hp ?_)
  intro i hi
  simp only [SList.ids, List.mem_map] at hi
  obtain ⟨x, hx, rfl⟩ := hi
  simp only
  rw [if_neg (List.ne_nil_of_mem hx)]
  exact hlt x hx

/-- a long run with every kind of operation meets the hypotheses -/
example : SList.run [.insertFirst 'c', .moveToPrev 4 7, .remove 4, .insertLast 'd', .moveToNext 8 9, .setItem 9 'z', .removeFirst]
    ⟨[(4, 'a'), (7, 'b')], 8⟩ = (⟨[(9, 'z'), (7, 'b')], 10⟩, [.id 8, .bool true, .bool true, .id 9, .bool true, .bool true, .bool true]) := by
  rfl

example : ∃ m m', construct [(4, 'a'), (7, 'b')] 8 = .ok m ∧
    LM.run [.insertFirst 'c', .moveToPrev 4 7] m = .ok (m', [.id 8, .bool true]) ∧
    m'.iterAll = .ok [(8, 'c'), (7, 'b'), (4, 'a')] ∧ m'.iterAllRev = .ok [(4, 'a'), (7, 'b'), (8, 'c')] := by
  obtain ⟨m, m', h1, h2, h3⟩ := C14_public [(4, 'a'), (7, 'b')] 8 (by decide) (by decide) [.insertFirst 'c', .moveToPrev 4 7]
    (by simp [Op.IsPublic])
  exact ⟨m, m', h1, h2, h3.forwards, h3.backwards⟩

/-- C14 is false for the internal operations without the side condition: `insert_last_with_id` does not raise the next id, so a
later `insert_last` replaces the node of the same id in the map while the chain still points to the freed node. Reading a diff
that carries such an id reaches this state. -/
theorem C14_negation_id_taken :
    ∃ m : LM Nat, LM.run [.insertLastWithId 0 5, .insertLast 6] new = .ok (m, [.bool true, .id 0]) ∧ m.iterAll = .panic ∧
      (SList.run [.insertLastWithId 0 5, .insertLast 6] ⟨[], 0⟩).1.items = [(0, 5), (0, 6)] :=
  ⟨_, rfl, by decide +kernel, by decide⟩

/-! ## C15 -/

/-- At every clone the list is not empty, or no id has been handed out yet. -/
def ClonesKeepIds : List (Event V) → SList V → Prop
  | [], _ => True
  | .clone :: es, s => (s.items = [] → s.nextId = 0) ∧ ClonesKeepIds es s
  | .op o :: es, s => ClonesKeepIds es (s.step o).1

theorem live_spec (es : List (Event V)) (m : LM V) (s : SList V) (hr : Refines m s)
    (hp : ∀ o, Event.op o ∈ es → o.IsPublic) (hlt : ∀ i ∈ s.ids, i < s.nextId) (hc : ClonesKeepIds es s) :
    ∃ m' ids, LM.live es m = .ok (m', ids) ∧ ids.Pairwise (· < ·) ∧ ∀ i ∈ ids, s.nextId ≤ i := by
  induction es generalizing m s with
  | nil => exact ⟨m, [], rfl, List.Pairwise.nil, by simp⟩
  | cons e es ih =>
    cases e with
    | clone =>
      obtain ⟨m1, h1, h2⟩ := refines_clone hr
      have he : (⟨s.items, if s.items = [] then 0 else s.nextId⟩ : SList V) = s := by
        obtain ⟨items, n⟩ := s
        by_cases h : items = []
        · have := hc.1 h
          simp only at this
          simp [h, this]
        · simp [h]
      rw [he] at h2
      obtain ⟨m', ids, h3, h4, h5⟩ := ih m1 s h2 (fun o ho => hp o (by simp [ho])) hlt hc.2
      refine ⟨m', ids, ?_, h4, h5⟩
      simp only [LM.live]
      rw [h1]
      exact h3
    | op o =>
      obtain ⟨m1, h1, h2⟩ := step_refines m s hr o (admits_public s o hlt)
      obtain ⟨hlt', hle⟩ := ids_lt_step s o (hp o (by simp)) hlt
      obtain ⟨m', ids, h3, h4, h5⟩ := ih m1 _ h2 (fun o ho => hp o (by simp [ho])) hlt' hc
      have hret : ∀ k, (s.step o).2 = .id k → k = s.nextId ∧ (s.step o).1.nextId = s.nextId + 1 := by
        intro k hk
        cases o with
        | insertFirst v => simp only [SList.step, Ret.id.injEq] at hk ⊢; exact ⟨hk.symm, trivial⟩
        | insertLast v => simp only [SList.step, Ret.id.injEq] at hk ⊢; exact ⟨hk.symm, trivial⟩
        | moveToFirst id => simp only [SList.step] at hk; split at hk <;> simp at hk
        | moveToLast id => simp only [SList.step] at hk; split at hk <;> simp at hk
        | insertFirstWithId id v => simp only [SList.step] at hk; split at hk <;> simp at hk
        | insertLastWithId id v => simp only [SList.step] at hk; split at hk <;> simp at hk
        | moveToPrev x id =>
          simp only [SList.step] at hk
          split at hk
          · split at hk <;> simp at hk
          · simp at hk
        | moveToNext x id =>
          simp only [SList.step] at hk
          split at hk
          · split at hk <;> simp at hk
          · simp at hk
        | _ => simp [SList.step] at hk
      refine ⟨m', match (s.step o).2 with | .id n => n :: ids | _ => ids, ?_, ?_, ?_⟩
      · simp only [LM.live]
        rw [h1]
        simp only [Res.bind_ok]
        rw [h3]
        rfl
      · cases hk : (s.step o).2 with
        | id k =>
          obtain ⟨e1, e2⟩ := hret k hk
          refine List.Pairwise.cons ?_ h4
          intro i hi
          have := h5 i hi
          omega
        | bool b => exact h4
        | unit => exact h4
      · intro i hi
        cases hk : (s.step o).2 with
        | id k =>
          obtain ⟨e1, e2⟩ := hret k hk
          rw [hk] at hi
          simp only [List.mem_cons] at hi
          rcases hi with rfl | hi
          · omega
          · have := h5 i hi; omega
        | bool b => rw [hk] at hi; have := h5 i hi; omega
        | unit => rw [hk] at hi; have := h5 i hi; omega

/-- C15 (partial): the ids handed out in the life of a list strictly increase and are none of the ids the list started with,
through all removals and moves and through every clone of a list that is not empty. Missing: a clone of a list that was emptied
starts again at 0, see `C15_negation_clone`; saving and reloading are treated with the diffs (C11). -/
theorem C15_ids_fresh_partial (items : List (Nat × V)) (n : Nat) (hn : (items.map (·.1)).Nodup) (hlt : ∀ x ∈ items, x.1 < n)
    (es : List (Event V)) (hp : ∀ o, Event.op o ∈ es → o.IsPublic)
    (hc : ClonesKeepIds es ⟨items, if items = [] then 0 else n⟩) :
    ∃ m m' ids, construct items n = .ok m ∧ LM.live es m = .ok (m', ids) ∧ ids.Pairwise (· < ·) ∧
      ∀ i ∈ ids, i ∉ items.map (·.1) := by
  obtain ⟨m, h1, h2⟩ := refines_construct items n hn
  have hl : ∀ i ∈ (⟨items, if items = [] then 0 else n⟩ : SList V).ids, i < if items = [] then 0 else n := by
    intro i hi
    simp only [SList.ids, List.mem_map] at hi
    obtain ⟨x, hx, rfl⟩ := hi
    rw [if_neg (List.ne_nil_of_mem hx)]
    exact hlt x hx
  obtain ⟨m', ids, h3, h4, h5⟩ := live_spec es m _ h2 hp hl hc
  refine ⟨m, m', ids, h1, h3, h4, ?_⟩
  intro i hi hm
  have e1 := h5 i hi
  have e2 := hl i hm
  simp only at e1
  omega

example : ClonesKeepIds [.clone, .op (.insertLast 'a'), .op (.insertLast 'b'), .op (.remove 0), .clone, .op (.insertFirst 'c')]
    ⟨[], 0⟩ := by
  simp [ClonesKeepIds, SList.step, SList.without]

example : ∃ m m' ids, construct [(4, 'a'), (7, 'b')] 8 = .ok m ∧
    LM.live [.op .removeLast, .clone, .op (.insertLast 'c'), .op .removeFirst, .op (.insertLast 'd')] m = .ok (m', ids) ∧
    ids.Pairwise (· < ·) ∧ ∀ i ∈ ids, i ∉ [4, 7] :=
  C15_ids_fresh_partial [(4, 'a'), (7, 'b')] 8 (by decide) (by decide) _
    (by simp only [List.mem_cons, Event.op.injEq, reduceCtorEq, List.not_mem_nil, or_false, false_or]; rintro o (rfl | rfl | rfl | rfl) <;> trivial)
    (by simp [ClonesKeepIds, SList.step])

/-- C15 is false: the clone of an emptied list hands out the id 0 a second time. `MutListVal::list_mut` clones the list whenever
it is shared (rust_list.rs, `Arc::make_mut`), so this happens without an explicit clone. -/
theorem C15_negation_clone :
    ∃ m : LM Nat, LM.live [.op (.insertLast 5), .op (.remove 0), .clone, .op (.insertLast 6)] new = .ok (m, [0, 0]) :=
  ⟨_, rfl⟩

/-- C15 is false for a list that is stored while empty and constructed again with its next id. -/
theorem C15_negation_construct : ∃ m : LM Nat, construct [] 7 = .ok m ∧ m.nextId = 0 := ⟨_, rfl, rfl⟩

/-! ## C16 -/

theorem cursorAt_head {m : LM V} {l1 l2 : List (Cell V)} (h : Rep m (l1 ++ l2)) :
    m.cursorAt (l2.map val).head? = hd l2 none := by
  have := iterFromId_head h
  cases l2 with
  | nil => rfl
  | cons c l2 =>
    simp only [List.map_cons, List.head?_cons, Option.bind_some, LM.cursorAt] at this ⊢
    rw [this]
    rfl

theorem cursorAt_last {m : LM V} {l1 l2 : List (Cell V)} (h : Rep m (l1 ++ l2)) :
    m.cursorAt (l1.map val).getLast? = tl none l1 := by
  have := iterFromId_last h
  rcases tl_mem l1 none with ⟨rfl, he⟩ | ⟨l', d, rfl, he⟩
  · rfl
  · rw [show ((l' ++ [d]).map val).getLast? = some (val d) by simp] at this ⊢
    rw [if_neg (by simp)] at this
    simp only [Option.bind_some, LM.cursorAt] at this ⊢
    rw [this]
    rfl

/-- C16 (partial): for every list and every position, with a cursor at the item: `next` returns the item and moves to the item
after it, `prev` returns the item and moves to the item before it, `current` returns the item, `is_first` and `is_last` are true
exactly at the ends. This is `LinkedMapUnsafeIter`, and through it `MListIterConst` (all functions), `MListIterMut` (all but
`prev`), `LinkedMapIter(Mut)` (all but `is_last`). The exceptions are `C16_negation_is_last` and `C16_negation_prev`. -/
theorem C16_cursor_partial (m : LM V) (s : SList V) (h : Reach m s) (pre post : List (Nat × V)) (x : Nat × V)
    (hs : s.items = pre ++ x :: post) :
    ∃ cur, m.iterFromId x.1 = some cur ∧ cur.isAvailable = true ∧ cur.current m = .ok (some x) ∧
      cur.next m = .ok (some x, m.cursorAt post.head?) ∧
      cur.prev m = .ok (some x, m.cursorAt pre.getLast?) ∧
      cur.isFirst m = .ok (decide (pre = [])) ∧
      cur.isLast m = .ok (decide (post = [])) := by
  obtain ⟨l, hr, hi, hn⟩ := refines_of_reach h
  rw [hs] at hi
  obtain ⟨l1, l2', rfl, rfl, h3⟩ := List.append_eq_map_iff.1 hi
  obtain ⟨c, l2, rfl, rfl, rfl⟩ := List.map_eq_cons_iff.1 h3
  refine ⟨some c.1, ?_, rfl, ?_, ?_, ?_, ?_, ?_⟩
  · simp only [LM.iterFromId, val]
    rw [hr.lookup_some c (by simp)]
    rfl
  · simp only [Cursor.current, LM.entryAt]
    rw [hr.node]
    rfl
  · rw [next_spec hr, cursorAt_head (l1 := l1 ++ [c]) (by simpa using hr)]
  · rw [prev_spec hr, cursorAt_last hr]
  · rw [isFirst_spec hr]; simp
  · rw [isLast_spec hr]; simp

/-- a cursor past the end stays there -/
theorem C16_past_end (m : LM V) : Cursor.next m none = .ok (none, none) ∧ Cursor.prev m none = .ok (none, none) ∧
    Cursor.isFirst m none = .ok false ∧ Cursor.isLast m none = .ok false ∧ Cursor.isAvailable none = false :=
  ⟨rfl, rfl, rfl, rfl, rfl⟩

/-- `iter` starts at the first item, `iter_from_last` at the last -/
theorem C16_start (m : LM V) (s : SList V) (h : Reach m s) :
    m.first = m.cursorAt s.items.head? ∧ m.last = m.cursorAt s.items.getLast? := by
  obtain ⟨l, hr, hi, hn⟩ := refines_of_reach h
  rw [hi, cursorAt_head (l1 := []) hr, cursorAt_last (l2 := []) (by simpa using hr)]
  exact ⟨hr.chain.first, hr.chain.last⟩

/-- two items, and the cursor at the second one -/
def two : LM Nat :=
  match construct [(0, 10), (1, 11)] 2 with
  | .ok m => m
  | _ => new

theorem two_reach : Reach two ⟨[(0, 10), (1, 11)], 2⟩ := Reach.construct [(0, 10), (1, 11)] 2 two (by decide) rfl

example : ∃ cur, two.iterFromId 1 = some cur ∧ cur.isAvailable = true ∧ cur.current two = .ok (some (1, 11)) ∧
      cur.next two = .ok (some (1, 11), none) ∧ cur.prev two = .ok (some (1, 11), two.cursorAt (some (0, 10))) ∧
      cur.isFirst two = .ok false ∧ cur.isLast two = .ok true :=
  C16_cursor_partial two _ two_reach [(0, 10)] [] (1, 11) rfl

/-- C16 is false for `LinkedMapIter::is_last` and `LinkedMapIterMut::is_last`: at the last of two items it says no, at the first
it says yes. -/
theorem C16_negation_is_last :
    (∃ cur, two.iterFromId 1 = some cur ∧ cur.safeIsLast two = .ok false) ∧
    (∃ cur, two.iterFromId 0 = some cur ∧ cur.safeIsLast two = .ok true) :=
  ⟨⟨_, rfl, by decide +kernel⟩, ⟨_, rfl, by decide +kernel⟩⟩

/-- C16 is false for `MListIterMut::prev`: at the last of two items it moves past the end instead of to the first. -/
theorem C16_negation_prev :
    ∃ cur, two.iterFromId 1 = some cur ∧ cur.mlistMutPrev two = .ok (some (1, 11), none) ∧ two.cursorAt (some (0, 10)) ≠ none :=
  ⟨_, rfl, by decide +kernel, by decide +kernel⟩

/-! ## C17 -/

/-- C17 (partial): the clone of a list holds the same items in the same order with the same ids, and issues the same next id,
except that the clone of an empty list issues 0. `C17_negation_empty` is the missing case. -/
theorem C17_clone_partial (m : LM V) (s : SList V) (h : Reach m s) :
    ∃ m', m.clone = .ok m' ∧ Observes m' ⟨s.items, if s.items = [] then 0 else s.nextId⟩ := by
  obtain ⟨m', h1, h2⟩ := refines_clone (refines_of_reach h)
  exact ⟨m', h1, observes_of_refines h2⟩

/-- the full statement, for lists that are not empty -/
theorem C17_clone_nonempty_partial (m : LM V) (s : SList V) (h : Reach m s) (hne : s.items ≠ []) :
    ∃ m', m.clone = .ok m' ∧ Observes m' s := by
  obtain ⟨m', h1, h2⟩ := C17_clone_partial m s h
  rw [if_neg hne] at h2
  exact ⟨m', h1, h2⟩

/-- the clone compares equal to the original, and in general `==` compares ids, items and order (not the next id) -/
theorem C17_equal [DecidableEq V] (m n : LM V) (s t : SList V) (hm : Reach m s) (hn : Reach n t) :
    m.beq n = .ok (decide (s.items = t.items)) := by
  obtain ⟨l, h1, h2, h3⟩ := refines_of_reach hm
  obtain ⟨r, h4, h5, h6⟩ := refines_of_reach hn
  rw [beq_spec m n l r h1 h4, h2, h5]

/-- `construct` keeps pairs, order and next id of a list that is not empty -/
theorem C17_construct_partial (items : List (Nat × V)) (n : Nat) (hn : (items.map (·.1)).Nodup) (hne : items ≠ []) :
    ∃ m, construct items n = .ok m ∧ Observes m ⟨items, n⟩ := by
  obtain ⟨m, h1, h2⟩ := refines_construct items n hn
  rw [if_neg hne] at h2
  exact ⟨m, h1, observes_of_refines h2⟩

example : ∃ m', two.clone = .ok m' ∧ m'.iterAll = .ok [(0, 10), (1, 11)] ∧ m'.nextId = 2 := by
  obtain ⟨m', h1, h2⟩ := C17_clone_nonempty_partial two _ two_reach (by simp)
  exact ⟨m', h1, h2.forwards, h2.nextId⟩

/-- C17 is false for an emptied list: it would issue 1 next, its clone issues 0. -/
theorem C17_negation_empty :
    ∃ m m' : LM Nat, LM.run [.insertLast 5, .remove 0] new = .ok (m, [.id 0, .bool true]) ∧ m.nextId = 1 ∧
      m.clone = .ok m' ∧ m'.nextId = 0 :=
  ⟨_, _, rfl, rfl, rfl, rfl⟩

end
end Verif.LinkedMap
