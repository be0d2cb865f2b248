import Verif.Lemmas.LinkedChain
import Verif.Model.LinkedMapRun
/-! Helper lemmas: the linked map refines an ordered list. -/
namespace Verif.LinkedMap

/-! ## The hash map -/

theorem lookup_mem (m : List (Nat × Nat)) (h : (m.map (·.1)).Nodup) (k a : Nat) : lookup m k = some a ↔ (k, a) ∈ m := by
  induction m with
  | nil => simp [lookup]
  | cons x m ih =>
    obtain ⟨k', a'⟩ := x
    simp only [List.map_cons, List.nodup_cons] at h
    simp only [lookup, List.mem_cons, Prod.mk.injEq]
    by_cases hk : k' = k
    · subst hk
      rw [if_pos rfl]
      constructor
      · intro he; cases he; simp
      · rintro (⟨-, rfl⟩ | hm)
        · rfl
        · exact absurd (List.mem_map.2 ⟨_, hm, rfl⟩) h.1
    · rw [if_neg hk, ih h.2]
      constructor
      · exact Or.inr
      · rintro (⟨rfl, -⟩ | hm)
        · exact absurd rfl hk
        · exact hm

theorem lookup_none (m : List (Nat × Nat)) (k : Nat) : lookup m k = none ↔ k ∉ m.map (·.1) := by
  induction m with
  | nil => simp [lookup]
  | cons x m ih =>
    obtain ⟨k', a'⟩ := x
    simp only [lookup, List.map_cons, List.mem_cons, not_or]
    by_cases hk : k' = k
    · simp [hk]
    · rw [if_neg hk, ih]
      simp [Ne.symm hk]

theorem erase_perm (m : List (Nat × Nat)) (k a : Nat) (h : lookup m k = some a) : m.Perm ((k, a) :: erase m k) := by
  induction m with
  | nil => simp [lookup] at h
  | cons x m ih =>
    obtain ⟨k', a'⟩ := x
    simp only [lookup] at h
    simp only [erase]
    by_cases hk : k' = k
    · rw [if_pos hk] at h ⊢
      cases h
      rw [hk]
    · rw [if_neg hk] at h ⊢
      exact ((ih h).cons _).trans (List.Perm.swap _ _ _)

section
variable {V : Type}

/-- the entry of the hash map for a cell -/
def ent (c : Cell V) : Nat × Nat := (c.2.1, c.1)
/-- the id and the item of a cell -/
def val (c : Cell V) : Nat × V := (c.2.1, c.2.2)

/-- The invariant of a linked map holding the cells `l`. -/
structure Rep (m : LM V) (l : List (Cell V)) : Prop where
  chain : Chain m l
  ids : (l.map (·.2.1)).Nodup
  map : m.map.Perm (l.map ent)
  fresh : ∀ c ∈ l, c.1 < m.fresh

theorem Rep.keys {m : LM V} {l : List (Cell V)} (h : Rep m l) : (m.map.map (·.1)).Nodup := by
  rw [(h.map.map _).nodup_iff, List.map_map]
  exact h.ids

theorem Rep.lookup_some {m : LM V} {l : List (Cell V)} (h : Rep m l) (c : Cell V) (hc : c ∈ l) :
    lookup m.map c.2.1 = some c.1 := by
  rw [lookup_mem _ h.keys, h.map.mem_iff]
  exact List.mem_map.2 ⟨c, hc, rfl⟩

theorem Rep.lookup_none {m : LM V} {l : List (Cell V)} (h : Rep m l) (id : Nat) :
    lookup m.map id = none ↔ id ∉ l.map (·.2.1) := by
  rw [LinkedMap.lookup_none, (h.map.map (·.1)).mem_iff, List.map_map]
  rfl

theorem Rep.split {m : LM V} {l : List (Cell V)} (_ : Rep m l) (id : Nat) (hi : id ∈ l.map (·.2.1)) :
    ∃ l1 c l2, l = l1 ++ c :: l2 ∧ c.2.1 = id := by
  obtain ⟨c, hc, rfl⟩ := List.mem_map.1 hi
  obtain ⟨l1, l2, rfl⟩ := List.append_of_mem hc
  exact ⟨l1, c, l2, rfl, rfl⟩

theorem Rep.perm {m m' : LM V} {l l' : List (Cell V)} (h : Rep m l) (hc : Chain m' l') (hs : Same m m') (hp : l'.Perm l) :
    Rep m' l' :=
  ⟨hc, by rw [(hp.map _).nodup_iff]; exact h.ids, by rw [hs.map]; exact h.map.trans (hp.map _).symm,
    fun c hcm => by rw [hs.fresh]; exact h.fresh c (hp.mem_iff.1 hcm)⟩

/-- The linked map holds this list. -/
def Refines (m : LM V) (s : SList V) : Prop := ∃ l, Rep m l ∧ s.items = l.map val ∧ s.nextId = m.nextId

theorem ids_val (l : List (Cell V)) : (l.map val).map (·.1) = l.map (·.2.1) := by rw [List.map_map]; rfl

/-! ## Lists -/

theorem without_split (l1 l2 : List (Cell V)) (c : Cell V) (n : Nat) (h : ((l1 ++ c :: l2).map (·.2.1)).Nodup) :
    SList.without ⟨(l1 ++ c :: l2).map val, n⟩ c.2.1 = (l1 ++ l2).map val := by
  simp only [List.map_append, List.map_cons] at h
  rw [List.nodup_append] at h
  obtain ⟨-, h2, h3⟩ := h
  rw [List.nodup_cons] at h2
  have e1 : (l1.map val).filter (fun x => decide (x.1 ≠ c.2.1)) = l1.map val := by
    rw [List.filter_eq_self]
    intro x hx
    obtain ⟨d, hd, rfl⟩ := List.mem_map.1 hx
    exact decide_eq_true (h3 d.2.1 (List.mem_map.2 ⟨d, hd, rfl⟩) c.2.1 (by simp))
  have e2 : (l2.map val).filter (fun x => decide (x.1 ≠ c.2.1)) = l2.map val := by
    rw [List.filter_eq_self]
    intro x hx
    obtain ⟨d, hd, rfl⟩ := List.mem_map.1 hx
    exact decide_eq_true fun he => h2.1 (List.mem_map.2 ⟨d, hd, he⟩)
  unfold SList.without
  simp only [List.map_append, List.map_cons, List.filter_append]
  rw [e1, List.filter_cons_of_neg (by simp [val]), e2]

theorem find_split (l1 l2 : List (Cell V)) (c : Cell V) (n : Nat) (h : ((l1 ++ c :: l2).map (·.2.1)).Nodup) :
    SList.find ⟨(l1 ++ c :: l2).map val, n⟩ c.2.1 = some (val c) := by
  simp only [List.map_append, List.map_cons] at h
  rw [List.nodup_append] at h
  obtain ⟨-, h2, h3⟩ := h
  unfold SList.find
  simp only [List.map_append, List.map_cons, List.find?_append]
  rw [List.find?_eq_none.2 (by
    intro x hx
    obtain ⟨d, hd, rfl⟩ := List.mem_map.1 hx
    exact fun he => h3 d.2.1 (List.mem_map.2 ⟨d, hd, rfl⟩) c.2.1 (by simp) (of_decide_eq_true he))]
  simp [val]

theorem find_none (l : List (Cell V)) (n id : Nat) (h : id ∉ l.map (·.2.1)) : SList.find ⟨l.map val, n⟩ id = none := by
  unfold SList.find
  rw [List.find?_eq_none]
  intro x hx
  obtain ⟨d, hd, rfl⟩ := List.mem_map.1 hx
  exact fun he => h (List.mem_map.2 ⟨d, hd, of_decide_eq_true he⟩)

theorem flatMap_single (f : (Nat × V) → List (Nat × V)) (l : List (Nat × V)) (h : ∀ x ∈ l, f x = [x]) : l.flatMap f = l := by
  induction l with
  | nil => rfl
  | cons x l ih =>
    rw [List.flatMap_cons, h x (by simp), ih fun y hy => h y (by simp [hy])]
    rfl

theorem map_same {α : Type} (f : α → α) (l : List α) (h : ∀ x ∈ l, f x = x) : l.map f = l := by
  induction l with
  | nil => rfl
  | cons x l ih => rw [List.map_cons, h x (by simp), ih fun y hy => h y (by simp [hy])]

theorem split_ne (k1 k2 : List (Cell V)) (d : Cell V) (h : ((k1 ++ d :: k2).map (·.2.1)).Nodup) :
    (∀ x ∈ k1.map val, x.1 ≠ d.2.1) ∧ ∀ x ∈ k2.map val, x.1 ≠ d.2.1 := by
  simp only [List.map_append, List.map_cons] at h
  rw [List.nodup_append] at h
  obtain ⟨-, h2, h3⟩ := h
  rw [List.nodup_cons] at h2
  constructor
  · intro x hx
    obtain ⟨e, he, rfl⟩ := List.mem_map.1 hx
    exact h3 e.2.1 (List.mem_map.2 ⟨e, he, rfl⟩) d.2.1 (by simp)
  · intro x hx
    obtain ⟨e, he, rfl⟩ := List.mem_map.1 hx
    intro hc
    exact h2.1 (List.mem_map.2 ⟨e, he, hc⟩)

theorem putBefore_split (k1 k2 : List (Cell V)) (d c : Cell V) (h : ((k1 ++ d :: k2).map (·.2.1)).Nodup) :
    putBefore d.2.1 (val c) ((k1 ++ d :: k2).map val) = (k1 ++ c :: d :: k2).map val := by
  obtain ⟨e1, e2⟩ := split_ne k1 k2 d h
  unfold putBefore
  simp only [List.map_append, List.map_cons, List.flatMap_append, List.flatMap_cons]
  rw [flatMap_single _ (k1.map val) (fun x hx => if_neg (e1 x hx)), flatMap_single _ (k2.map val) (fun x hx => if_neg (e2 x hx)),
    if_pos (show (val d).1 = d.2.1 from rfl)]
  rfl

theorem putAfter_split (k1 k2 : List (Cell V)) (d c : Cell V) (h : ((k1 ++ d :: k2).map (·.2.1)).Nodup) :
    putAfter d.2.1 (val c) ((k1 ++ d :: k2).map val) = (k1 ++ d :: c :: k2).map val := by
  obtain ⟨e1, e2⟩ := split_ne k1 k2 d h
  unfold putAfter
  simp only [List.map_append, List.map_cons, List.flatMap_append, List.flatMap_cons]
  rw [flatMap_single _ (k1.map val) (fun x hx => if_neg (e1 x hx)), flatMap_single _ (k2.map val) (fun x hx => if_neg (e2 x hx)),
    if_pos (show (val d).1 = d.2.1 from rfl)]
  rfl

/-! ## Insertion -/

theorem alloc_spec (m : LM V) (l : List (Cell V)) (hr : Rep m l) (id : Nat) (v : V) :
    Chain (m.alloc id v).1 l ∧ Free (m.alloc id v).1 (m.fresh, id, v) ∧ m.fresh ∉ l.map (·.1) := by
  have hn : m.fresh ∉ l.map (·.1) := by
    intro h
    obtain ⟨c, hc, he⟩ := List.mem_map.1 h
    have := hr.fresh c hc
    omega
  exact ⟨⟨dll_set _ _ _ _ _ _ hn hr.chain.dll, hr.chain.first, hr.chain.last, hr.chain.addrs⟩, by simp [Free, LM.alloc, set_self], hn⟩

theorem mapInsert_new (m : LM V) (id a : Nat) (h : lookup m.map id = none) :
    m.mapInsert id a = ({ m with map := (id, a) :: m.map }, false) := by
  unfold LM.mapInsert; rw [h]

/-- the state after allocating, linking and registering a node -/
theorem insert_rep (m m2 : LM V) (l l' : List (Cell V)) (hr : Rep m l) (id : Nat) (v : V) (hid : id ∉ l.map (·.2.1))
    (hc : Chain m2 l') (hs : Same (m.alloc id v).1 m2) (hp : l'.Perm ((m.fresh, id, v) :: l)) :
    m2.mapInsert id m.fresh = ({ m2 with map := (id, m.fresh) :: m.map }, false) ∧
    Rep { m2 with map := (id, m.fresh) :: m.map } l' := by
  have hm2 : m2.map = m.map := hs.map
  refine ⟨?_, ⟨hc.dll, hc.first, hc.last, hc.addrs⟩, ?_, ?_, ?_⟩
  · rw [mapInsert_new _ _ _ (by rw [hm2]; exact (hr.lookup_none id).2 hid), hm2]
  · rw [(hp.map _).nodup_iff]
    simp only [List.map_cons, List.nodup_cons]
    exact ⟨hid, hr.ids⟩
  · exact (hr.map.cons _).trans (hp.map ent).symm
  · intro c hcm
    have hf : m2.fresh = m.fresh + 1 := hs.fresh
    show c.1 < m2.fresh
    rw [hf]
    rcases List.mem_cons.1 (hp.mem_iff.1 hcm) with rfl | hcm
    · exact Nat.lt_succ_self _
    · exact Nat.lt_succ_of_lt (hr.fresh c hcm)

theorem insertLast_spec (m : LM V) (l : List (Cell V)) (hr : Rep m l) (v : V) (hid : m.nextId ∉ l.map (·.2.1)) :
    ∃ m' a, m.insertLast v = .ok (m', m.nextId) ∧ Rep m' (l ++ [(a, m.nextId, v)]) ∧ m'.nextId = m.nextId + 1 := by
  obtain ⟨h1, h2, h3⟩ := alloc_spec m l hr m.nextId v
  obtain ⟨m2, h4, h5, h6⟩ := putLast_spec _ l _ h1 h2 h3
  obtain ⟨h7, h8⟩ := insert_rep m m2 l _ hr m.nextId v hid h5 h6 (by simpa using (List.perm_append_comm (l₁ := l) (l₂ := [(m.fresh, m.nextId, v)])))
  have hn : m2.nextId = m.nextId := h6.nextId
  refine ⟨{ m2 with map := (m.nextId, m.fresh) :: m.map, nextId := m2.nextId + 1 }, m.fresh, ?_, ⟨⟨h8.chain.dll, h8.chain.first, h8.chain.last, h8.chain.addrs⟩, h8.ids, h8.map, h8.fresh⟩, by simp [hn]⟩
  unfold LM.insertLast
  have e : m.alloc m.nextId v = ((m.alloc m.nextId v).1, m.fresh) := rfl
  rw [e]
  simp only [h4, Res.map_ok]
  rw [hn, h7]
  simp [hn]

theorem insertFirst_spec (m : LM V) (l : List (Cell V)) (hr : Rep m l) (v : V) (hid : m.nextId ∉ l.map (·.2.1)) :
    ∃ m' a, m.insertFirst v = .ok (m', m.nextId) ∧ Rep m' ((a, m.nextId, v) :: l) ∧ m'.nextId = m.nextId + 1 := by
  obtain ⟨h1, h2, h3⟩ := alloc_spec m l hr m.nextId v
  obtain ⟨m2, h4, h5, h6⟩ := putFirst_spec _ l _ h1 h2 h3
  obtain ⟨h7, h8⟩ := insert_rep m m2 l _ hr m.nextId v hid h5 h6 (List.Perm.refl _)
  have hn : m2.nextId = m.nextId := h6.nextId
  refine ⟨{ m2 with map := (m.nextId, m.fresh) :: m.map, nextId := m2.nextId + 1 }, m.fresh, ?_, ⟨⟨h8.chain.dll, h8.chain.first, h8.chain.last, h8.chain.addrs⟩, h8.ids, h8.map, h8.fresh⟩, by simp [hn]⟩
  unfold LM.insertFirst
  have e : m.alloc m.nextId v = ((m.alloc m.nextId v).1, m.fresh) := rfl
  rw [e]
  simp only [h4, Res.map_ok]
  rw [hn, h7]
  simp [hn]

theorem containsKey_iff (m : LM V) (l : List (Cell V)) (hr : Rep m l) (id : Nat) :
    m.containsKey id = decide (id ∈ l.map (·.2.1)) := by
  unfold LM.containsKey
  by_cases h : id ∈ l.map (·.2.1)
  · obtain ⟨c, hc, rfl⟩ := List.mem_map.1 h
    rw [hr.lookup_some c hc]
    simpa using h
  · rw [(hr.lookup_none id).2 h]
    simpa using h

theorem insertLastWithId_spec (m : LM V) (l : List (Cell V)) (hr : Rep m l) (id : Nat) (v : V) (hid : id ∉ l.map (·.2.1)) :
    ∃ m' a, m.insertLastWithId id v = .ok (m', true) ∧ m.insertLastWithIdUnchecked id v = .ok m' ∧
      Rep m' (l ++ [(a, id, v)]) ∧ m'.nextId = m.nextId := by
  obtain ⟨h1, h2, h3⟩ := alloc_spec m l hr id v
  obtain ⟨m2, h4, h5, h6⟩ := putLast_spec _ l _ h1 h2 h3
  obtain ⟨h7, h8⟩ := insert_rep m m2 l _ hr id v hid h5 h6 (by simpa using (List.perm_append_comm (l₁ := l) (l₂ := [(m.fresh, id, v)])))
  have hn : m2.nextId = m.nextId := h6.nextId
  have e : m.alloc id v = ((m.alloc id v).1, m.fresh) := rfl
  refine ⟨_, m.fresh, ?_, ?_, h8, hn⟩
  · unfold LM.insertLastWithId
    rw [if_neg (by rw [containsKey_iff m l hr]; simpa using hid), e]
    simp only [h4, Res.map_ok, h7]
  · unfold LM.insertLastWithIdUnchecked
    rw [e]
    simp only [h4, Res.bind_ok, h7]
    rfl

theorem insertFirstWithId_spec (m : LM V) (l : List (Cell V)) (hr : Rep m l) (id : Nat) (v : V) (hid : id ∉ l.map (·.2.1)) :
    ∃ m' a, m.insertFirstWithId id v = .ok (m', true) ∧ m.insertFirstWithIdUnchecked id v = .ok m' ∧
      Rep m' ((a, id, v) :: l) ∧ m'.nextId = m.nextId := by
  obtain ⟨h1, h2, h3⟩ := alloc_spec m l hr id v
  obtain ⟨m2, h4, h5, h6⟩ := putFirst_spec _ l _ h1 h2 h3
  obtain ⟨h7, h8⟩ := insert_rep m m2 l _ hr id v hid h5 h6 (List.Perm.refl _)
  have hn : m2.nextId = m.nextId := h6.nextId
  have e : m.alloc id v = ((m.alloc id v).1, m.fresh) := rfl
  refine ⟨_, m.fresh, ?_, ?_, h8, hn⟩
  · unfold LM.insertFirstWithId
    rw [if_neg (by rw [containsKey_iff m l hr]; simpa using hid), e]
    simp only [h4, Res.map_ok, h7]
  · unfold LM.insertFirstWithIdUnchecked
    rw [e]
    simp only [h4, Res.bind_ok, h7]
    rfl

/-! ## Removal -/

theorem notin_of_nodup (l1 l2 : List (Cell V)) (c : Cell V) (h : ((l1 ++ c :: l2).map (·.1)).Nodup) :
    c.1 ∉ (l1 ++ l2).map (·.1) := by
  have := (List.perm_middle (a := c) (l₁ := l1) (l₂ := l2)).map (·.1)
  rw [this.nodup_iff, List.map_cons, List.nodup_cons] at h
  exact h.1

theorem mapRemove_rep (m m' : LM V) (l1 l2 : List (Cell V)) (c : Cell V) (hr : Rep m (l1 ++ c :: l2)) (hc : Chain m' (l1 ++ l2))
    (hs : Same m m') : Rep (m'.mapRemove c.2.1) (l1 ++ l2) ∧ (m'.mapRemove c.2.1).nextId = m.nextId := by
  have hl : lookup m'.map c.2.1 = some c.1 := by rw [hs.map]; exact hr.lookup_some c (by simp)
  have hn := notin_of_nodup l1 l2 c hr.chain.addrs
  have hp := List.perm_middle (a := c) (l₁ := l1) (l₂ := l2)
  unfold LM.mapRemove
  rw [hl]
  refine ⟨⟨⟨dll_set _ _ _ _ _ _ hn hc.dll, hc.first, hc.last, hc.addrs⟩, ?_, ?_, ?_⟩, hs.nextId⟩
  · have := hr.ids
    rw [(hp.map _).nodup_iff, List.map_cons, List.nodup_cons] at this
    exact this.2
  · have e1 := erase_perm _ _ _ hl
    have e2 : m'.map.Perm ((c :: (l1 ++ l2)).map ent) := by rw [hs.map]; exact hr.map.trans (hp.map _)
    rw [List.map_cons] at e2
    exact (List.perm_cons _).1 (e1.symm.trans e2)
  · intro d hd
    show d.1 < m'.fresh
    rw [hs.fresh]
    exact hr.fresh d (by simp only [List.mem_append, List.mem_cons] at hd ⊢; rcases hd with h | h <;> simp [h])

theorem remove_spec (m : LM V) (l1 l2 : List (Cell V)) (c : Cell V) (hr : Rep m (l1 ++ c :: l2)) :
    ∃ m', m.remove c.2.1 = .ok (m', true) ∧ Rep m' (l1 ++ l2) ∧ m'.nextId = m.nextId := by
  obtain ⟨m', h1, h2, h3, h4⟩ := pull_spec m l1 l2 c hr.chain (hr.lookup_some c (by simp))
  obtain ⟨h5, h6⟩ := mapRemove_rep m m' l1 l2 c hr h2 h4
  refine ⟨_, ?_, h5, h6⟩
  unfold LM.remove
  rw [h1]
  rfl

theorem pull_none (m : LM V) (l : List (Cell V)) (hr : Rep m l) (id : Nat) (hid : id ∉ l.map (·.2.1)) :
    m.pull id = .ok (m, none) := by
  unfold LM.pull
  rw [(hr.lookup_none id).2 hid]

theorem removeFirst_spec (m : LM V) (c : Cell V) (l : List (Cell V)) (hr : Rep m (c :: l)) :
    ∃ m', m.removeFirst = .ok (m', true) ∧ Rep m' l ∧ m'.nextId = m.nextId := by
  obtain ⟨m', h1, h2, h3, h4⟩ := pullFirst_spec m c l hr.chain
  obtain ⟨h5, h6⟩ := mapRemove_rep m m' [] l c hr h2 h4
  refine ⟨_, ?_, h5, h6⟩
  unfold LM.removeFirst
  rw [h1]
  simp only [Res.bind_ok]
  rw [deref_ok _ _ _ h3]
  rfl

theorem removeLast_spec (m : LM V) (l : List (Cell V)) (c : Cell V) (hr : Rep m (l ++ [c])) :
    ∃ m', m.removeLast = .ok (m', true) ∧ Rep m' l ∧ m'.nextId = m.nextId := by
  obtain ⟨m', h1, h2, h3, h4⟩ := pullLast_spec m l c hr.chain
  obtain ⟨h5, h6⟩ := mapRemove_rep m m' l [] c hr (by simpa using h2) h4
  rw [List.append_nil] at h5
  refine ⟨_, ?_, h5, h6⟩
  unfold LM.removeLast
  rw [h1]
  simp only [Res.bind_ok]
  rw [deref_ok _ _ _ h3]
  rfl

/-! ## Moving -/

theorem moveToFirst_spec (m : LM V) (l1 l2 : List (Cell V)) (c : Cell V) (hr : Rep m (l1 ++ c :: l2)) :
    ∃ m', m.moveToFirst c.2.1 = .ok (m', true) ∧ Rep m' (c :: (l1 ++ l2)) ∧ m'.nextId = m.nextId := by
  obtain ⟨m1, h1, h2, h3, h4⟩ := pull_spec m l1 l2 c hr.chain (hr.lookup_some c (by simp))
  obtain ⟨m2, h5, h6, h7⟩ := putFirst_spec m1 _ c h2 h3 (notin_of_nodup l1 l2 c hr.chain.addrs)
  refine ⟨m2, ?_, hr.perm h6 (h4.trans h7) List.perm_middle.symm, (h4.trans h7).nextId⟩
  unfold LM.moveToFirst
  rw [h1]
  simp only [Res.bind_ok]
  rw [h5]
  rfl

theorem moveToLast_spec (m : LM V) (l1 l2 : List (Cell V)) (c : Cell V) (hr : Rep m (l1 ++ c :: l2)) :
    ∃ m', m.moveToLast c.2.1 = .ok (m', true) ∧ Rep m' (l1 ++ l2 ++ [c]) ∧ m'.nextId = m.nextId := by
  obtain ⟨m1, h1, h2, h3, h4⟩ := pull_spec m l1 l2 c hr.chain (hr.lookup_some c (by simp))
  obtain ⟨m2, h5, h6, h7⟩ := putLast_spec m1 _ c h2 h3 (notin_of_nodup l1 l2 c hr.chain.addrs)
  refine ⟨m2, ?_, hr.perm h6 (h4.trans h7) ((List.perm_append_singleton _ _).trans List.perm_middle.symm), (h4.trans h7).nextId⟩
  unfold LM.moveToLast
  rw [h1]
  simp only [Res.bind_ok]
  rw [h5]
  rfl

theorem mem_split (l1 l2 : List (Cell V)) (c d : Cell V) (hd : d ∈ l1 ++ c :: l2) (hne : d.2.1 ≠ c.2.1) :
    ∃ k1 k2, l1 ++ l2 = k1 ++ d :: k2 := by
  have : d ∈ l1 ++ l2 := by
    simp only [List.mem_append, List.mem_cons] at hd ⊢
    rcases hd with h | rfl | h
    · exact Or.inl h
    · exact absurd rfl hne
    · exact Or.inr h
  exact List.append_of_mem this

theorem moveToPrev_spec (m : LM V) (l1 l2 k1 k2 : List (Cell V)) (c d : Cell V) (hr : Rep m (l1 ++ c :: l2))
    (hne : c.2.1 ≠ d.2.1) (hk : l1 ++ l2 = k1 ++ d :: k2) :
    ∃ m', m.moveToPrev d.2.1 c.2.1 = .ok (m', true) ∧ Rep m' (k1 ++ c :: d :: k2) ∧ m'.nextId = m.nextId := by
  have hd : d ∈ l1 ++ c :: l2 := by
    have : d ∈ l1 ++ l2 := by rw [hk]; simp
    simp only [List.mem_append, List.mem_cons] at this ⊢
    rcases this with h | h <;> simp [h]
  obtain ⟨m1, h1, h2, h3, h4⟩ := pull_spec m l1 l2 c hr.chain (hr.lookup_some c (by simp))
  have hn := notin_of_nodup l1 l2 c hr.chain.addrs
  rw [hk] at h2 hn
  obtain ⟨m2, h5, h6, h7⟩ := putPrev_spec m1 k1 k2 d c h2 h3 hn
  have hp : (k1 ++ c :: d :: k2).Perm (l1 ++ c :: l2) := by
    refine List.perm_middle.trans (List.Perm.trans ?_ List.perm_middle.symm)
    rw [hk]
  refine ⟨m2, ?_, hr.perm h6 (h4.trans h7) hp, (h4.trans h7).nextId⟩
  unfold LM.moveToPrev
  rw [if_neg hne, hr.lookup_some d hd, h1]
  simp only [Res.bind_ok]
  rw [h5]
  rfl

theorem moveToNext_spec (m : LM V) (l1 l2 k1 k2 : List (Cell V)) (c d : Cell V) (hr : Rep m (l1 ++ c :: l2))
    (hne : c.2.1 ≠ d.2.1) (hk : l1 ++ l2 = k1 ++ d :: k2) :
    ∃ m', m.moveToNext d.2.1 c.2.1 = .ok (m', true) ∧ Rep m' (k1 ++ d :: c :: k2) ∧ m'.nextId = m.nextId := by
  have hd : d ∈ l1 ++ c :: l2 := by
    have : d ∈ l1 ++ l2 := by rw [hk]; simp
    simp only [List.mem_append, List.mem_cons] at this ⊢
    rcases this with h | h <;> simp [h]
  obtain ⟨m1, h1, h2, h3, h4⟩ := pull_spec m l1 l2 c hr.chain (hr.lookup_some c (by simp))
  have hn := notin_of_nodup l1 l2 c hr.chain.addrs
  rw [hk] at h2 hn
  obtain ⟨m2, h5, h6, h7⟩ := putNext_spec m1 k1 k2 d c h2 h3 hn
  have hp : (k1 ++ d :: c :: k2).Perm (l1 ++ c :: l2) := by
    have e : (k1 ++ d :: c :: k2).Perm (c :: (k1 ++ d :: k2)) := by
      rw [show k1 ++ d :: c :: k2 = (k1 ++ [d]) ++ c :: k2 by simp, show k1 ++ d :: k2 = (k1 ++ [d]) ++ k2 by simp]
      exact List.perm_middle
    refine e.trans (List.Perm.trans ?_ List.perm_middle.symm)
    rw [hk]
  refine ⟨m2, ?_, hr.perm h6 (h4.trans h7) hp, (h4.trans h7).nextId⟩
  unfold LM.moveToNext
  rw [if_neg hne, hr.lookup_some d hd, h1]
  simp only [Res.bind_ok]
  rw [h5]
  rfl

/-! ## Writing an item -/

theorem dll_setItem (h : Heap V) (l1 l2 : List (Cell V)) (c : Cell V) (p n : Option Nat) (v : V) (nd : Node V)
    (hn : c.1 ∉ (l1 ++ l2).map (·.1)) (hnd : h c.1 = some nd) (hd : Dll h p (l1 ++ c :: l2) n) :
    Dll (h.set c.1 (some { nd with item := v })) p (l1 ++ (c.1, c.2.1, v) :: l2) n := by
  simp only [List.map_append, List.mem_append, not_or] at hn
  obtain ⟨d1, d2, d3⟩ := (dll_append _ _ _ _ _).1 hd
  rw [dll_append]
  refine ⟨dll_set _ _ _ _ _ _ hn.1 d1, ?_, dll_set _ _ _ _ _ _ hn.2 d3⟩
  simp only
  rw [set_self]
  rw [hnd] at d2
  cases d2
  rfl

theorem setItem_spec (m : LM V) (l1 l2 : List (Cell V)) (c : Cell V) (hr : Rep m (l1 ++ c :: l2)) (v : V) :
    ∃ m', m.setItem c.2.1 v = .ok (m', true) ∧ Rep m' (l1 ++ (c.1, c.2.1, v) :: l2) ∧ m'.nextId = m.nextId := by
  obtain ⟨q, r, hq⟩ := dll_mem _ _ _ _ hr.chain.dll c (by simp)
  have hn := notin_of_nodup l1 l2 c hr.chain.addrs
  have e1 : (l1 ++ (c.1, c.2.1, v) :: l2).map (·.1) = (l1 ++ c :: l2).map (·.1) := by simp
  have e2 : (l1 ++ (c.1, c.2.1, v) :: l2).map (·.2.1) = (l1 ++ c :: l2).map (·.2.1) := by simp
  have e3 : (l1 ++ (c.1, c.2.1, v) :: l2).map ent = (l1 ++ c :: l2).map ent := by simp [ent]
  refine ⟨{ m with heap := m.heap.set c.1 (some ⟨q, r, v, c.2.1⟩) }, ?_, ⟨⟨dll_setItem _ _ _ _ _ _ v _ hn hq hr.chain.dll, ?_, ?_, ?_⟩, ?_, ?_, ?_⟩, rfl⟩
  · unfold LM.setItem
    rw [hr.lookup_some c (by simp)]
    simp only
    rw [deref_ok _ _ _ hq]
    rfl
  · have := hr.chain.first
    simp only [hd_append, hd_cons] at this ⊢
    exact this
  · have := hr.chain.last
    simp only [tl_append, tl_cons] at this ⊢
    exact this
  · rw [e1]; exact hr.chain.addrs
  · rw [e2]; exact hr.ids
  · rw [e3]; exact hr.map
  · intro d hd
    have hd' : d.1 ∈ (l1 ++ (c.1, c.2.1, v) :: l2).map (·.1) := List.mem_map_of_mem hd
    rw [e1] at hd'
    obtain ⟨f, hf, he⟩ := List.mem_map.1 hd'
    rw [← he]
    exact hr.fresh f hf

/-! ## One operation -/

theorem ids_items {s : SList V} {l : List (Cell V)} (h : s.items = l.map val) : s.ids = l.map (·.2.1) := by
  unfold SList.ids
  rw [h, ids_val]

theorem step_refines (m : LM V) (s : SList V) (hr : Refines m s) (op : Op V) (ha : s.Admits op) :
    ∃ m', m.step op = .ok (m', (s.step op).2) ∧ Refines m' (s.step op).1 := by
  obtain ⟨l, hrep, hitems, hnext⟩ := hr
  have hids := ids_items hitems
  obtain ⟨items, nextId⟩ := s
  simp only at hitems hnext
  subst hitems
  cases op with
  | insertFirst v =>
    simp only [SList.Admits] at ha
    rw [hids, hnext] at ha
    obtain ⟨m', a, h1, h2, h3⟩ := insertFirst_spec m l hrep v ha
    refine ⟨m', by simp [LM.step, h1, SList.step, hnext], _, h2, by simp [SList.step, val, hnext], by simp [SList.step, h3, hnext]⟩
  | insertLast v =>
    simp only [SList.Admits] at ha
    rw [hids, hnext] at ha
    obtain ⟨m', a, h1, h2, h3⟩ := insertLast_spec m l hrep v ha
    refine ⟨m', by simp [LM.step, h1, SList.step, hnext], _, h2, by simp [SList.step, val, hnext], by simp [SList.step, h3, hnext]⟩
  | insertFirstWithId id v =>
    simp only [SList.step, LM.step]
    rw [hids]
    by_cases hid : id ∈ l.map (·.2.1)
    · rw [if_pos hid]
      refine ⟨m, ?_, l, hrep, rfl, hnext⟩
      unfold LM.insertFirstWithId
      rw [containsKey_iff m l hrep, if_pos (by simpa using hid)]
      rfl
    · rw [if_neg hid]
      obtain ⟨m', a, h1, -, h2, h3⟩ := insertFirstWithId_spec m l hrep id v hid
      exact ⟨m', by rw [h1]; rfl, _, h2, by simp [val], by simp [h3, hnext]⟩
  | insertLastWithId id v =>
    simp only [SList.step, LM.step]
    rw [hids]
    by_cases hid : id ∈ l.map (·.2.1)
    · rw [if_pos hid]
      refine ⟨m, ?_, l, hrep, rfl, hnext⟩
      unfold LM.insertLastWithId
      rw [containsKey_iff m l hrep, if_pos (by simpa using hid)]
      rfl
    · rw [if_neg hid]
      obtain ⟨m', a, h1, -, h2, h3⟩ := insertLastWithId_spec m l hrep id v hid
      exact ⟨m', by rw [h1]; rfl, _, h2, by simp [val], by simp [h3, hnext]⟩
  | remove id =>
    simp only [SList.step, LM.step]
    rw [hids]
    by_cases hid : id ∈ l.map (·.2.1)
    · obtain ⟨l1, c, l2, rfl, rfl⟩ := hrep.split id hid
      obtain ⟨m', h1, h2, h3⟩ := remove_spec m l1 l2 c hrep
      refine ⟨m', by rw [h1, decide_eq_true hid]; rfl, _, h2, ?_, by simp [h3, hnext]⟩
      exact without_split l1 l2 c _ hrep.ids
    · refine ⟨m, ?_, l, hrep, ?_, hnext⟩
      · unfold LM.remove
        rw [pull_none m l hrep id hid, decide_eq_false hid]
        rfl
      · simp only [SList.without]
        rw [List.filter_eq_self]
        intro x hx
        obtain ⟨d, hd, rfl⟩ := List.mem_map.1 hx
        exact decide_eq_true fun he => hid (List.mem_map.2 ⟨d, hd, he⟩)
  | removeFirst =>
    simp only [SList.step, LM.step]
    cases l with
    | nil =>
      refine ⟨m, ?_, [], hrep, rfl, hnext⟩
      unfold LM.removeFirst LM.pullFirst
      rw [hrep.chain.first]
      rfl
    | cons c l =>
      obtain ⟨m', h1, h2, h3⟩ := removeFirst_spec m c l hrep
      exact ⟨m', by rw [h1]; rfl, _, h2, rfl, by simp [h3, hnext]⟩
  | removeLast =>
    simp only [SList.step, LM.step]
    rcases List.eq_nil_or_concat l with rfl | ⟨l, c, rfl⟩
    · refine ⟨m, ?_, [], hrep, rfl, hnext⟩
      unfold LM.removeLast LM.pullLast
      rw [hrep.chain.last]
      rfl
    · rw [List.concat_eq_append] at *
      obtain ⟨m', h1, h2, h3⟩ := removeLast_spec m l c hrep
      exact ⟨m', by rw [h1]; simp, _, h2, by simp, by simp [h3, hnext]⟩
  | moveToFirst id =>
    simp only [SList.step, LM.step]
    by_cases hid : id ∈ l.map (·.2.1)
    · obtain ⟨l1, c, l2, rfl, rfl⟩ := hrep.split id hid
      rw [find_split l1 l2 c _ hrep.ids]
      simp only
      rw [without_split l1 l2 c _ hrep.ids]
      obtain ⟨m', h1, h2, h3⟩ := moveToFirst_spec m l1 l2 c hrep
      exact ⟨m', by rw [h1]; rfl, _, h2, rfl, by simp [h3, hnext]⟩
    · rw [find_none l _ id hid]
      refine ⟨m, ?_, l, hrep, rfl, hnext⟩
      unfold LM.moveToFirst
      rw [pull_none m l hrep id hid]
      rfl
  | moveToLast id =>
    simp only [SList.step, LM.step]
    by_cases hid : id ∈ l.map (·.2.1)
    · obtain ⟨l1, c, l2, rfl, rfl⟩ := hrep.split id hid
      rw [find_split l1 l2 c _ hrep.ids]
      simp only
      rw [without_split l1 l2 c _ hrep.ids]
      obtain ⟨m', h1, h2, h3⟩ := moveToLast_spec m l1 l2 c hrep
      exact ⟨m', by rw [h1]; rfl, _, h2, by simp, by simp [h3, hnext]⟩
    · rw [find_none l _ id hid]
      refine ⟨m, ?_, l, hrep, rfl, hnext⟩
      unfold LM.moveToLast
      rw [pull_none m l hrep id hid]
      rfl
  | moveToPrev next id =>
    simp only [SList.step, LM.step]
    by_cases hid : id ∈ l.map (·.2.1)
    · obtain ⟨l1, c, l2, rfl, rfl⟩ := hrep.split id hid
      rw [find_split l1 l2 c _ hrep.ids]
      simp only
      rw [hids]
      by_cases hne : c.2.1 = next
      · rw [if_neg (by simp [hne])]
        exact ⟨m, by unfold LM.moveToPrev; rw [if_pos hne]; rfl, _, hrep, rfl, hnext⟩
      · by_cases hnx : next ∈ (l1 ++ c :: l2).map (·.2.1)
        · rw [if_pos ⟨hne, hnx⟩]
          obtain ⟨d, hd, rfl⟩ := List.mem_map.1 hnx
          obtain ⟨k1, k2, hk⟩ := mem_split l1 l2 c d hd (Ne.symm hne)
          obtain ⟨m', h1, h2, h3⟩ := moveToPrev_spec m l1 l2 k1 k2 c d hrep hne hk
          refine ⟨m', by rw [h1]; rfl, _, h2, ?_, by simp [h3, hnext]⟩
          simp only
          rw [without_split l1 l2 c _ hrep.ids, hk, putBefore_split]
          have := hrep.ids
          rw [(List.perm_middle.map _).nodup_iff, List.map_cons, List.nodup_cons, hk] at this
          exact this.2
        · rw [if_neg (fun h => hnx h.2)]
          refine ⟨m, ?_, _, hrep, rfl, hnext⟩
          unfold LM.moveToPrev
          rw [if_neg hne, (hrep.lookup_none next).2 hnx]
          rfl
    · rw [find_none l _ id hid]
      refine ⟨m, ?_, l, hrep, rfl, hnext⟩
      unfold LM.moveToPrev
      by_cases hne : id = next
      · rw [if_pos hne]; rfl
      · rw [if_neg hne]
        cases lookup m.map next with
        | none => rfl
        | some a =>
          simp only
          rw [pull_none m l hrep id hid]
          rfl
  | moveToNext prev id =>
    simp only [SList.step, LM.step]
    by_cases hid : id ∈ l.map (·.2.1)
    · obtain ⟨l1, c, l2, rfl, rfl⟩ := hrep.split id hid
      rw [find_split l1 l2 c _ hrep.ids]
      simp only
      rw [hids]
      by_cases hne : c.2.1 = prev
      · rw [if_neg (by simp [hne])]
        exact ⟨m, by unfold LM.moveToNext; rw [if_pos hne]; rfl, _, hrep, rfl, hnext⟩
      · by_cases hnx : prev ∈ (l1 ++ c :: l2).map (·.2.1)
        · rw [if_pos ⟨hne, hnx⟩]
          obtain ⟨d, hd, rfl⟩ := List.mem_map.1 hnx
          obtain ⟨k1, k2, hk⟩ := mem_split l1 l2 c d hd (Ne.symm hne)
          obtain ⟨m', h1, h2, h3⟩ := moveToNext_spec m l1 l2 k1 k2 c d hrep hne hk
          refine ⟨m', by rw [h1]; rfl, _, h2, ?_, by simp [h3, hnext]⟩
          simp only
          rw [without_split l1 l2 c _ hrep.ids, hk, putAfter_split]
          have := hrep.ids
          rw [(List.perm_middle.map _).nodup_iff, List.map_cons, List.nodup_cons, hk] at this
          exact this.2
        · rw [if_neg (fun h => hnx h.2)]
          refine ⟨m, ?_, _, hrep, rfl, hnext⟩
          unfold LM.moveToNext
          rw [if_neg hne, (hrep.lookup_none prev).2 hnx]
          rfl
    · rw [find_none l _ id hid]
      refine ⟨m, ?_, l, hrep, rfl, hnext⟩
      unfold LM.moveToNext
      by_cases hne : id = prev
      · rw [if_pos hne]; rfl
      · rw [if_neg hne]
        cases lookup m.map prev with
        | none => rfl
        | some a =>
          simp only
          rw [pull_none m l hrep id hid]
          rfl
  | setItem id v =>
    simp only [SList.step, LM.step]
    rw [hids]
    by_cases hid : id ∈ l.map (·.2.1)
    · obtain ⟨l1, c, l2, rfl, rfl⟩ := hrep.split id hid
      obtain ⟨m', h1, h2, h3⟩ := setItem_spec m l1 l2 c hrep v
      refine ⟨m', by rw [h1, decide_eq_true hid]; rfl, _, h2, ?_, by simp [h3, hnext]⟩
      obtain ⟨e1, e2⟩ := split_ne l1 l2 c hrep.ids
      simp only [List.map_append, List.map_cons]
      rw [if_pos (show (val c).1 = c.2.1 from rfl)]
      congr 1
      · exact map_same _ _ fun x hx => if_neg (e1 x hx)
      · congr 1
        exact map_same _ _ fun x hx => if_neg (e2 x hx)
    · refine ⟨m, ?_, l, hrep, ?_, hnext⟩
      · unfold LM.setItem
        rw [(hrep.lookup_none id).2 hid, decide_eq_false hid]
        rfl
      · refine map_same _ _ fun x hx => if_neg ?_
        obtain ⟨d, hd, rfl⟩ := List.mem_map.1 hx
        rintro rfl
        exact hid (List.mem_map.2 ⟨d, hd, rfl⟩)
  | setNextId n =>
    exact ⟨m.setNextId n, rfl, l, ⟨⟨hrep.chain.dll, hrep.chain.first, hrep.chain.last, hrep.chain.addrs⟩, hrep.ids, hrep.map, hrep.fresh⟩, rfl, rfl⟩

theorem run_refines (ops : List (Op V)) (m : LM V) (s : SList V) (hr : Refines m s) (ha : s.AdmitsAll ops) :
    ∃ m', LM.run ops m = .ok (m', (SList.run ops s).2) ∧ Refines m' (SList.run ops s).1 := by
  induction ops generalizing m s with
  | nil => exact ⟨m, rfl, hr⟩
  | cons op ops ih =>
    obtain ⟨h1, h2⟩ := ha
    obtain ⟨m1, h3, h4⟩ := step_refines m s hr op h1
    obtain ⟨m2, h5, h6⟩ := ih m1 _ h4 h2
    refine ⟨m2, ?_, h6⟩
    unfold LM.run
    rw [h3]
    simp only [Res.bind_ok]
    rw [h5]
    rfl

theorem new_refines : Refines (new : LM V) ⟨[], 0⟩ :=
  ⟨[], ⟨⟨trivial, rfl, rfl, by simp⟩, by simp, by simp [new], by simp⟩, rfl, rfl⟩

end
end Verif.LinkedMap
