import Verif.Model.LinkedMap
/-! Helper lemmas: doubly linked chains in the heap. -/
namespace Verif.LinkedMap

section
variable {V : Type}

/-- A cell of the chain: address, id, item. -/
abbrev Cell (V : Type) := Nat × Nat × V

/-- the address of the first cell -/
def hd : List (Cell V) → Option Nat → Option Nat
  | [], n => n
  | c :: _, _ => some c.1

/-- the address of the last cell -/
def tl (p : Option Nat) : List (Cell V) → Option Nat
  | [] => p
  | c :: l => tl (some c.1) l

/-- The cells are linked in this order, from `p` to `n`. -/
def Dll (h : Heap V) : Option Nat → List (Cell V) → Option Nat → Prop
  | _, [], _ => True
  | p, c :: l, n => h c.1 = some ⟨p, hd l n, c.2.2, c.2.1⟩ ∧ Dll h (some c.1) l n

theorem hd_append (l1 l2 : List (Cell V)) (n : Option Nat) : hd (l1 ++ l2) n = hd l1 (hd l2 n) := by
  cases l1 <;> rfl

theorem tl_append (l1 l2 : List (Cell V)) (p : Option Nat) : tl p (l1 ++ l2) = tl (tl p l1) l2 := by
  induction l1 generalizing p with
  | nil => rfl
  | cons c l1 ih => exact ih _

theorem tl_concat (l : List (Cell V)) (c : Cell V) (p : Option Nat) : tl p (l ++ [c]) = some c.1 := by
  rw [tl_append]; rfl

theorem hd_cons (c : Cell V) (l : List (Cell V)) (n : Option Nat) : hd (c :: l) n = some c.1 := rfl
theorem tl_cons (c : Cell V) (l : List (Cell V)) (p : Option Nat) : tl p (c :: l) = tl (some c.1) l := rfl

theorem tl_mem (l : List (Cell V)) (p : Option Nat) : l = [] ∧ tl p l = p ∨ ∃ l' c, l = l' ++ [c] ∧ tl p l = some c.1 := by
  rcases List.eq_nil_or_concat l with rfl | ⟨l', c, rfl⟩
  · left; exact ⟨rfl, rfl⟩
  · right; exact ⟨l', c, by simp, by simpa using tl_concat l' c p⟩

theorem dll_append (h : Heap V) (l1 l2 : List (Cell V)) (p n : Option Nat) :
    Dll h p (l1 ++ l2) n ↔ Dll h p l1 (hd l2 n) ∧ Dll h (tl p l1) l2 n := by
  induction l1 generalizing p with
  | nil => simp [Dll, tl]
  | cons c l1 ih =>
    simp only [List.cons_append, Dll, tl, ih, hd_append, and_assoc]

theorem dll_frame (h h' : Heap V) (l : List (Cell V)) (p n : Option Nat) (hf : ∀ c ∈ l, h' c.1 = h c.1) (hd : Dll h p l n) :
    Dll h' p l n := by
  induction l generalizing p with
  | nil => trivial
  | cons c l ih =>
    exact ⟨by rw [hf c (by simp)]; exact hd.1, ih _ (fun c hc => hf c (by simp [hc])) hd.2⟩

theorem dll_mem (h : Heap V) (l : List (Cell V)) (p n : Option Nat) (hdl : Dll h p l n) (c : Cell V) (hc : c ∈ l) :
    ∃ q r, h c.1 = some ⟨q, r, c.2.2, c.2.1⟩ := by
  induction l generalizing p with
  | nil => simp at hc
  | cons d l ih =>
    rcases List.mem_cons.1 hc with rfl | hc
    · exact ⟨_, _, hdl.1⟩
    · exact ih _ hdl.2 hc

theorem set_self (h : Heap V) (a : Nat) (x : Option (Node V)) : h.set a x a = x := by simp [Heap.set]
theorem set_other (h : Heap V) (a b : Nat) (x : Option (Node V)) (hne : b ≠ a) : h.set a x b = h b := by simp [Heap.set, hne]

theorem dll_set (h : Heap V) (l : List (Cell V)) (p n : Option Nat) (a : Nat) (x : Option (Node V)) (ha : a ∉ l.map (·.1))
    (hd : Dll h p l n) : Dll (h.set a x) p l n := by
  refine dll_frame _ _ _ _ _ ?_ hd
  intro c hc
  refine set_other _ _ _ _ ?_
  rintro rfl
  exact ha (List.mem_map_of_mem hc)

/-- The heap part of the invariant. -/
structure Chain (m : LM V) (l : List (Cell V)) : Prop where
  dll : Dll m.heap none l none
  first : m.first = hd l none
  last : m.last = tl none l
  addrs : (l.map (·.1)).Nodup

/-- Everything but the links is unchanged. -/
structure Same (m m' : LM V) : Prop where
  map : m'.map = m.map
  fresh : m'.fresh = m.fresh
  nextId : m'.nextId = m.nextId

theorem Same.trans {a b c : LM V} (h1 : Same a b) (h2 : Same b c) : Same a c :=
  ⟨h2.map.trans h1.map, h2.fresh.trans h1.fresh, h2.nextId.trans h1.nextId⟩

theorem setNext_ok (m : LM V) (a : Nat) (n : Node V) (q : Option Nat) (h : m.heap a = some n) :
    m.setNext (some a) q = .ok { m with heap := m.heap.set a (some { n with next := q }) } := by
  simp [LM.setNext, h]

theorem setPrev_ok (m : LM V) (a : Nat) (n : Node V) (q : Option Nat) (h : m.heap a = some n) :
    m.setPrev (some a) q = .ok { m with heap := m.heap.set a (some { n with prev := q }) } := by
  simp [LM.setPrev, h]

theorem deref_ok (m : LM V) (a : Nat) (n : Node V) (h : m.heap a = some n) : m.deref (some a) = .ok n := by
  simp [LM.deref, h]

/-- A node that is not linked. -/
def Free (m : LM V) (c : Cell V) : Prop := m.heap c.1 = some ⟨none, none, c.2.2, c.2.1⟩

theorem pullFirst_spec (m : LM V) (c : Cell V) (l : List (Cell V)) (hc : Chain m (c :: l)) :
    ∃ m', m.pullFirst = .ok (m', some c.1) ∧ Chain m' l ∧ Free m' c ∧ Same m m' := by
  obtain ⟨h1, h2⟩ := hc.dll
  have hn := hc.addrs
  unfold LM.pullFirst
  rw [hc.first]
  simp only [hd_cons]
  rw [deref_ok _ _ _ h1]
  cases l with
  | nil =>
    exact ⟨_, rfl, ⟨trivial, rfl, rfl, by simp⟩, h1, rfl, rfl, rfl⟩
  | cons d l =>
    obtain ⟨h3, h4⟩ := h2
    simp only [List.map_cons, List.nodup_cons, List.mem_cons, not_or] at hn
    obtain ⟨⟨n1, n2⟩, n3, n4⟩ := hn
    simp only [Res.bind_ok, hd_cons]
    rw [setPrev_ok { m with first := some d.1 } _ _ _ h3]
    simp only [Res.bind_ok]
    rw [setNext_ok _ c.1 ⟨none, some d.1, c.2.2, c.2.1⟩ _ (by simp only; rw [set_other _ _ _ _ n1]; exact h1)]
    refine ⟨_, rfl, ⟨⟨?_, ?_⟩, rfl, ?_, ?_⟩, ?_, rfl, rfl, rfl⟩
    · simp only
      rw [set_other _ _ _ _ (Ne.symm n1), set_self]
    · simp only
      refine dll_set _ _ _ _ _ _ n2 (dll_set _ _ _ _ _ _ n3 h4)
    · simp only
      rw [hc.last]; rfl
    · simp [n3, n4]
    · simp [Free, set_self]

theorem pullLast_spec (m : LM V) (l : List (Cell V)) (c : Cell V) (hc : Chain m (l ++ [c])) :
    ∃ m', m.pullLast = .ok (m', some c.1) ∧ Chain m' l ∧ Free m' c ∧ Same m m' := by
  obtain ⟨h1, h2, -⟩ := (dll_append _ _ _ _ _).1 hc.dll
  have hn := hc.addrs
  unfold LM.pullLast
  rw [hc.last, tl_concat]
  simp only
  rw [deref_ok _ _ _ h2]
  rcases List.eq_nil_or_concat l with rfl | ⟨l, d, rfl⟩
  · exact ⟨_, rfl, ⟨trivial, rfl, rfl, by simp⟩, h2, rfl, rfl, rfl⟩
  · rw [List.concat_eq_append] at *
    rw [tl_concat] at h2
    simp only [Res.bind_ok]
    rw [tl_concat]
    simp only
    obtain ⟨h3, h4, -⟩ := (dll_append _ _ _ _ _).1 h1
    simp only [List.map_append, List.map_cons, List.map_nil, List.append_assoc, List.cons_append, List.nil_append] at hn
    rw [List.nodup_append] at hn
    obtain ⟨n1, n2, n3⟩ := hn
    have hdc : d.1 ≠ c.1 := by simp at n2; exact n2
    have hdl : d.1 ∉ l.map (·.1) := fun hx => n3 _ hx d.1 (by simp) rfl
    have hcl : c.1 ∉ l.map (·.1) := fun hx => n3 _ hx c.1 (by simp) rfl
    rw [setNext_ok { m with last := some d.1 } _ _ _ h4]
    simp only [Res.bind_ok]
    rw [setPrev_ok _ c.1 _ _ (by simp only; rw [set_other _ _ _ _ (Ne.symm hdc)]; exact h2)]
    refine ⟨_, rfl, ⟨?_, ?_, ?_, ?_⟩, ?_, rfl, rfl, rfl⟩
    · simp only
      rw [dll_append]
      refine ⟨dll_set _ _ _ _ _ _ hcl (dll_set _ _ _ _ _ _ hdl ?_), ?_, trivial⟩
      · exact h3
      · rw [set_other _ _ _ _ hdc, set_self]
        rfl
    · simp only
      rw [hc.first]
      simp only [hd_append, hd_cons]
    · simp only
      rw [tl_concat]
    · simp only [List.map_append, List.map_cons, List.map_nil]
      rw [List.nodup_append]
      exact ⟨n1, by simp, fun a ha b hb => by simp at hb; subst hb; rintro rfl; exact hdl ha⟩
    · simp [Free, set_self]; rfl

/-- taking a node out of the middle -/
theorem pull_spec (m : LM V) (l1 l2 : List (Cell V)) (c : Cell V) (hc : Chain m (l1 ++ c :: l2))
    (hl : lookup m.map c.2.1 = some c.1) :
    ∃ m', m.pull c.2.1 = .ok (m', some c.1) ∧ Chain m' (l1 ++ l2) ∧ Free m' c ∧ Same m m' := by
  unfold LM.pull
  rw [hl]
  simp only
  cases l1 with
  | nil =>
    rw [if_pos (by rw [hc.first]; rfl)]
    exact pullFirst_spec m c l2 hc
  | cons b l1 =>
    have hn := hc.addrs
    rw [if_neg (by
      rw [hc.first]
      intro he
      have he : b.1 = c.1 := Option.some.inj he
      rw [List.cons_append, List.map_cons, List.nodup_cons, he] at hn
      exact hn.1 (by simp))]
    rcases List.eq_nil_or_concat l2 with rfl | ⟨l2', z, hl2⟩
    · rw [if_pos (by rw [hc.last]; exact tl_concat _ _ _), List.append_nil]
      exact pullLast_spec m (b :: l1) c hc
    · rw [List.concat_eq_append] at hl2
      have hne : m.last ≠ some c.1 := by
        rw [hc.last, hl2]
        rw [show (b :: l1) ++ c :: (l2' ++ [z]) = ((b :: l1) ++ c :: l2') ++ [z] by simp, tl_concat]
        intro he
        have he : z.1 = c.1 := Option.some.inj he
        rw [hl2] at hn
        simp only [List.map_append, List.map_cons, List.map_nil] at hn
        rw [List.nodup_append] at hn
        have := hn.2.1
        rw [he] at this
        simp at this
      rw [if_neg hne]
      -- the neighbours
      obtain ⟨y, l1', hy⟩ : ∃ y l1', b :: l1 = l1' ++ [y] := by
        rcases List.eq_nil_or_concat (b :: l1) with h | ⟨l', d, h⟩
        · cases h
        · exact ⟨d, l', by rw [h, List.concat_eq_append]⟩
      obtain ⟨w, l2'', hw⟩ : ∃ w l2'', l2 = w :: l2'' := by
        cases l2 with
        | nil => simp at hl2
        | cons w l => exact ⟨w, l, rfl⟩
      clear hl2 hne
      rw [hy, hw] at hc hn ⊢
      obtain ⟨d1, d2⟩ := (dll_append _ _ _ _ _).1 hc.dll
      obtain ⟨d3, d4, -⟩ := (dll_append _ _ _ _ _).1 d1
      obtain ⟨d5, d6, d7⟩ := d2
      rw [tl_concat] at d5
      simp only [List.map_append, List.map_cons, List.map_nil, List.append_assoc, List.cons_append, List.nil_append] at hn
      rw [List.nodup_append] at hn
      obtain ⟨n1, n2, n3⟩ := hn
      simp only [List.nodup_cons, List.mem_cons, not_or] at n2
      obtain ⟨⟨yc, yw, yl⟩, ⟨cw, cl⟩, wl, n4⟩ := n2
      have a1 : y.1 ∉ l1'.map (·.1) := fun hx => n3 _ hx y.1 (by simp) rfl
      have a2 : c.1 ∉ l1'.map (·.1) := fun hx => n3 _ hx c.1 (by simp) rfl
      have a3 : w.1 ∉ l1'.map (·.1) := fun hx => n3 _ hx w.1 (by simp) rfl
      rw [deref_ok _ _ _ d5]
      simp only [Res.bind_ok]
      rw [setNext_ok _ _ _ _ d4]
      simp only [Res.bind_ok, hd_cons]
      rw [setPrev_ok _ _ _ _ (by simp only; rw [set_other _ _ _ _ (Ne.symm yw)]; exact d6)]
      simp only [Res.bind_ok]
      rw [setNext_ok _ _ _ _ (by simp only; rw [set_other _ _ _ _ cw, set_other _ _ _ _ (Ne.symm yc)]; exact d5)]
      simp only [Res.bind_ok]
      rw [setPrev_ok _ _ _ _ (by simp only; rw [set_self])]
      refine ⟨_, rfl, ⟨?_, ?_, ?_, ?_⟩, ?_, rfl, rfl, rfl⟩
      · simp only
        rw [List.append_assoc, dll_append]
        refine ⟨?_, ?_, ?_, ?_⟩
        · exact dll_set _ _ _ _ _ _ a2 (dll_set _ _ _ _ _ _ a2 (dll_set _ _ _ _ _ _ a3 (dll_set _ _ _ _ _ _ a1 d3)))
        · rw [set_other _ _ _ _ yc, set_other _ _ _ _ yc, set_other _ _ _ _ yw, set_self]
          rfl
        · rw [set_other _ _ _ _ (Ne.symm cw), set_other _ _ _ _ (Ne.symm cw), set_self]
        · exact dll_set _ _ _ _ _ _ cl (dll_set _ _ _ _ _ _ cl (dll_set _ _ _ _ _ _ wl (dll_set _ _ _ _ _ _ yl d7)))
      · simp only
        rw [hc.first]
        simp only [hd_append, hd_cons]
      · simp only
        rw [hc.last]
        simp only [tl_append, tl_cons]; try rfl
      · simp only [List.map_append, List.map_cons, List.map_nil, List.append_assoc, List.cons_append, List.nil_append]
        rw [List.nodup_append]
        refine ⟨n1, by simp [yw, yl, wl, n4], ?_⟩
        intro a ha b hb
        refine n3 a ha b ?_
        simp only [List.mem_cons] at hb ⊢
        rcases hb with h | h | h
        · exact Or.inl h
        · exact Or.inr (Or.inr (Or.inl h))
        · exact Or.inr (Or.inr (Or.inr h))
      · simp [Free, set_self]

theorem putFirst_spec (m : LM V) (l : List (Cell V)) (c : Cell V) (hc : Chain m l) (hf : Free m c)
    (hn : c.1 ∉ l.map (·.1)) : ∃ m', m.putFirst c.1 = .ok m' ∧ Chain m' (c :: l) ∧ Same m m' := by
  unfold LM.putFirst
  rw [hc.first]
  cases l with
  | nil => exact ⟨_, rfl, ⟨⟨hf, trivial⟩, rfl, rfl, by simp⟩, rfl, rfl, rfl⟩
  | cons d l =>
    simp only [List.map_cons, List.mem_cons, not_or] at hn
    obtain ⟨n1, n2⟩ := hn
    obtain ⟨h1, h2⟩ := hc.dll
    have ha := hc.addrs
    simp only [List.map_cons, List.nodup_cons] at ha
    simp only [hd_cons]
    rw [if_neg (fun h => n1 h.symm), setNext_ok { m with first := some c.1 } c.1 _ _ hf]
    simp only [Res.bind_ok]
    rw [setPrev_ok _ _ _ _ (by simp only; rw [set_other _ _ _ _ (Ne.symm n1)]; exact h1)]
    refine ⟨_, rfl, ⟨⟨?_, ?_, ?_⟩, rfl, ?_, ?_⟩, rfl, rfl, rfl⟩
    · simp only
      rw [set_other _ _ _ _ n1, set_self]
      rfl
    · simp only
      rw [set_self]
    · exact dll_set _ _ _ _ _ _ ha.1 (dll_set _ _ _ _ _ _ n2 h2)
    · simp only
      rw [hc.last]; rfl
    · simp [n1, n2, ha]

theorem putLast_spec (m : LM V) (l : List (Cell V)) (c : Cell V) (hc : Chain m l) (hf : Free m c)
    (hn : c.1 ∉ l.map (·.1)) : ∃ m', m.putLast c.1 = .ok m' ∧ Chain m' (l ++ [c]) ∧ Same m m' := by
  unfold LM.putLast
  rw [hc.last]
  rcases List.eq_nil_or_concat l with rfl | ⟨l, d, rfl⟩
  · exact ⟨_, rfl, ⟨⟨hf, trivial⟩, rfl, rfl, by simp⟩, rfl, rfl, rfl⟩
  · rw [List.concat_eq_append] at *
    rw [tl_concat]
    simp only [List.map_append, List.map_cons, List.map_nil, List.mem_append, List.mem_singleton, not_or] at hn
    obtain ⟨n1, n2⟩ := hn
    obtain ⟨h1, h2, -⟩ := (dll_append _ _ _ _ _).1 hc.dll
    have ha := hc.addrs
    simp only [List.map_append, List.map_cons, List.map_nil] at ha
    rw [List.nodup_append] at ha
    have n3 : d.1 ∉ l.map (·.1) := fun hx => ha.2.2 _ hx d.1 (by simp) rfl
    simp only
    rw [if_neg (fun h => n2 h.symm), setNext_ok { m with last := some c.1 } _ _ _ h2]
    simp only [Res.bind_ok]
    rw [setPrev_ok _ c.1 _ _ (by simp only; rw [set_other _ _ _ _ n2]; exact hf)]
    refine ⟨_, rfl, ⟨?_, ?_, ?_, ?_⟩, rfl, rfl, rfl⟩
    · simp only
      rw [List.append_assoc, dll_append]
      refine ⟨dll_set _ _ _ _ _ _ n1 (dll_set _ _ _ _ _ _ n3 h1), ?_, ?_, trivial⟩
      · rw [set_other _ _ _ _ (Ne.symm n2), set_self]
        rfl
      · rw [set_self]
        rfl
    · simp only
      rw [hc.first]
      simp only [hd_append, hd_cons]
    · simp only
      rw [tl_concat]
    · simp only [List.map_append, List.map_cons, List.map_nil]
      rw [List.nodup_append]
      refine ⟨hc.addrs |> (by simpa using ·), by simp, ?_⟩
      intro a ha' b hb
      simp only [List.mem_singleton] at hb
      subst hb
      rintro rfl
      simp only [List.mem_append, List.mem_singleton] at ha'
      rcases ha' with h | h
      · exact n1 h
      · exact n2 h

theorem putNext_spec (m : LM V) (l1 l2 : List (Cell V)) (d c : Cell V) (hc : Chain m (l1 ++ d :: l2)) (hf : Free m c)
    (hn : c.1 ∉ (l1 ++ d :: l2).map (·.1)) :
    ∃ m', m.putNext d.1 c.1 = .ok m' ∧ Chain m' (l1 ++ d :: c :: l2) ∧ Same m m' := by
  have hdc : d.1 ≠ c.1 := by rintro h; rw [← h] at hn; simp at hn
  unfold LM.putNext
  rw [if_neg hdc]
  rcases List.eq_nil_or_concat l2 with rfl | ⟨l2', z, hl2⟩
  · rw [hc.last, tl_concat]
    simp only [if_true]
    obtain ⟨m', h1, h2, h3⟩ := putLast_spec m _ c hc hf hn
    exact ⟨m', h1, by simpa using h2, h3⟩
  · rw [List.concat_eq_append] at hl2
    have hlast : m.last = some z.1 := by
      rw [hc.last, hl2, show l1 ++ d :: (l2' ++ [z]) = (l1 ++ d :: l2') ++ [z] by simp, tl_concat]
    have hna := hc.addrs
    have hdz : d.1 ≠ z.1 := by
      rintro h
      rw [hl2] at hna
      simp only [List.map_append, List.map_cons, List.map_nil] at hna
      rw [List.nodup_append] at hna
      have := hna.2.1
      rw [h] at this
      simp at this
    rw [hlast]
    simp only
    rw [if_neg hdz]
    obtain ⟨w, l2'', hw⟩ : ∃ w l2'', l2 = w :: l2'' := by
      cases l2 with
      | nil => simp at hl2
      | cons w l => exact ⟨w, l, rfl⟩
    clear hl2 hlast hdz
    subst hw
    obtain ⟨d1, d2, d3, d4⟩ := (dll_append _ _ _ _ _).1 hc.dll
    simp only [List.map_append, List.map_cons, List.mem_append, List.mem_cons, not_or] at hn
    obtain ⟨c1, -, cw, c2⟩ := hn
    simp only [List.map_append, List.map_cons] at hna
    rw [List.nodup_append] at hna
    obtain ⟨n1, n2, n3⟩ := hna
    simp only [List.nodup_cons, List.mem_cons, not_or] at n2
    obtain ⟨⟨dw, dl⟩, wl, n4⟩ := n2
    have a1 : d.1 ∉ l1.map (·.1) := fun hx => n3 _ hx d.1 (by simp) rfl
    have a3 : w.1 ∉ l1.map (·.1) := fun hx => n3 _ hx w.1 (by simp) rfl
    rw [deref_ok _ _ _ d2]
    simp only [Res.bind_ok, hd_cons]
    rw [setNext_ok _ _ _ _ d2]
    simp only [Res.bind_ok]
    rw [setPrev_ok _ c.1 _ _ (by simp only; rw [set_other _ _ _ _ (Ne.symm hdc)]; exact hf)]
    simp only [Res.bind_ok]
    rw [setNext_ok _ c.1 _ _ (by simp only; rw [set_self])]
    simp only [Res.bind_ok]
    rw [setPrev_ok _ w.1 _ _ (by
      simp only
      rw [set_other _ _ _ _ (Ne.symm cw), set_other _ _ _ _ (Ne.symm cw), set_other _ _ _ _ (Ne.symm dw)]; exact d3)]
    refine ⟨_, rfl, ⟨?_, ?_, ?_, ?_⟩, rfl, rfl, rfl⟩
    · simp only
      rw [dll_append]
      refine ⟨?_, ?_, ?_, ?_, ?_⟩
      · exact dll_set _ _ _ _ _ _ a3 (dll_set _ _ _ _ _ _ c1 (dll_set _ _ _ _ _ _ c1 (dll_set _ _ _ _ _ _ a1 d1)))
      · rw [set_other _ _ _ _ dw, set_other _ _ _ _ hdc, set_other _ _ _ _ hdc, set_self]
        rfl
      · rw [set_other _ _ _ _ cw, set_self]
        rfl
      · rw [set_self]
      · exact dll_set _ _ _ _ _ _ wl (dll_set _ _ _ _ _ _ c2 (dll_set _ _ _ _ _ _ c2 (dll_set _ _ _ _ _ _ dl d4)))
    · simp only
      rw [hc.first]
      simp only [hd_append, hd_cons]
    · simp only
      rw [hc.last]
      simp only [tl_append, tl_cons]; try rfl
    · simp only [List.map_append, List.map_cons]
      rw [List.nodup_append]
      refine ⟨n1, by simp [dw, dl, wl, n4, hdc, cw, c2], ?_⟩
      intro a ha b hb
      simp only [List.mem_cons] at hb
      rcases hb with rfl | rfl | hb
      · exact n3 a ha _ (by simp)
      · rintro rfl; exact c1 ha
      · exact n3 a ha _ (by simp only [List.mem_cons]; exact Or.inr hb)

theorem putPrev_spec (m : LM V) (l1 l2 : List (Cell V)) (d c : Cell V) (hc : Chain m (l1 ++ d :: l2)) (hf : Free m c)
    (hn : c.1 ∉ (l1 ++ d :: l2).map (·.1)) :
    ∃ m', m.putPrev d.1 c.1 = .ok m' ∧ Chain m' (l1 ++ c :: d :: l2) ∧ Same m m' := by
  have hdc : d.1 ≠ c.1 := by rintro h; rw [← h] at hn; simp at hn
  unfold LM.putPrev
  rw [if_neg hdc]
  cases l1 with
  | nil =>
    rw [hc.first]
    simp only [List.nil_append, hd_cons, if_true]
    exact putFirst_spec m _ c hc hf hn
  | cons b l1 =>
    have hfirst : m.first = some b.1 := by rw [hc.first]; rfl
    have hna := hc.addrs
    have hdb : d.1 ≠ b.1 := by
      rintro h
      rw [List.cons_append, List.map_cons, List.nodup_cons] at hna
      exact hna.1 (by rw [← h]; simp)
    rw [hfirst]
    simp only
    rw [if_neg hdb]
    obtain ⟨y, l1', hy⟩ : ∃ y l1', b :: l1 = l1' ++ [y] := by
      rcases List.eq_nil_or_concat (b :: l1) with h | ⟨l', e, h⟩
      · cases h
      · exact ⟨e, l', by rw [h, List.concat_eq_append]⟩
    rw [hy] at hc hn hna ⊢
    obtain ⟨d1, d2⟩ := (dll_append _ _ _ _ _).1 hc.dll
    obtain ⟨d3, d4, -⟩ := (dll_append _ _ _ _ _).1 d1
    obtain ⟨d5, d6⟩ := d2
    rw [tl_concat] at d5
    simp only [List.map_append, List.map_cons, List.map_nil, List.append_assoc, List.cons_append, List.nil_append,
      List.mem_append, List.mem_cons, not_or] at hn
    obtain ⟨c1, cy, -, c2⟩ := hn
    simp only [List.map_append, List.map_cons, List.map_nil, List.append_assoc, List.cons_append, List.nil_append] at hna
    rw [List.nodup_append] at hna
    obtain ⟨n1, n2, n3⟩ := hna
    simp only [List.nodup_cons, List.mem_cons, not_or] at n2
    obtain ⟨⟨yd, yl⟩, dl, n4⟩ := n2
    have a1 : y.1 ∉ l1'.map (·.1) := fun hx => n3 _ hx y.1 (by simp) rfl
    have a3 : d.1 ∉ l1'.map (·.1) := fun hx => n3 _ hx d.1 (by simp) rfl
    rw [deref_ok _ _ _ d5]
    simp only [Res.bind_ok]
    rw [setNext_ok _ _ _ _ d4]
    simp only [Res.bind_ok]
    rw [setPrev_ok _ c.1 _ _ (by simp only; rw [set_other _ _ _ _ cy]; exact hf)]
    simp only [Res.bind_ok]
    rw [setNext_ok _ c.1 _ _ (by simp only; rw [set_self])]
    simp only [Res.bind_ok]
    rw [setPrev_ok _ d.1 _ _ (by
      simp only
      rw [set_other _ _ _ _ hdc, set_other _ _ _ _ hdc, set_other _ _ _ _ (Ne.symm yd)]; exact d5)]
    refine ⟨_, rfl, ⟨?_, ?_, ?_, ?_⟩, rfl, rfl, rfl⟩
    · simp only
      rw [List.append_assoc, dll_append]
      refine ⟨?_, ?_, ?_, ?_, ?_⟩
      · exact dll_set _ _ _ _ _ _ a3 (dll_set _ _ _ _ _ _ c1 (dll_set _ _ _ _ _ _ c1 (dll_set _ _ _ _ _ _ a1 d3)))
      · rw [set_other _ _ _ _ yd, set_other _ _ _ _ (Ne.symm cy), set_other _ _ _ _ (Ne.symm cy), set_self]
        rfl
      · rw [set_other _ _ _ _ (Ne.symm hdc), set_self]
        rfl
      · rw [set_self]
      · exact dll_set _ _ _ _ _ _ dl (dll_set _ _ _ _ _ _ c2 (dll_set _ _ _ _ _ _ c2 (dll_set _ _ _ _ _ _ yl d6)))
    · simp only
      rw [hc.first]
      simp only [hd_append, hd_cons]
    · simp only
      rw [hc.last]
      simp only [tl_append, tl_cons]; try rfl
    · simp only [List.map_append, List.map_cons, List.map_nil, List.append_assoc, List.cons_append, List.nil_append]
      rw [List.nodup_append]
      refine ⟨n1, by simp [yd, yl, dl, n4, hdc, Ne.symm hdc, Ne.symm cy, c2], ?_⟩
      intro a ha b hb
      simp only [List.mem_cons] at hb
      rcases hb with rfl | rfl | hb
      · exact n3 a ha _ (by simp)
      · rintro rfl; exact c1 ha
      · exact n3 a ha _ (by simp only [List.mem_cons]; exact Or.inr hb)

end
end Verif.LinkedMap
