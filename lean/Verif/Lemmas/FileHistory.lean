import Verif.Lemmas.Zipper
/-! Helper lemmas: the tree of history files behaves as a map from keys to files. -/
namespace Verif.FileHistory
open VarInt FileName

/-! Maps -/
section
variable {α : Type}

theorem get_insert (m : BMap α) (k : Nat) (v : α) (k' : Nat) :
    BMap.get (BMap.insert m k v) k' = if k = k' then some v else BMap.get m k' := by
  induction m with
  | nil => simp [BMap.insert, BMap.get]
  | cons e m ih =>
    obtain ⟨a, x⟩ := e
    rw [BMap.insert]
    by_cases h1 : k < a
    · rw [if_pos h1]; simp [BMap.get]
    · rw [if_neg h1]
      by_cases h2 : k = a
      · subst h2
        rw [if_pos rfl]
        by_cases h3 : k = k' <;> simp [BMap.get, h3]
      · rw [if_neg h2, BMap.get, BMap.get, ih]
        by_cases h3 : a = k'
        · subst h3
          simp [h2]
        · simp [h3]

theorem mem_insert (m : BMap α) (k : Nat) (v : α) (e : Nat × α) (h : e ∈ BMap.insert m k v) : e = (k, v) ∨ e ∈ m := by
  induction m with
  | nil => simpa [BMap.insert] using h
  | cons x m ih =>
    obtain ⟨a, y⟩ := x
    rw [BMap.insert] at h
    split at h
    · simpa using h
    · split at h
      · rcases List.mem_cons.1 h with h | h <;> simp [h]
      · rcases List.mem_cons.1 h with h | h
        · simp [h]
        · rcases ih h with h | h <;> simp [h]

theorem insert_ne_nil (m : BMap α) (k : Nat) (v : α) : BMap.insert m k v ≠ [] := by
  cases m with
  | nil => simp [BMap.insert]
  | cons e m =>
    obtain ⟨a, x⟩ := e
    rw [BMap.insert]
    split
    · simp
    · split <;> simp

theorem insert_ascending (m : BMap α) (h : (m.map (·.1)).Pairwise (· < ·)) (k : Nat) (v : α) :
    ((BMap.insert m k v).map (·.1)).Pairwise (· < ·) := by
  induction m with
  | nil => simp [BMap.insert]
  | cons e m ih =>
    obtain ⟨a, x⟩ := e
    obtain ⟨h1, h2⟩ := ascending_cons a x m h
    rw [BMap.insert]
    have hm : ∀ b, b < a ∨ b = a → ∀ k' ∈ m.map (·.1), b < k' := by
      intro b hb k' hk'
      obtain ⟨e, he, rfl⟩ := List.mem_map.1 hk'
      have := h1 e he
      omega
    split
    · rename_i hlt
      rw [List.map_cons, List.pairwise_cons]
      refine ⟨fun k' hk' => ?_, h⟩
      rw [List.map_cons, List.mem_cons] at hk'
      rcases hk' with rfl | hk'
      · exact hlt
      · exact hm k (Or.inl hlt) k' hk'
    · split
      · rename_i _ heq
        rw [List.map_cons, List.pairwise_cons]
        exact ⟨hm k (Or.inr heq), h2⟩
      · rename_i n1 n2
        rw [List.map_cons, List.pairwise_cons]
        refine ⟨fun k' hk' => ?_, ih h2⟩
        obtain ⟨e, he, rfl⟩ := List.mem_map.1 hk'
        rcases mem_insert m k v e he with rfl | he
        · show a < k
          omega
        · exact h1 e he

theorem insert_ordered (m : BMap α) (h : Ordered m) (k : Nat) (hk : k < 2 ^ 32) (v : α) : Ordered (BMap.insert m k v) := by
  refine ⟨insert_ascending m h.1 k v, fun e he => ?_⟩
  rcases mem_insert m k v e he with rfl | he
  · exact hk
  · exact h.2 e he

theorem last_max (m : BMap α) (h : (m.map (·.1)).Pairwise (· < ·)) (l : Nat × α) (hl : m.getLast? = some l) :
    l ∈ m ∧ ∀ e ∈ m, e.1 < l.1 ∨ e = l := by
  induction m with
  | nil => simp at hl
  | cons e m ih =>
    obtain ⟨a, x⟩ := e
    obtain ⟨h1, h2⟩ := ascending_cons a x m h
    cases m with
    | nil => simp at hl; subst hl; simp
    | cons e' m' =>
      rw [List.getLast?_cons_cons] at hl
      obtain ⟨i1, i2⟩ := ih h2 hl
      refine ⟨by simp [i1], fun e he => ?_⟩
      rcases List.mem_cons.1 he with rfl | he
      · exact Or.inl (h1 l i1)
      · exact i2 e he
end

/-! Lexicographic order on keys -/

theorem lt_append (pre a b : List Nat) (h : a < b) : pre ++ a < pre ++ b := by
  induction pre with
  | nil => exact h
  | cons x pre ih =>
    rw [List.cons_append, List.cons_append, List.cons_lt_cons_iff]
    exact Or.inr ⟨rfl, ih⟩

theorem lt_head (pre : List Nat) (i j : Nat) (a b : List Nat) (h : i < j) : pre ++ i :: a < pre ++ j :: b :=
  lt_append pre _ _ (by rw [List.cons_lt_cons_iff]; exact Or.inl h)

theorem lt_longer (pre : List Nat) (i : Nat) (b : List Nat) (hb : b ≠ []) : pre ++ [i] < pre ++ i :: b :=
  lt_append pre _ _ (by
    rw [List.cons_lt_cons_iff]
    refine Or.inr ⟨rfl, ?_⟩
    cases b with
    | nil => exact absurd rfl hb
    | cons x b => exact List.nil_lt_cons x b)

/-! Well-formed trees -/

/-- Every file is stored at its own position, every node holds something. -/
inductive WF : List Nat → Node → Prop
  | mk (pre : List Nat) (ch : BMap Node) (it : BMap Props) (hch : Ordered ch) (hit : Ordered it)
      (hitems : ∀ e ∈ it, key e.2 = pre ++ [e.1]) (hchild : ∀ e ∈ ch, WF (pre ++ [e.1]) e.2)
      (hne : ch ≠ [] ∨ it ≠ []) : WF pre (.mk ch it)

theorem getProps_nil (n : Node) : n.getProps [] = none := by unfold Node.getProps; rfl
theorem getProps_one (ch it) (i : Nat) : (Node.mk ch it).getProps [i] = BMap.get it i := by unfold Node.getProps; rfl
theorem getProps_cons (ch it) (i j : Nat) (r : List Nat) :
    (Node.mk ch it).getProps (i :: j :: r) = (BMap.get ch i).bind (·.getProps (j :: r)) := by
  rw [Node.getProps]
  · cases BMap.get ch i <;> rfl
  · simp

theorem getProps_empty (o : List Nat) : Node.empty.getProps o = none := by
  match o with
  | [] => exact getProps_nil _
  | [i] => rw [Node.empty, getProps_one]; rfl
  | i :: j :: r => rw [Node.empty, getProps_cons]; rfl

theorem add_one (ch it) (i : Nat) (p : Props) : (Node.mk ch it).add [i] p = .mk ch (BMap.insert it i p) := by
  unfold Node.add; rfl
theorem add_cons (ch it) (i j : Nat) (r : List Nat) (p : Props) :
    (Node.mk ch it).add (i :: j :: r) p =
      .mk (BMap.insert ch i (Node.add ((BMap.get ch i).getD .empty) (j :: r) p)) it := by
  rw [Node.add]; simp

theorem getProps_add (o : List Nat) (ho : o ≠ []) (n : Node) (p : Props) (o' : List Nat) :
    (n.add o p).getProps o' = if o = o' then some p else n.getProps o' := by
  induction o generalizing n o' with
  | nil => exact absurd rfl ho
  | cons i r ih =>
    obtain ⟨ch, it⟩ := n
    cases r with
    | nil =>
      rw [add_one]
      match o' with
      | [] => rw [getProps_nil, getProps_nil]; simp
      | [i'] => rw [getProps_one, getProps_one, get_insert]; simp
      | i' :: j' :: r' => rw [getProps_cons, getProps_cons]; simp
    | cons j r =>
      rw [add_cons]
      match o' with
      | [] => rw [getProps_nil, getProps_nil]; simp
      | [i'] => rw [getProps_one, getProps_one]; simp
      | i' :: j' :: r' =>
        rw [getProps_cons, getProps_cons, get_insert]
        by_cases hi : i = i'
        · subst hi
          rw [if_pos rfl]
          simp only [Option.bind_some]
          rw [ih (by simp)]
          simp only [List.cons.injEq, true_and]
          by_cases hj : j = j' ∧ r = r'
          · rw [if_pos hj, if_pos hj]
          · rw [if_neg hj, if_neg hj]
            cases hg : BMap.get ch i with
            | none => simp [getProps_empty]
            | some c => simp
        · rw [if_neg hi, if_neg (by simp [hi])]

theorem add_wf (o : List Nat) (ho : o ≠ []) (hb : ∀ x ∈ o, x < 2 ^ 32) (pre : List Nat) (n : Node)
    (hn : n = .empty ∨ WF pre n) (p : Props) (hk : key p = pre ++ o) : WF pre (n.add o p) := by
  induction o generalizing n pre with
  | nil => exact absurd rfl ho
  | cons i r ih =>
    have hi := hb i (by simp)
    have hparts : ∃ ch it, n = .mk ch it ∧ Ordered ch ∧ Ordered it ∧ (∀ e ∈ it, key e.2 = pre ++ [e.1]) ∧
        (∀ e ∈ ch, WF (pre ++ [e.1]) e.2) := by
      rcases hn with rfl | hn
      · exact ⟨[], [], rfl, by simp [Ordered], by simp [Ordered], by simp, by simp⟩
      · cases hn with
        | mk _ ch it h1 h2 h3 h4 h5 => exact ⟨ch, it, rfl, h1, h2, h3, h4⟩
    obtain ⟨ch, it, rfl, h1, h2, h3, h4⟩ := hparts
    cases r with
    | nil =>
      rw [add_one]
      refine WF.mk _ _ _ h1 (insert_ordered it h2 i hi p) (fun e he => ?_) h4 (Or.inr (insert_ne_nil _ _ _))
      rcases mem_insert it i p e he with rfl | he
      · exact hk
      · exact h3 e he
    | cons j r =>
      rw [add_cons]
      refine WF.mk _ _ _ (insert_ordered ch h1 i hi _) h2 h3 (fun e he => ?_) (Or.inl (insert_ne_nil _ _ _))
      rcases mem_insert ch i _ e he with rfl | he
      · refine ih (by simp) (fun x hx => hb x (by simp [List.mem_cons.1 hx])) _ _ ?_ (by simpa using hk)
        cases hg : BMap.get ch i with
        | none => exact Or.inl rfl
        | some c =>
          have hm : (i, c) ∈ ch := (get_mem ch h1.1 i c).1 hg
          exact Or.inr (h4 _ hm)
      · exact h4 e he

/-! Flattening -/

theorem flattenAll_eq (ch : List (Nat × Node)) : flattenAll ch = ch.map fun e => (e.1, e.2.flatten) := by
  induction ch with
  | nil => unfold flattenAll; rfl
  | cons e ch ih => obtain ⟨i, n⟩ := e; rw [flattenAll, ih]; rfl

theorem newestChild_eq (ch : List (Nat × Node)) : newestChild ch = ch.getLast?.map fun e => (e.1, e.2.newest) := by
  induction ch with
  | nil => unfold newestChild; rfl
  | cons e ch ih =>
    obtain ⟨i, n⟩ := e
    cases ch with
    | nil => rw [newestChild]; rfl
    | cons e' ch' => rw [newestChild, ih, List.getLast?_cons_cons]

theorem get_map {α β : Type} (f : α → β) (m : BMap α) (k : Nat) :
    BMap.get (m.map fun e => (e.1, f e.2)) k = (BMap.get m k).map f := by
  induction m with
  | nil => rfl
  | cons e m ih =>
    obtain ⟨a, x⟩ := e
    rw [List.map_cons, BMap.get, BMap.get]
    by_cases h : a = k
    · simp [h]
    · simp only [h, if_false]; exact ih

theorem ordered_map {α β : Type} (f : α → β) (m : BMap α) (h : Ordered m) : Ordered (m.map fun e => (e.1, f e.2)) := by
  refine ⟨?_, ?_⟩
  · rw [List.map_map]; exact h.1
  · intro e he
    obtain ⟨e', he', rfl⟩ := List.mem_map.1 he
    exact h.2 e' he'

/-- What a node lists. -/
def Lists (pre : List Nat) (n : Node) : Prop :=
  (∀ p, p ∈ n.flatten ↔ ∃ o, key p = pre ++ o ∧ n.getProps o = some p) ∧
  n.flatten.Pairwise (fun a b => key a < key b) ∧
  ∃ p, n.newest = some p ∧ p ∈ n.flatten ∧ ∀ q ∈ n.flatten, q = p ∨ key q < key p

theorem getProps_ne_nil (n : Node) (o : List Nat) (p : Props) (h : n.getProps o = some p) : o ≠ [] := by
  rintro rfl
  rw [getProps_nil] at h
  cases h

theorem mem_part (ch : BMap Node) (it : BMap Props) (hch : Ordered ch) (hit : Ordered it) (k : Nat) (p : Props) (x)
    (hx : x ∈ merge it (flattenAll ch)) (hp : p ∈ x.2.2.toList ++ x.2.1.getD []) (hk : x.1 = k) :
    BMap.get it k = some p ∨ ∃ c, BMap.get ch k = some c ∧ p ∈ c.flatten := by
  obtain ⟨k', h', p'⟩ := x
  simp only at hk hp
  subst hk
  have hfo : Ordered (flattenAll ch) := by rw [flattenAll_eq]; exact ordered_map _ ch hch
  obtain ⟨e1, e2, _⟩ := ((merge_spec it _ hit.1 hfo.1).2 k' h' p').1 hx
  rw [flattenAll_eq, get_map] at e1
  rcases List.mem_append.1 hp with hp | hp
  · left
    rw [← e2]
    simpa using hp
  · right
    cases hc : BMap.get ch k' with
    | none => rw [hc] at e1; subst e1; simp at hp
    | some c => rw [hc] at e1; subst e1; exact ⟨c, rfl, by simpa using hp⟩

theorem flatten_mem (ch : BMap Node) (it : BMap Props) (hch : Ordered ch) (hit : Ordered it) (p : Props) :
    p ∈ (Node.mk ch it).flatten ↔
      ∃ k, BMap.get it k = some p ∨ ∃ c, BMap.get ch k = some c ∧ p ∈ c.flatten := by
  have hfo : Ordered (flattenAll ch) := by rw [flattenAll_eq]; exact ordered_map _ ch hch
  rw [Node.flatten, zip_eq_merge it _ hit hfo, List.mem_flatMap]
  constructor
  · rintro ⟨x, hx, hp⟩
    exact ⟨x.1, mem_part ch it hch hit x.1 p x hx hp rfl⟩
  · rintro ⟨k, h⟩
    refine ⟨(k, BMap.get (flattenAll ch) k, BMap.get it k), ((merge_spec it _ hit.1 hfo.1).2 _ _ _).2 ⟨rfl, rfl, ?_⟩, ?_⟩
    · rcases h with h | ⟨c, h, _⟩
      · right; rw [h]; simp
      · left; rw [flattenAll_eq, get_map, h]; simp
    · simp only [List.mem_append]
      rcases h with h | ⟨c, h, hp⟩
      · left; rw [h]; simp
      · right; rw [flattenAll_eq, get_map, h]; simpa using hp

theorem lists (pre : List Nat) (n : Node) (h : WF pre n) : Lists pre n := by
  induction h with
  | mk pre ch it hch hit hitems hchild hne ih =>
    have hfo : Ordered (flattenAll ch) := by rw [flattenAll_eq]; exact ordered_map _ ch hch
    have hcm : ∀ k c, BMap.get ch k = some c → (k, c) ∈ ch := fun k c h => (get_mem ch hch.1 k c).1 h
    have him : ∀ k p, BMap.get it k = some p → key p = pre ++ [k] :=
      fun k p h => hitems (k, p) ((get_mem it hit.1 k p).1 h)
    have hchk : ∀ k c p, BMap.get ch k = some c → p ∈ c.flatten →
        ∃ o, o ≠ [] ∧ key p = pre ++ k :: o ∧ c.getProps o = some p := by
      intro k c p hc hp
      obtain ⟨o, h1, h2⟩ := ((ih (k, c) (hcm k c hc)).1 p).1 hp
      exact ⟨o, getProps_ne_nil _ _ _ h2, by simpa using h1, h2⟩
    have hmem := flatten_mem ch it hch hit
    have hpart : ∀ k p, (BMap.get it k = some p ∨ ∃ c, BMap.get ch k = some c ∧ p ∈ c.flatten) →
        ∃ o, key p = pre ++ k :: o := by
      rintro k p (h | ⟨c, hc, hp⟩)
      · exact ⟨[], him k p h⟩
      · obtain ⟨o, _, h2, _⟩ := hchk k c p hc hp
        exact ⟨o, h2⟩
    refine ⟨fun p => ?_, ?_, ?_⟩
    · rw [hmem]
      constructor
      · rintro ⟨k, h | ⟨c, hc, hp⟩⟩
        · exact ⟨[k], him k p h, by rw [getProps_one]; exact h⟩
        · obtain ⟨o, h1, h2, h3⟩ := hchk k c p hc hp
          refine ⟨k :: o, h2, ?_⟩
          cases o with
          | nil => exact absurd rfl h1
          | cons j r => rw [getProps_cons, hc]; exact h3
      · rintro ⟨o, h1, h2⟩
        match o with
        | [] => rw [getProps_nil] at h2; cases h2
        | [i] => rw [getProps_one] at h2; exact ⟨i, Or.inl h2⟩
        | i :: j :: r =>
          rw [getProps_cons] at h2
          cases hc : BMap.get ch i with
          | none => rw [hc] at h2; cases h2
          | some c =>
            rw [hc] at h2
            exact ⟨i, Or.inr ⟨c, hc, ((ih (i, c) (hcm i c hc)).1 p).2 ⟨j :: r, by simpa using h1, h2⟩⟩⟩
    · rw [Node.flatten, zip_eq_merge it _ hit hfo, List.pairwise_flatMap]
      obtain ⟨m1, m2⟩ := merge_spec it _ hit.1 hfo.1
      constructor
      · rintro ⟨k, h', p'⟩ hx
        obtain ⟨e1, e2, _⟩ := (m2 k h' p').1 hx
        rw [flattenAll_eq, get_map] at e1
        rw [List.pairwise_append]
        refine ⟨?_, ?_, ?_⟩
        · cases p' <;> simp
        · cases hc : BMap.get ch k with
          | none => rw [hc] at e1; subst e1; simp
          | some c => rw [hc] at e1; subst e1; exact (ih (k, c) (hcm k c hc)).2.1
        · intro a ha b hb
          have ha' : BMap.get it k = some a := by rw [← e2]; simpa using ha
          rw [him k a ha']
          cases hc : BMap.get ch k with
          | none => rw [hc] at e1; subst e1; simp at hb
          | some c =>
            rw [hc] at e1
            subst e1
            obtain ⟨o, o1, o2, _⟩ := hchk k c b hc (by simpa using hb)
            rw [o2]
            exact lt_longer pre k o o1
      · rw [List.pairwise_map] at m1
        refine List.Pairwise.imp_of_mem ?_ m1
        intro x y hx hy hlt a ha b hb
        obtain ⟨oa, ha'⟩ := hpart x.1 a (mem_part ch it hch hit x.1 a x hx ha rfl)
        obtain ⟨ob, hb'⟩ := hpart y.1 b (mem_part ch it hch hit y.1 b y hy hb rfl)
        rw [ha', hb']
        exact lt_head pre _ _ _ _ hlt
    · rw [Node.newest, newestChild_eq]
      -- the newest of the last child
      have hlast : ∀ c nd, ch.getLast? = some (c, nd) →
          (∀ i p, BMap.get it i = some p → i ≤ c) →
          ∃ p, nd.newest = some p ∧ p ∈ (Node.mk ch it).flatten ∧
            ∀ q ∈ (Node.mk ch it).flatten, q = p ∨ key q < key p := by
        intro c nd hl hle
        obtain ⟨l1, l2⟩ := last_max ch hch.1 _ hl
        obtain ⟨_, _, p, n1, n2, n3⟩ := ih (c, nd) l1
        have hgc : BMap.get ch c = some nd := (get_mem ch hch.1 c nd).2 l1
        obtain ⟨o, o1, o2, _⟩ := hchk c nd p hgc n2
        refine ⟨p, n1, (hmem p).2 ⟨c, Or.inr ⟨nd, hgc, n2⟩⟩, fun q hq => ?_⟩
        obtain ⟨k, hk⟩ := (hmem q).1 hq
        have hkc : k ≤ c := by
          rcases hk with hk | ⟨c', hc', _⟩
          · exact hle k q hk
          · rcases l2 (k, c') (hcm k c' hc') with h | h
            · exact Nat.le_of_lt h
            · cases h; exact Nat.le_refl _
        rcases Nat.lt_or_eq_of_le hkc with hlt | heq
        · right
          obtain ⟨o', ho'⟩ := hpart k q hk
          rw [ho', o2]
          exact lt_head pre _ _ _ _ hlt
        · subst heq
          rcases hk with hk | ⟨c', hc', hq'⟩
          · right
            rw [him k q hk, o2]
            exact lt_longer pre k o o1
          · rw [hgc] at hc'
            cases hc'
            exact n3 q hq'
      cases hli : it.getLast? with
      | none =>
        have hit0 : it = [] := List.getLast?_eq_none_iff.1 hli
        cases hlc : ch.getLast? with
        | none =>
          have := List.getLast?_eq_none_iff.1 hlc
          rcases hne with h | h
          · exact absurd this h
          · exact absurd hit0 h
        | some e =>
          obtain ⟨c, nd⟩ := e
          obtain ⟨p, h1, h2⟩ := hlast c nd hlc (by intro i p h; rw [hit0] at h; cases h)
          exact ⟨p, h1, h2⟩
      | some e =>
        obtain ⟨i, p⟩ := e
        obtain ⟨i1, i2⟩ := last_max it hit.1 _ hli
        have hgi : BMap.get it i = some p := (get_mem it hit.1 i p).2 i1
        have hile : ∀ k q, BMap.get it k = some q → k ≤ i := by
          intro k q h
          rcases i2 (k, q) ((get_mem it hit.1 k q).1 h) with h | h
          · exact Nat.le_of_lt h
          · cases h; exact Nat.le_refl _
        have hown : (∀ k c, BMap.get ch k = some c → k < i) →
            p ∈ (Node.mk ch it).flatten ∧ ∀ q ∈ (Node.mk ch it).flatten, q = p ∨ key q < key p := by
          intro hlt
          refine ⟨(hmem p).2 ⟨i, Or.inl hgi⟩, fun q hq => ?_⟩
          obtain ⟨k, hk⟩ := (hmem q).1 hq
          obtain ⟨o', ho'⟩ := hpart k q hk
          have hcase : k < i ∨ (k = i ∧ BMap.get it k = some q) := by
            rcases hk with hk | ⟨c, hc, _⟩
            · rcases Nat.lt_or_eq_of_le (hile k q hk) with h | h
              · exact Or.inl h
              · exact Or.inr ⟨h, hk⟩
            · exact Or.inl (hlt k c hc)
          rcases hcase with h | ⟨rfl, h⟩
          · right
            rw [ho', him i p hgi]
            exact lt_head pre _ _ _ _ h
          · left
            rw [hgi] at h
            cases h
            rfl
        cases hlc : ch.getLast? with
        | none =>
          have hc0 : ch = [] := List.getLast?_eq_none_iff.1 hlc
          exact ⟨p, rfl, hown (by intro k c h; rw [hc0] at h; cases h)⟩
        | some e =>
          obtain ⟨c, nd⟩ := e
          simp only [Option.map_some]
          by_cases hci : c < i
          · rw [if_pos hci]
            refine ⟨p, rfl, hown ?_⟩
            intro k c' h
            obtain ⟨_, l2⟩ := last_max ch hch.1 _ hlc
            rcases l2 (k, c') (hcm k c' h) with h | h
            · exact Nat.lt_trans h hci
            · cases h; exact hci
          · rw [if_neg hci]
            obtain ⟨p', h1, h2⟩ := hlast c nd hlc (by intro k q h; have := hile k q h; omega)
            exact ⟨p', h1, h2⟩

/-! Histories -/

/-- A well-formed history. -/
def HWF (h : History) : Prop := Ordered h.ctls ∧ ∀ e ∈ h.ctls, WF [e.1] e.2

/-- What a file name can hold: `u32` numbers and a non-empty order. -/
def InRange (p : Props) : Prop := p.order ≠ [] ∧ ∀ x ∈ key p, x < 2 ^ 32

theorem hwf_empty : HWF .empty := by simp [HWF, History.empty, Ordered]

theorem hwf_add (h : History) (hh : HWF h) (p : Props) (hp : InRange p) : HWF (h.add p) := by
  unfold History.add
  refine ⟨insert_ordered _ hh.1 _ (hp.2 _ (by simp [key])) _, fun e he => ?_⟩
  rcases mem_insert _ _ _ e he with rfl | he
  · refine add_wf _ hp.1 (fun x hx => hp.2 x (by simp [key, hx])) _ _ ?_ _ rfl
    cases hg : BMap.get h.ctls p.control with
    | none => exact Or.inl rfl
    | some c => exact Or.inr (hh.2 _ ((get_mem _ hh.1.1 _ _).1 hg))
  · exact hh.2 e he

theorem hgetProps (h : History) (c : Nat) (o : List Nat) :
    h.getProps c o = (BMap.get h.ctls c).bind (·.getProps o) := by
  unfold History.getProps
  cases BMap.get h.ctls c <;> rfl

theorem hgetProps_add (h : History) (p : Props) (hp : p.order ≠ []) (c : Nat) (o : List Nat) :
    (h.add p).getProps c o = if key p = c :: o then some p else h.getProps c o := by
  rw [hgetProps, hgetProps]
  unfold History.add key
  simp only [get_insert, List.cons.injEq]
  by_cases hc : p.control = c
  · subst hc
    rw [if_pos rfl]
    simp only [Option.bind_some, true_and]
    rw [getProps_add _ hp]
    by_cases ho : p.order = o
    · rw [if_pos ho, if_pos ho]
    · rw [if_neg ho, if_neg ho]
      cases BMap.get h.ctls p.control with
      | none => simp [getProps_empty]
      | some c => simp
  · rw [if_neg hc]
    simp [hc]

theorem hgetProps_key (h : History) (hh : HWF h) (c : Nat) (o : List Nat) (p : Props) (hp : h.getProps c o = some p) :
    key p = c :: o ∧ o ≠ [] := by
  rw [hgetProps] at hp
  cases hg : BMap.get h.ctls c with
  | none => rw [hg] at hp; cases hp
  | some n =>
    rw [hg] at hp
    simp only [Option.bind_some] at hp
    refine ⟨?_, getProps_ne_nil _ _ _ hp⟩
    have hw := hh.2 _ ((get_mem _ hh.1.1 _ _).1 hg)
    simp only at hw
    have : ∀ pre, WF pre n → n.getProps o = some p → key p = pre ++ o := by
      clear hw hp hg
      intro pre hw
      induction hw generalizing o with
      | mk pre ch it hch hit hitems hchild hne ih =>
        intro hp
        match o with
        | [] => rw [getProps_nil] at hp; cases hp
        | [i] => rw [getProps_one] at hp; exact hitems (i, p) ((get_mem it hit.1 i p).1 hp)
        | i :: j :: r =>
          rw [getProps_cons] at hp
          cases hc : BMap.get ch i with
          | none => rw [hc] at hp; cases hp
          | some cn =>
            rw [hc] at hp
            have := ih (i, cn) ((get_mem ch hch.1 i cn).1 hc) (j :: r) hp
            simpa using this
    exact this [c] hw hp

theorem mem_listFiles (h : History) (hh : HWF h) (p : Props) :
    p ∈ h.listFiles ↔ h.getProps p.control p.order = some p := by
  unfold History.listFiles
  rw [List.mem_flatMap]
  constructor
  · rintro ⟨⟨c, n⟩, he, hp⟩
    obtain ⟨o, h1, h2⟩ := ((lists [c] n (hh.2 _ he)).1 p).1 hp
    simp only [key, List.cons_append, List.nil_append, List.cons.injEq] at h1
    rw [hgetProps, h1.1, h1.2, (get_mem _ hh.1.1 c n).2 he]
    exact h2
  · intro hp
    rw [hgetProps] at hp
    cases hg : BMap.get h.ctls p.control with
    | none => rw [hg] at hp; cases hp
    | some n =>
      rw [hg] at hp
      have he := (get_mem _ hh.1.1 _ _).1 hg
      exact ⟨_, he, ((lists [p.control] n (hh.2 _ he)).1 p).2 ⟨p.order, rfl, hp⟩⟩

theorem listFiles_sorted (h : History) (hh : HWF h) : h.listFiles.Pairwise (fun a b => key a < key b) := by
  unfold History.listFiles
  rw [List.pairwise_flatMap]
  refine ⟨fun e he => (lists [e.1] e.2 (hh.2 e he)).2.1, ?_⟩
  refine List.Pairwise.imp_of_mem ?_ ((List.pairwise_map).1 hh.1.1)
  intro x y hx hy hlt a ha b hb
  obtain ⟨oa, ha', _⟩ := ((lists [x.1] x.2 (hh.2 x hx)).1 a).1 ha
  obtain ⟨ob, hb', _⟩ := ((lists [y.1] y.2 (hh.2 y hy)).1 b).1 hb
  rw [ha', hb']
  exact lt_head [] _ _ _ _ hlt

theorem sorted_getLast {l : List Props} (hs : l.Pairwise (fun a b => key a < key b)) (p : Props) (hp : p ∈ l)
    (hmax : ∀ q ∈ l, q = p ∨ key q < key p) : l.getLast? = some p := by
  have hne : l ≠ [] := by rintro rfl; simp at hp
  rw [List.getLast?_eq_some_getLast hne]
  rcases hmax _ (List.getLast_mem hne) with h | h
  · rw [h]
  · exfalso
    have hl : l = l.dropLast ++ [l.getLast hne] := (List.dropLast_concat_getLast hne).symm
    rw [hl] at hs hp
    rcases List.mem_append.1 hp with hp | hp
    · have := (List.pairwise_append.1 hs).2.2 p hp (l.getLast hne) (by simp)
      exact absurd (List.lt_trans h this) (List.lt_irrefl _)
    · simp at hp
      rw [← hp] at h
      exact absurd h (List.lt_irrefl _)

theorem newest_eq (h : History) (hh : HWF h) : h.newest = h.listFiles.getLast? := by
  unfold History.newest
  rw [newestChild_eq]
  cases hl : h.ctls.getLast? with
  | none =>
    have := List.getLast?_eq_none_iff.1 hl
    simp [History.listFiles, this]
  | some e =>
    obtain ⟨c, n⟩ := e
    obtain ⟨l1, l2⟩ := last_max _ hh.1.1 _ hl
    obtain ⟨m, _, p, n1, n2, n3⟩ := lists [c] n (hh.2 _ l1)
    simp only [Option.map_some]
    rw [n1]
    symm
    refine sorted_getLast (listFiles_sorted h hh) p ?_ ?_
    · exact List.mem_flatMap.2 ⟨_, l1, n2⟩
    · intro q hq
      obtain ⟨e, he, hq'⟩ := List.mem_flatMap.1 hq
      rcases l2 e he with hlt | rfl
      · right
        obtain ⟨oq, hq1, _⟩ := ((lists [e.1] e.2 (hh.2 e he)).1 q).1 hq'
        obtain ⟨op, hp1, _⟩ := (m p).1 n2
        rw [hq1, hp1]
        exact lt_head [] _ _ _ _ hlt
      · exact n3 q hq'

end Verif.FileHistory
