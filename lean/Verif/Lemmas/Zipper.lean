import Mathlib.Tactic.Tauto
import Verif.Spec.FileHistory
/-! Helper lemmas: the zipper merges the two maps. -/
namespace Verif.FileHistory

/-- The plain merge of two ascending lists. -/
def merge {α β : Type} : BMap α → BMap β → List (Nat × Option β × Option α)
  | [], H => H.map fun e => (e.1, some e.2, none)
  | P, [] => P.map fun e => (e.1, none, some e.2)
  | (i, p) :: P, (j, h) :: H =>
    if i = j then (i, some h, some p) :: merge P H
    else if i < j then (i, none, some p) :: merge P ((j, h) :: H)
    else (j, some h, none) :: merge ((i, p) :: P) H
termination_by P H => P.length + H.length

section
variable {α β : Type}

def pend {γ : Type} (cur : Int) (r : Option γ) (l : BMap γ) : BMap γ :=
  match r with
  | some x => (cur.toNat, x) :: l
  | none => l

/-- A side of the zipper after a move. -/
def Side {γ : Type} (cur : Int) (r : Option γ) (l : BMap γ) : Prop :=
  (∀ e ∈ l, (e.1 : Int) < i64Max) ∧
  ((r = none ∧ cur = i64Max ∧ l = []) ∨ (∃ x, r = some x ∧ 0 ≤ cur ∧ cur < i64Max))

theorem merge_nil_left (H : BMap β) : merge ([] : BMap α) H = H.map fun e => (e.1, some e.2, none) := by
  cases H <;> simp [merge]
theorem merge_nil_right (P : BMap α) : merge P ([] : BMap β) = P.map fun e => (e.1, none, some e.2) := by
  cases P <;> simp [merge]

def expected (z : Zipper α β) : List (Nat × Option β × Option α) :=
  if z.curProps = z.curHis then merge z.props z.his
  else if z.curProps < z.curHis then merge z.props (pend z.curHis z.rHis z.his)
  else merge (pend z.curProps z.rProps z.props) z.his

def Inv (z : Zipper α β) : Prop :=
  Side z.curProps z.rProps z.props ∧ Side z.curHis z.rHis z.his

theorem moveProps_side (z : Zipper α β) (h : ∀ e ∈ z.props, (e.1 : Int) < i64Max) :
    Side z.moveProps.curProps z.moveProps.rProps z.moveProps.props ∧
    pend z.moveProps.curProps z.moveProps.rProps z.moveProps.props = z.props ∧
    z.moveProps.curHis = z.curHis ∧ z.moveProps.rHis = z.rHis ∧ z.moveProps.his = z.his := by
  unfold Zipper.moveProps
  cases hp : z.props with
  | nil => simp [Side, pend]
  | cons e P =>
    obtain ⟨k, x⟩ := e
    have hk := h (k, x) (by rw [hp]; simp)
    simp only at hk
    refine ⟨⟨fun e he => h e (by rw [hp]; simp [he]), Or.inr ⟨x, rfl, by simp, hk⟩⟩, ?_, rfl, rfl, rfl⟩
    simp [pend]

theorem moveHis_side (z : Zipper α β) (h : ∀ e ∈ z.his, (e.1 : Int) < i64Max) :
    Side z.moveHis.curHis z.moveHis.rHis z.moveHis.his ∧
    pend z.moveHis.curHis z.moveHis.rHis z.moveHis.his = z.his ∧
    z.moveHis.curProps = z.curProps ∧ z.moveHis.rProps = z.rProps ∧ z.moveHis.props = z.props := by
  unfold Zipper.moveHis
  cases hp : z.his with
  | nil => simp [Side, pend]
  | cons e P =>
    obtain ⟨k, x⟩ := e
    have hk := h (k, x) (by rw [hp]; simp)
    simp only at hk
    refine ⟨⟨fun e he => h e (by rw [hp]; simp [he]), Or.inr ⟨x, rfl, by simp, hk⟩⟩, ?_, rfl, rfl, rfl⟩
    simp [pend]

/-- The output after a move. -/
def output (z' : Zipper α β) : Option ((Nat × Option β × Option α) × Zipper α β) :=
  if z'.curProps = z'.curHis then
    if z'.curProps = i64Max then none
    else some ((z'.curProps.toNat, z'.rHis, z'.rProps), z')
  else if z'.curProps < z'.curHis then some ((z'.curProps.toNat, none, z'.rProps), z')
  else some ((z'.curHis.toNat, z'.rHis, none), z')

theorem output_spec (z : Zipper α β) (h : Inv z) :
    (output z = none ∧ merge (pend z.curProps z.rProps z.props) (pend z.curHis z.rHis z.his) = []) ∨
    ∃ x, output z = some (x, z) ∧
      merge (pend z.curProps z.rProps z.props) (pend z.curHis z.rHis z.his) = x :: expected z := by
  obtain ⟨⟨_, h1⟩, ⟨_, h2⟩⟩ := h
  unfold output expected
  rcases h1 with ⟨r1, c1, l1⟩ | ⟨x1, r1, a1, b1⟩ <;> rcases h2 with ⟨r2, c2, l2⟩ | ⟨x2, r2, a2, b2⟩
  · left
    rw [if_pos (by rw [c1, c2]), if_pos c1]
    refine ⟨rfl, ?_⟩
    simp [pend, r1, r2, l1, l2, merge]
  · right
    rw [if_neg (by omega), if_neg (by omega), if_neg (by omega), if_neg (by omega)]
    refine ⟨_, rfl, ?_⟩
    simp [pend, r1, r2, l1, merge_nil_left]
  · right
    rw [if_neg (by omega), if_pos (by omega), if_neg (by omega), if_pos (by omega)]
    refine ⟨_, rfl, ?_⟩
    simp [pend, r1, r2, l2, merge_nil_right]
  · right
    by_cases he : z.curProps = z.curHis
    · rw [if_pos he, if_neg (by omega), if_pos he]
      refine ⟨_, rfl, ?_⟩
      simp [pend, r1, r2, merge, he]
    · by_cases hlt : z.curProps < z.curHis
      · rw [if_neg he, if_pos hlt, if_neg he, if_pos hlt]
        refine ⟨_, rfl, ?_⟩
        simp only [pend, r1, r2]
        rw [merge, if_neg (by omega), if_pos (by omega)]
      · rw [if_neg he, if_neg hlt, if_neg he, if_neg hlt]
        refine ⟨_, rfl, ?_⟩
        simp only [pend, r1, r2]
        rw [merge, if_neg (by omega), if_neg (by omega)]

/-- The state before the first or any later call. -/
def Pre (z : Zipper α β) : Prop :=
  Inv z ∨ (z.curProps = -1 ∧ z.curHis = -1 ∧ (∀ e ∈ z.props, (e.1 : Int) < i64Max) ∧ ∀ e ∈ z.his, (e.1 : Int) < i64Max)

theorem next_spec (z : Zipper α β) (h : Pre z) :
    (z.next = none ∧ expected z = []) ∨ ∃ x z', z.next = some (x, z') ∧ Inv z' ∧ expected z = x :: expected z' := by
  have hP : ∀ e ∈ z.props, (e.1 : Int) < i64Max := by
    rcases h with h | h
    · exact h.1.1
    · exact h.2.2.1
  have hH : ∀ e ∈ z.his, (e.1 : Int) < i64Max := by
    rcases h with h | h
    · exact h.2.1
    · exact h.2.2.2
  by_cases hend : z.curProps = z.curHis ∧ z.curProps = i64Max
  · left
    unfold Zipper.next
    rw [if_pos hend]
    refine ⟨rfl, ?_⟩
    rcases h with h | h
    · obtain ⟨⟨_, h1⟩, ⟨_, h2⟩⟩ := h
      rcases h1 with ⟨r1, c1, l1⟩ | ⟨x1, r1, a1, b1⟩
      · rcases h2 with ⟨r2, c2, l2⟩ | ⟨x2, r2, a2, b2⟩
        · unfold expected
          rw [if_pos hend.1, l1, l2]; simp [merge]
        · omega
      · omega
    · have := hend.2
      rw [h.1] at this
      simp [i64Max] at this
  · generalize hz' : (if z.curProps = z.curHis then z.moveProps.moveHis
      else if z.curProps < z.curHis then z.moveProps else z.moveHis) = z'
    have hn : z.next = output z' := by
      unfold Zipper.next output
      rw [if_neg hend]
      simp only [hz']
    have hz : Inv z' ∧ merge (pend z'.curProps z'.rProps z'.props) (pend z'.curHis z'.rHis z'.his) = expected z := by
      obtain ⟨p1, p2, p3, p4, p5⟩ := moveProps_side z hP
      obtain ⟨q1, q2, q3, q4, q5⟩ := moveHis_side z hH
      by_cases he : z.curProps = z.curHis
      · rw [if_pos he] at hz'
        obtain ⟨s1, s2, s3, s4, s5⟩ := moveHis_side z.moveProps (by rw [p5]; exact hH)
        subst hz'
        unfold Inv expected
        rw [if_pos he, s2, s3, s4, s5, p2, p5]
        exact ⟨⟨p1, s1⟩, rfl⟩
      · rw [if_neg he] at hz'
        have hI : Inv z := by
          rcases h with h | h
          · exact h
          · omega
        by_cases hlt : z.curProps < z.curHis
        · rw [if_pos hlt] at hz'
          subst hz'
          unfold Inv expected
          rw [if_neg he, if_pos hlt, p2, p3, p4, p5]
          exact ⟨⟨p1, hI.2⟩, rfl⟩
        · rw [if_neg hlt] at hz'
          subst hz'
          unfold Inv expected
          rw [if_neg he, if_neg hlt, q2, q3, q4, q5]
          exact ⟨⟨hI.1, q1⟩, rfl⟩
    rw [hn, ← hz.2]
    rcases output_spec z' hz.1 with h1 | ⟨x, h1, h2⟩
    · exact Or.inl h1
    · exact Or.inr ⟨x, z', h1, hz.1, h2⟩

theorem run_expected (fuel : Nat) (z : Zipper α β) (h : Pre z) (hf : (expected z).length ≤ fuel) :
    z.run fuel = expected z := by
  induction fuel generalizing z with
  | zero => simp at hf; rw [hf]; rfl
  | succ f ih =>
    rw [Zipper.run]
    rcases next_spec z h with ⟨h1, h2⟩ | ⟨x, z', h1, h2, h3⟩
    · rw [h1, h2]
    · rw [h1, h3]
      simp only
      rw [ih z' (Or.inl h2) (by rw [h3] at hf; simpa using hf)]

theorem merge_length (P : BMap α) (H : BMap β) : (merge P H).length ≤ P.length + H.length := by
  fun_induction merge P H <;> simp_all <;> omega

theorem zip_eq_merge (P : BMap α) (H : BMap β) (hP : Ordered P) (hH : Ordered H) : zip P H = merge P H := by
  have hlim : ∀ {γ : Type} (m : BMap γ), Ordered m → ∀ e ∈ m, (e.1 : Int) < i64Max := by
    intro γ m hm e he
    have := hm.2 e he
    simp only [i64Max]
    omega
  unfold zip
  rw [run_expected]
  · simp [expected, Zipper.new]
  · right
    exact ⟨rfl, rfl, hlim P hP, hlim H hH⟩
  · simp only [expected, Zipper.new, if_true]
    have := merge_length P H
    omega

/-! The merge -/

theorem get_eq_none_of_lt {γ : Type} (m : BMap γ) (k : Nat) (h : ∀ e ∈ m, k < e.1) : BMap.get m k = none := by
  induction m with
  | nil => rfl
  | cons e m ih =>
    obtain ⟨a, x⟩ := e
    have := h (a, x) (by simp)
    simp only at this
    rw [BMap.get, if_neg (by omega), ih (fun e he => h e (by simp [he]))]

theorem get_head {γ : Type} (m : BMap γ) (k : Nat) (x : γ) : BMap.get ((k, x) :: m) k = some x := by
  rw [BMap.get, if_pos rfl]

theorem ascending_cons {γ : Type} (a : Nat) (x : γ) (m : BMap γ) (h : (((a, x) :: m).map (·.1)).Pairwise (· < ·)) :
    (∀ e ∈ m, a < e.1) ∧ (m.map (·.1)).Pairwise (· < ·) := by
  rw [List.map_cons, List.pairwise_cons] at h
  exact ⟨fun e he => h.1 e.1 (List.mem_map_of_mem he), h.2⟩

theorem get_mem {γ : Type} (m : BMap γ) (h : (m.map (·.1)).Pairwise (· < ·)) (k : Nat) (x : γ) :
    BMap.get m k = some x ↔ (k, x) ∈ m := by
  induction m with
  | nil => simp [BMap.get]
  | cons e m ih =>
    obtain ⟨a, y⟩ := e
    obtain ⟨h1, h2⟩ := ascending_cons a y m h
    rw [BMap.get]
    by_cases ha : a = k
    · subst ha
      rw [if_pos rfl]
      constructor
      · intro hx; cases hx; simp
      · intro hx
        rcases List.mem_cons.1 hx with hx | hx
        · cases hx; rfl
        · have := h1 _ hx
          simp at this
    · rw [if_neg ha, ih h2]
      constructor
      · intro hx; simp [hx]
      · intro hx
        rcases List.mem_cons.1 hx with hx | hx
        · cases hx; exact absurd rfl ha
        · exact hx

theorem merge_keys (P : BMap α) (H : BMap β) (k : Nat) :
    k ∈ (merge P H).map (·.1) → k ∈ P.map (·.1) ∨ k ∈ H.map (·.1) := by
  fun_induction merge P H with
  | case1 H => intro h; right; simpa using h
  | case2 P => intro h; left; simpa using h
  | case3 p P i h H ih =>
    intro hk
    simp only [List.map_cons, List.mem_cons] at hk ih ⊢
    rcases hk with rfl | hk
    · simp
    · rcases ih hk with h | h <;> tauto
  | case4 i p P j h H _ _ ih =>
    intro hk
    simp only [List.map_cons, List.mem_cons] at hk ih ⊢
    rcases hk with rfl | hk
    · simp
    · rcases ih hk with h | h <;> tauto
  | case5 i p P j h H _ _ ih =>
    intro hk
    simp only [List.map_cons, List.mem_cons] at hk ih ⊢
    rcases hk with rfl | hk
    · simp
    · rcases ih hk with h | h <;> tauto

theorem merge_spec (P : BMap α) (H : BMap β) (hP : (P.map (·.1)).Pairwise (· < ·)) (hH : (H.map (·.1)).Pairwise (· < ·)) :
    ((merge P H).map (·.1)).Pairwise (· < ·) ∧
    ∀ k h p, (k, h, p) ∈ merge P H ↔ h = BMap.get H k ∧ p = BMap.get P k ∧ (h ≠ none ∨ p ≠ none) := by
  have hlt : ∀ {γ : Type} (m : BMap γ) (a : Nat), (∀ e ∈ m, a < e.1) → ∀ k ∈ m.map (·.1), a < k := by
    intro γ m a h k hk
    obtain ⟨e, he, rfl⟩ := List.mem_map.1 hk
    exact h e he
  fun_induction merge P H with
  | case1 H =>
    constructor
    · simpa [List.map_map, Function.comp_def] using hH
    · intro k h p
      simp only [List.mem_map, BMap.get, Prod.mk.injEq]
      constructor
      · rintro ⟨e, he, rfl, rfl, rfl⟩
        exact ⟨((get_mem H hH e.1 e.2).2 he).symm, rfl, Or.inl (by simp)⟩
      · rintro ⟨h1, rfl, h3⟩
        cases h with
        | none => simp at h3
        | some x => exact ⟨(k, x), (get_mem H hH k x).1 h1.symm, rfl, rfl, rfl⟩
  | case2 P =>
    constructor
    · simpa [List.map_map, Function.comp_def] using hP
    · intro k h p
      simp only [List.mem_map, BMap.get, Prod.mk.injEq]
      constructor
      · rintro ⟨e, he, rfl, rfl, rfl⟩
        exact ⟨rfl, ((get_mem P hP e.1 e.2).2 he).symm, Or.inr (by simp)⟩
      · rintro ⟨rfl, h2, h3⟩
        cases p with
        | none => simp at h3
        | some x => exact ⟨(k, x), (get_mem P hP k x).1 h2.symm, rfl, rfl, rfl⟩
  | case3 p P i h H ih =>
    obtain ⟨p1, p2⟩ := ascending_cons i p P hP
    obtain ⟨h1, h2⟩ := ascending_cons i h H hH
    obtain ⟨ih1, ih2⟩ := ih p2 h2
    constructor
    · rw [List.map_cons, List.pairwise_cons]
      refine ⟨fun k hk => ?_, ih1⟩
      rcases merge_keys P H k hk with hk | hk
      · exact hlt _ _ p1 k hk
      · exact hlt _ _ h1 k hk
    · intro k h' p'
      rw [List.mem_cons, ih2]
      by_cases hk : k = i
      · subst hk
        rw [get_eq_none_of_lt P k p1, get_eq_none_of_lt H k h1, BMap.get, if_pos rfl, BMap.get, if_pos rfl]
        simp only [Prod.mk.injEq, true_and]
        constructor
        · rintro (⟨rfl, rfl⟩ | ⟨rfl, rfl, h⟩)
          · simp
          · simp at h
        · rintro ⟨rfl, rfl, _⟩; simp
      · rw [BMap.get, if_neg (Ne.symm hk), BMap.get, if_neg (Ne.symm hk)]
        simp [hk]
  | case4 i p P j h H hij hnlt ih =>
    obtain ⟨p1, p2⟩ := ascending_cons i p P hP
    obtain ⟨h1, h2⟩ := ascending_cons j h H hH
    have hjH : ∀ e ∈ ((j, h) :: H), i < e.1 := by
      intro e he
      rcases List.mem_cons.1 he with rfl | he
      · exact hnlt
      · have := h1 e he; omega
    obtain ⟨ih1, ih2⟩ := ih p2 hH
    constructor
    · rw [List.map_cons, List.pairwise_cons]
      refine ⟨fun k hk => ?_, ih1⟩
      rcases merge_keys P _ k hk with hk | hk
      · exact hlt _ _ p1 k hk
      · exact hlt _ _ hjH k hk
    · intro k h' p'
      rw [List.mem_cons, ih2]
      by_cases hk : k = i
      · subst hk
        rw [get_eq_none_of_lt P k p1, get_eq_none_of_lt _ k hjH]
        rw [get_head]
        simp only [Prod.mk.injEq, true_and]
        constructor
        · rintro (⟨rfl, rfl⟩ | ⟨rfl, rfl, h⟩)
          · simp
          · simp at h
        · rintro ⟨rfl, rfl, _⟩; simp
      · have : BMap.get ((i, p) :: P) k = BMap.get P k := by rw [BMap.get, if_neg (Ne.symm hk)]
        rw [this]
        simp [hk]
  | case5 i p P j h H hij hnlt ih =>
    obtain ⟨p1, p2⟩ := ascending_cons i p P hP
    obtain ⟨h1, h2⟩ := ascending_cons j h H hH
    have hiP : ∀ e ∈ ((i, p) :: P), j < e.1 := by
      intro e he
      rcases List.mem_cons.1 he with rfl | he
      · show j < i
        omega
      · have := p1 e he; omega
    obtain ⟨ih1, ih2⟩ := ih hP h2
    constructor
    · rw [List.map_cons, List.pairwise_cons]
      refine ⟨fun k hk => ?_, ih1⟩
      rcases merge_keys _ H k hk with hk | hk
      · exact hlt _ _ hiP k hk
      · exact hlt _ _ h1 k hk
    · intro k h' p'
      rw [List.mem_cons, ih2]
      by_cases hk : k = j
      · subst hk
        rw [get_eq_none_of_lt H k h1, get_eq_none_of_lt _ k hiP]
        rw [get_head]
        simp only [Prod.mk.injEq, true_and]
        constructor
        · rintro (⟨rfl, rfl⟩ | ⟨rfl, rfl, h⟩)
          · simp
          · simp at h
        · rintro ⟨rfl, rfl, _⟩; simp
      · have : BMap.get ((j, h) :: H) k = BMap.get H k := by rw [BMap.get, if_neg (Ne.symm hk)]
        rw [this]
        simp [hk]

end
end Verif.FileHistory
