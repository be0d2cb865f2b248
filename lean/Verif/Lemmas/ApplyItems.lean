import Verif.Model.ApplyItems
import Mathlib.Tactic.ByContra
/-! Helper lemmas: receiving prepared diffs in any order. -/
namespace Verif.ApplyItems

section
variable {S B R : Type}

/-- Apply prepared diffs one by one, then finish. -/
def seqT (F : Fns S B R) (fin : S → Res S) : List R → S → List S × Res S
  | [], s => ([], fin s)
  | d :: ds, s =>
    match F.app s d with
    | .ok s' => let r := seqT F fin ds s'; (s' :: r.1, r.2)
    | .err => ([], .err)
    | .panic => ([], .panic)

theorem applySeveral_spec (F : Fns S B R) (fin : S → Res S) (D : List R) (fuel k : Nat) (map : Nat → Option R) (s : S)
    (hm : ∀ j r, map j = some r → D[j]? = some r) (hf : D.length + 1 ≤ fuel + k) :
    match applySeveral F fuel k map s with
    | (tr, .ok (k', map', s')) =>
      seqT F fin (D.drop k) s = (tr ++ (seqT F fin (D.drop k') s').1, (seqT F fin (D.drop k') s').2) ∧ k ≤ k' ∧
        map' k' = none ∧ (∀ j r, map' j = some r → D[j]? = some r) ∧ ∀ j, k' ≤ j → map' j = map j
    | (tr, .err) => seqT F fin (D.drop k) s = (tr, .err)
    | (tr, .panic) => seqT F fin (D.drop k) s = (tr, .panic) := by
  induction fuel generalizing k map s with
  | zero =>
    simp only [applySeveral, List.nil_append]
    refine ⟨by trivial, Nat.le_refl _, ?_, hm, fun _ _ => by trivial⟩
    cases h : map k with
    | none => rfl
    | some r =>
      have := hm k r h
      rw [List.getElem?_eq_none (by omega)] at this
      cases this
  | succ fuel ih =>
    rw [applySeveral]
    cases h : map k with
    | none =>
      simp only [List.nil_append]
      exact ⟨by trivial, Nat.le_refl _, h, hm, fun _ _ => by trivial⟩
    | some d =>
      have hd := hm k d h
      have hk : k < D.length := by
        by_contra hc
        rw [List.getElem?_eq_none (by omega)] at hd
        cases hd
      have hdrop : D.drop k = d :: D.drop (k + 1) := by
        rw [List.drop_eq_getElem_cons hk]
        rw [List.getElem?_eq_getElem hk] at hd
        rw [Option.some.inj hd]
      simp only
      rw [hdrop, seqT]
      cases ha : F.app s d with
      | err => rfl
      | panic => rfl
      | ok s' =>
        simp only
        have hih := ih (k + 1) (take map k) s' (fun j r hj => by
          unfold take at hj
          split at hj
          · cases hj
          · exact hm j r hj) (by omega)
        cases hr : applySeveral F fuel (k + 1) (take map k) s' with
        | mk tr res =>
          rw [hr] at hih
          cases res with
          | ok x =>
            obtain ⟨k', map', s''⟩ := x
            simp only at hih ⊢
            obtain ⟨h1, h2, h3, h4, h5⟩ := hih
            refine ⟨by rw [h1]; rfl, by omega, h3, h4, fun j hj => ?_⟩
            rw [h5 j hj, take, if_neg (by omega)]
          | err => simp only at hih ⊢; rw [hih]
          | panic => simp only at hih ⊢; rw [hih]

/-- The receiving loop applies the diffs in the order of the files, whatever the order of arrival. -/
theorem receive_spec (F : Fns S B R) (stuck : Res S) (D : List R) (n : Nat) (hn : D.length ≤ n) (arr : List (Nat × R)) (cnt k : Nat)
    (map : Nat → Option R) (s : S) (hm : ∀ j r, map j = some r → D[j]? = some r) (hk : map k = none)
    (ha : ∀ x ∈ arr, D[x.1]? = some x.2) (hall : ∀ j, j < D.length → j < k ∨ map j ≠ none ∨ j ∈ arr.map (·.1))
    (hc : cnt + D.length = n + arr.length) :
    receive F (n + 1) stuck cnt arr k map s =
      seqT F (fun s => if D.length = n then .ok s else stuck) (D.drop k) s := by
  induction arr generalizing cnt k map s with
  | nil =>
    have hkl : D.length ≤ k := by
      by_contra hlt
      rcases hall k (by omega) with h | h | h
      · omega
      · exact h hk
      · cases h
    rw [List.drop_eq_nil_of_le hkl, seqT]
    simp only [List.length_nil] at hc
    cases cnt with
    | zero => rw [receive, if_pos (by omega)]
    | succ c => rw [receive, if_neg (by omega)]
  | cons x arr ih =>
    obtain ⟨i, d⟩ := x
    have hcl : ∃ c, cnt = c + 1 := by
      cases cnt with
      | zero =>
        simp only [List.length_cons] at hc
        omega
      | succ c => exact ⟨c, rfl⟩
    obtain ⟨c, rfl⟩ := hcl
    rw [receive]
    have hd := ha (i, d) (by simp)
    have hm' : ∀ j r, put map i d j = some r → D[j]? = some r := by
      intro j r hj
      unfold put at hj
      split at hj
      · rename_i he
        cases hj
        rw [he]; exact hd
      · exact hm j r hj
    have hsp := applySeveral_spec F (fun s => if D.length = n then .ok s else stuck) D (n + 1) k (put map i d) s hm' (by omega)
    cases hr : applySeveral F (n + 1) k (put map i d) s with
    | mk tr res =>
      rw [hr] at hsp
      cases res with
      | ok y =>
        obtain ⟨k', map', s'⟩ := y
        simp only at hsp ⊢
        obtain ⟨h1, h2, h3, h4, h5⟩ := hsp
        rw [h1]
        rw [ih c k' map' s' h4 h3 (fun x hx => ha x (by simp [hx])) ?_ (by simp only [List.length_cons] at hc; omega)]
        intro j hj
        by_cases hjk : j < k'
        · exact Or.inl hjk
        · rcases hall j hj with h | h | h
          · omega
          · refine Or.inr (Or.inl ?_)
            rw [h5 j (by omega), put]
            split
            · simp
            · exact h
          · simp only [List.map_cons, List.mem_cons] at h
            rcases h with h | h
            · refine Or.inr (Or.inl ?_)
              rw [h5 j (by omega), put, if_pos h]
              simp
            · exact Or.inr (Or.inr h)
      | err => simp only at hsp ⊢; rw [hsp]
      | panic => simp only at hsp ⊢; rw [hsp]

/-- With every diff preparable, the diffs sent are those of the files, numbered. -/
theorem sent_eq (F : Fns S B R) (bs : List B) (hp : ∀ b ∈ bs, ∃ r, F.prep b = .ok r) :
    ∃ D : List R, D.length = bs.length ∧ (∀ (j : Nat) b, bs[j]? = some b → ∃ r, D[j]? = some r ∧ F.prep b = .ok r) ∧
      ∀ i, (∀ x ∈ sent F bs i, i ≤ x.1 ∧ D[x.1 - i]? = some x.2) ∧ (sent F bs i).length = D.length ∧
        ∀ j, j < D.length → j + i ∈ (sent F bs i).map (·.1) := by
  induction bs with
  | nil => exact ⟨[], rfl, by simp, by simp [sent]⟩
  | cons b bs ih =>
    obtain ⟨D, h1, h2, h3⟩ := ih (fun x hx => hp x (by simp [hx]))
    obtain ⟨r, hr⟩ := hp b (by simp)
    refine ⟨r :: D, by simp [h1], ?_, ?_⟩
    · intro j c hj
      cases j with
      | zero =>
        simp only [List.getElem?_cons_zero, Option.some.injEq] at hj
        subst hj
        exact ⟨r, by simp, hr⟩
      | succ j =>
        simp only [List.getElem?_cons_succ] at hj ⊢
        exact h2 j c hj
    · intro i
      rw [sent, hr]
      simp only
      obtain ⟨g1, g2, g3⟩ := h3 (i + 1)
      refine ⟨?_, by simp [g2], ?_⟩
      · intro x hx
        simp only [List.mem_cons] at hx
        rcases hx with rfl | hx
        · simp
        · have := g1 x hx
          refine ⟨by omega, ?_⟩
          have he : x.1 - i = (x.1 - (i + 1)) + 1 := by omega
          rw [he, List.getElem?_cons_succ]
          exact this.2
      · intro j hj
        cases j with
        | zero => simp
        | succ j =>
          have := g3 j (by simp only [List.length_cons] at hj; omega)
          simp only [List.map_cons, List.mem_cons]
          right
          have he : j + 1 + i = j + (i + 1) := by omega
          rw [he]; exact this

theorem readable_length (files : List (Option B)) : (readable files).length ≤ files.length := by
  induction files with
  | nil => simp [readable]
  | cons f rest ih =>
    cases f with
    | none => simp [readable]
    | some b => simp [readable, ih]

theorem applySt_eq (F : Fns S B R) (files : List (Option B)) (D : List R) (hl : D.length = (readable files).length)
    (hD : ∀ (j : Nat) b, (readable files)[j]? = some b → ∃ r, D[j]? = some r ∧ F.prep b = .ok r) (s : S) :
    applySt F files s = seqT F (fun s => if D.length = files.length then .ok s else .err) D s := by
  induction files generalizing D s with
  | nil =>
    simp only [readable, List.length_nil, List.length_eq_zero_iff] at hl
    subst hl
    simp [applySt, seqT]
  | cons f rest ih =>
    cases f with
    | none =>
      simp only [readable, List.length_nil, List.length_eq_zero_iff] at hl
      subst hl
      simp [applySt, seqT]
    | some b =>
      simp only [readable] at hl hD
      cases D with
      | nil => simp at hl
      | cons d D =>
        obtain ⟨r, hr, hb⟩ := hD 0 b (by simp)
        simp only [List.getElem?_cons_zero, Option.some.injEq] at hr
        subst hr
        rw [applySt, hb, Res.bind_ok, seqT]
        have := fun s => ih D (by simpa using hl) (fun j b hj => by
          obtain ⟨r, h1, h2⟩ := hD (j + 1) b (by simpa using hj)
          exact ⟨r, by simpa using h1, h2⟩) s
        cases F.app s d with
        | ok s' =>
          simp only [List.length_cons, Nat.add_right_cancel_iff]
          rw [this s']
        | err => rfl
        | panic => rfl

/-- The loop cannot end well before every awaited message came. -/
theorem receive_count (F : Fns S B R) (fuel : Nat) (stuck : Res S) (hs : ∀ x, stuck ≠ .ok x) (arr : List (Nat × R)) (cnt k : Nat)
    (map : Nat → Option R) (s x : S) (h : (receive F fuel stuck cnt arr k map s).2 = .ok x) : cnt ≤ arr.length := by
  induction arr generalizing cnt k map s with
  | nil =>
    cases cnt with
    | zero => simp
    | succ c => exact absurd h (hs x)
  | cons y arr ih =>
    cases cnt with
    | zero => simp
    | succ c =>
      obtain ⟨i, d⟩ := y
      rw [receive] at h
      cases hr : applySeveral F fuel k (put map i d) s with
      | mk tr res =>
        rw [hr] at h
        cases res with
        | ok z =>
          have := ih c _ _ _ h
          simp only [List.length_cons]
          omega
        | err => cases h
        | panic => cases h

theorem sent_length (F : Fns S B R) (bs : List B) (i : Nat) :
    (sent F bs i).length ≤ bs.length ∧ ((sent F bs i).length = bs.length → ∀ b ∈ bs, ∃ r, F.prep b = .ok r) := by
  induction bs generalizing i with
  | nil => simp [sent]
  | cons b bs ih =>
    rw [sent]
    obtain ⟨h1, h2⟩ := ih (i + 1)
    cases hb : F.prep b with
    | ok r =>
      simp only [List.length_cons]
      refine ⟨by omega, fun h c hc => ?_⟩
      simp only [List.mem_cons] at hc
      rcases hc with rfl | hc
      · exact ⟨r, hb⟩
      · exact h2 (by omega) c hc
    | err =>
      simp only [List.length_cons]
      exact ⟨by omega, fun h => by omega⟩
    | panic =>
      simp only [List.length_cons]
      exact ⟨by omega, fun h => by omega⟩

/-- Sequential loading succeeds only if every diff can be prepared. -/
theorem applySt_preparable (F : Fns S B R) (files : List (Option B)) (s x : S) (h : (applySt F files s).2 = .ok x) :
    Preparable F files := by
  induction files generalizing s with
  | nil => intro b hb; simp [readable] at hb
  | cons f rest ih =>
    cases f with
    | none => cases h
    | some b =>
      rw [applySt] at h
      cases hb : F.prep b with
      | err => rw [hb] at h; cases h
      | panic => rw [hb] at h; cases h
      | ok r =>
        rw [hb, Res.bind_ok] at h
        cases ha : F.app s r with
        | err => rw [ha] at h; cases h
        | panic => rw [ha] at h; cases h
        | ok s' =>
          rw [ha] at h
          intro c hc
          simp only [readable, List.mem_cons] at hc
          rcases hc with rfl | hc
          · exact ⟨r, hb⟩
          · exact ih s' h c hc

end
end Verif.ApplyItems
