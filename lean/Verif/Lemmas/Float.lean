import Verif.Spec.Float
import Verif.Model.Source
import Verif.Model.Compaction
import Mathlib.Tactic.Ring
import Mathlib.Tactic.Linarith
import Mathlib.Algebra.Order.Ring.Abs

namespace Verif.Float

/-- the parts of composed bits -/
theorem read_mk (F : Format) (s : Bool) (E M : Nat) (hE : E < 2 ^ F.w) (hM : M < 2 ^ F.p) :
    F.read ((if s then 2 ^ (F.p + F.w) else 0) + (E * 2 ^ F.p + M)) =
      if E = 2 ^ F.w - 1 then (if M = 0 then .inf s else .nan) else if E = 0 then .fin s M 0 else .fin s (2 ^ F.p + M) (E - 1) := by
  have hp : 0 < 2 ^ F.p := Nat.two_pow_pos _
  have hlow : E * 2 ^ F.p + M < 2 ^ (F.p + F.w) := by
    rw [Nat.pow_add, Nat.mul_comm (2 ^ F.p)]
    calc E * 2 ^ F.p + M < (E + 1) * 2 ^ F.p := by rw [Nat.add_mul]; omega
      _ ≤ 2 ^ F.w * 2 ^ F.p := Nat.mul_le_mul_right _ hE
  have h1 : ((if s then 2 ^ (F.p + F.w) else 0) + (E * 2 ^ F.p + M)) / 2 ^ (F.p + F.w) % 2 = if s then 1 else 0 := by
    cases s
    · simp [Nat.div_eq_of_lt hlow]
    · simp only [if_true]
      rw [Nat.add_div_left _ (Nat.two_pow_pos _), Nat.div_eq_of_lt hlow]
  have hsp : ∃ t, (if s then 2 ^ (F.p + F.w) else 0) = t * 2 ^ F.w * 2 ^ F.p := by
    cases s
    · exact ⟨0, by simp⟩
    · exact ⟨1, by rw [Nat.pow_add]; simp [Nat.mul_comm]⟩
  obtain ⟨t, ht⟩ := hsp
  have h2 : ((if s then 2 ^ (F.p + F.w) else 0) + (E * 2 ^ F.p + M)) / 2 ^ F.p % 2 ^ F.w = E := by
    rw [ht, ← Nat.add_assoc, ← Nat.add_mul, Nat.add_comm _ M, Nat.add_mul_div_right _ _ hp, Nat.div_eq_of_lt hM, Nat.zero_add,
      Nat.add_comm, Nat.add_mul_mod_self_right, Nat.mod_eq_of_lt hE]
  have h3 : ((if s then 2 ^ (F.p + F.w) else 0) + (E * 2 ^ F.p + M)) % 2 ^ F.p = M := by
    rw [ht, ← Nat.add_assoc, ← Nat.add_mul, Nat.add_comm _ M, Nat.add_mul_mod_self_right, Nat.mod_eq_of_lt hM]
  unfold Format.read
  simp only [h1, h2, h3]
  cases s <;> rfl

/-- Finite floats of at least `2 ^ (p + j)` units are multiples of `2 ^ j` units. -/
theorem units_grid (F : Format) (c : Nat) (u : Int) (h : (F.read c).units = some u) (j : Nat) (hu : (2 : Int) ^ (F.p + j) ≤ |u|) :
    ∃ z : Int, u = z * 2 ^ j := by
  have key : ∀ (neg : Bool) (m e : Nat), (m < 2 ^ F.p ∧ e = 0 ∨ m < 2 ^ (F.p + 1)) →
      (if neg then -((m : Int) * 2 ^ e) else (m : Int) * 2 ^ e) = u → (m < 2 ^ F.p → e = 0) → ∃ z : Int, u = z * 2 ^ j := by
    intro neg m e hm h h0
    have hnn : (0 : Int) ≤ (m : Int) * 2 ^ e := by positivity
    have habs : |u| = (m : Int) * 2 ^ e := by
      rw [← h]
      split
      · rw [abs_neg, abs_of_nonneg hnn]
      · rw [abs_of_nonneg hnn]
    by_cases hje : j ≤ e
    · refine ⟨(if neg then -(m : Int) else m) * 2 ^ (e - j), ?_⟩
      rw [mul_assoc, ← pow_add, Nat.sub_add_cancel hje, ← h]
      split
      · rw [neg_mul]
      · rfl
    · exfalso
      rw [habs] at hu
      have h2 : (0 : Int) < 2 ^ e := by positivity
      have hlt : (m : Int) * 2 ^ e < 2 ^ (F.p + j) := by
        rcases hm with ⟨h1, rfl⟩ | h1
        · have h1' : (m : Int) < 2 ^ F.p := by exact_mod_cast h1
          have : (2 : Int) ^ F.p ≤ 2 ^ (F.p + j) := pow_le_pow_right₀ (by norm_num) (by omega)
          rw [pow_zero, mul_one]
          omega
        · have h1' : (m : Int) < 2 ^ (F.p + 1) := by exact_mod_cast h1
          calc (m : Int) * 2 ^ e < 2 ^ (F.p + 1) * 2 ^ e := by nlinarith
            _ = 2 ^ (F.p + 1 + e) := by rw [← pow_add]
            _ ≤ 2 ^ (F.p + j) := pow_le_pow_right₀ (by norm_num) (by omega)
      omega
  unfold Format.read at h
  simp only at h
  have hM : c % 2 ^ F.p < 2 ^ F.p := Nat.mod_lt _ (Nat.two_pow_pos _)
  split at h
  · split at h <;> cases h
  · split at h
    · simp only [Kind.units, Option.some.injEq] at h
      exact key _ _ _ (Or.inl ⟨hM, rfl⟩) h (fun _ => rfl)
    · simp only [Kind.units, Option.some.injEq] at h
      exact key _ _ _ (Or.inr (by rw [pow_succ]; omega)) h (fun h => by omega)

/-- the nearest integer, ties to even, is the nearest -/
theorem round_nearest (x K q z : Int) (hK : 0 < K) (hq : 2 * |x - q * K| ≤ K) (hev : 2 * |x - q * K| = K → q % 2 = 0) :
    |x - q * K| ≤ |x - z * K| ∧ (|x - q * K| = |x - z * K| → z ≠ q → q % 2 = 0) := by
  by_cases hz : z = q
  · subst hz
    exact ⟨le_refl _, fun _ h => absurd rfl h⟩
  · have h1 : K ≤ |(q - z) * K| := by
      rw [abs_mul, abs_of_pos hK]
      have : 1 ≤ |q - z| := Int.one_le_abs (by omega)
      nlinarith
    have h2 : |(q - z) * K| ≤ |x - z * K| + |x - q * K| := by
      have : (q - z) * K = (x - z * K) - (x - q * K) := by ring
      rw [this]
      exact abs_sub _ _
    exact ⟨by omega, fun heq _ => hev (by omega)⟩

/-- A number rounded to `p + 1` digits is the nearest float. -/
theorem nearest_of_round (F : Format) (B : Nat) (hB : 2 ^ (F.w - 1) = B + 1) (hw : 2 ^ F.w = 2 * B + 2) (hp : 1 ≤ F.p) (s : Bool) (n k q : Nat)
    (hk : k + 1 ≤ B) (hn : 2 ^ k ≤ n) (hq1 : 2 ^ F.p ≤ q) (hq2 : q ≤ 2 ^ (F.p + 1))
    (hq : 2 * |(n : Int) * 2 ^ F.p - q * 2 ^ k| ≤ 2 ^ k) (hev : 2 * |(n : Int) * 2 ^ F.p - q * 2 ^ k| = 2 ^ k → q % 2 = 0) :
    Nearest F ((if s then -(n : Int) else n) * F.one) ((if s then 2 ^ (F.p + F.w) else 0) + ((k + B - 1) * 2 ^ F.p + q)) := by
  have hp0 : 0 < 2 ^ F.p := Nat.two_pow_pos _
  have hpe : 2 ^ F.p = 2 * 2 ^ (F.p - 1) := by rw [← pow_succ']; congr 1; omega
  have hps : 2 ^ (F.p + 1) = 2 * 2 ^ F.p := by rw [pow_succ']
  -- the value
  have hread : (F.read ((if s then 2 ^ (F.p + F.w) else 0) + ((k + B - 1) * 2 ^ F.p + q))).units =
      some (if s then -((q : Int) * 2 ^ (k + B - 1)) else (q : Int) * 2 ^ (k + B - 1)) := by
    rcases Nat.lt_or_ge q (2 ^ (F.p + 1)) with hlt | hge
    · have he : (k + B - 1) * 2 ^ F.p + q = (k + B) * 2 ^ F.p + (q - 2 ^ F.p) := by
        obtain ⟨j, hj⟩ : ∃ j, k + B = j + 1 := ⟨k + B - 1, by omega⟩
        rw [hj, Nat.add_sub_cancel, Nat.add_mul]
        omega
      rw [he, read_mk F s _ _ (by omega) (by omega), if_neg (by omega), if_neg (by omega), Nat.add_sub_cancel' hq1]
      rfl
    · have hqe : q = 2 ^ (F.p + 1) := by omega
      have he : (k + B - 1) * 2 ^ F.p + q = (k + B + 1) * 2 ^ F.p + 0 := by
        obtain ⟨j, hj⟩ : ∃ j, k + B = j + 1 := ⟨k + B - 1, by omega⟩
        rw [hj, Nat.add_sub_cancel, Nat.add_assoc, Nat.add_mul]
        omega
      rw [he, read_mk F s _ _ (by omega) (by omega), if_neg (by omega), if_neg (by omega)]
      have hv : ((2 ^ F.p + 0 : Nat) : Int) * 2 ^ (k + B + 1 - 1) = (q : Int) * 2 ^ (k + B - 1) := by
        have : k + B + 1 - 1 = (k + B - 1) + 1 := by omega
        rw [hqe, this, pow_succ, Nat.add_zero, hps]
        push_cast
        ring
      simp only [Kind.units, hv]
  refine ⟨_, hread, fun c u hu => ?_⟩
  have hbits : ((if s then 2 ^ (F.p + F.w) else 0) + ((k + B - 1) * 2 ^ F.p + q)) % 2 = q % 2 := by
    have h1 : (if s then 2 ^ (F.p + F.w) else 0) % 2 = 0 := by
      split
      · rw [pow_add, hpe, Nat.mul_assoc]; omega
      · rfl
    have h2 : (k + B - 1) * 2 ^ F.p % 2 = 0 := by rw [hpe, Nat.mul_left_comm]; omega
    omega
  rw [hbits]
  have hone : (F.one : Int) = 2 ^ F.p * 2 ^ (B - 1) := by
    unfold Format.one
    rw [hB]
    push_cast
    rw [← pow_add]
    congr 1
    omega
  have hpk : (2 : Int) ^ (k + B - 1) = 2 ^ k * 2 ^ (B - 1) := by
    rw [← pow_add]
    congr 1
    omega
  have hT : (0 : Int) < 2 ^ (B - 1) := by positivity
  have hK : (0 : Int) < 2 ^ k := by positivity
  -- without the sign
  obtain ⟨u', hu', hgrid⟩ : ∃ u' : Int, u = (if s then -u' else u') ∧ ((2 : Int) ^ (F.p + (k + B - 1)) ≤ u' → ∃ z : Int, u' = z * 2 ^ (k + B - 1)) := by
    refine ⟨if s then -u else u, by cases s <;> simp, fun h => ?_⟩
    have hpos : (0 : Int) < 2 ^ (F.p + (k + B - 1)) := by positivity
    obtain ⟨z, hz⟩ := units_grid F c u hu (k + B - 1) (by
      refine le_trans h ?_
      cases s
      · exact le_abs_self _
      · exact neg_le_abs _)
    refine ⟨if s then -z else z, ?_⟩
    rw [hz]
    cases s <;> simp
  have hsgn : ∀ a b : Int, |(if s then -a else a) - (if s then -b else b)| = |a - b| := by
    intro a b
    cases s
    · simp
    · simp only [if_true]
      rw [← abs_neg]
      congr 1
      ring
  have hx : (if s then -(n : Int) else n) * F.one = if s then -((n : Int) * F.one) else (n : Int) * F.one := by
    cases s <;> simp
  have hne : u ≠ (if s then -((q : Int) * 2 ^ (k + B - 1)) else (q : Int) * 2 ^ (k + B - 1)) ↔ u' ≠ (q : Int) * 2 ^ (k + B - 1) := by
    rw [hu']
    cases s <;> simp
  rw [hx, hne, hu', hsgn, hsgn]
  have hd : ∀ z : Int, (n : Int) * F.one - z * 2 ^ (k + B - 1) = ((n : Int) * 2 ^ F.p - z * 2 ^ k) * 2 ^ (B - 1) := by
    intro z
    rw [hone, hpk]
    ring
  by_cases hbig : (2 : Int) ^ (F.p + (k + B - 1)) ≤ u'
  · obtain ⟨z, rfl⟩ := hgrid hbig
    obtain ⟨h1, h2⟩ := round_nearest ((n : Int) * 2 ^ F.p) (2 ^ k) q z hK hq (fun h => by have := hev h; omega)
    rw [hd, hd, abs_mul, abs_mul, abs_of_pos hT]
    refine ⟨mul_le_mul_of_nonneg_right h1 hT.le, fun heq hzq => ?_⟩
    have heq' := mul_right_cancel₀ hT.ne' heq
    have := h2 heq' (fun hc => hzq (by rw [hc]))
    omega
  · -- numbers below the power of two
    obtain ⟨h1, _⟩ := round_nearest ((n : Int) * 2 ^ F.p) (2 ^ k) q (2 ^ F.p) hK hq (fun h => by have := hev h; omega)
    have hpw : (2 : Int) ^ (F.p + (k + B - 1)) = 2 ^ F.p * 2 ^ (k + B - 1) := pow_add _ _ _
    have hle : |(n : Int) * F.one - q * 2 ^ (k + B - 1)| ≤ (n : Int) * F.one - 2 ^ (F.p + (k + B - 1)) := by
      have hge : (0 : Int) ≤ ((n : Int) * 2 ^ F.p - 2 ^ F.p * 2 ^ k) := by
        have : (2 : Int) ^ k ≤ n := by exact_mod_cast hn
        have : (0 : Int) < 2 ^ F.p := by positivity
        nlinarith
      rw [hpw, hd, hd, abs_mul, abs_of_pos hT]
      refine mul_le_mul_of_nonneg_right ?_ hT.le
      rw [abs_of_nonneg hge] at h1
      exact h1
    have hlt : (n : Int) * F.one - 2 ^ (F.p + (k + B - 1)) < |(n : Int) * F.one - u'| :=
      lt_of_lt_of_le (by omega) (le_abs_self _)
    exact ⟨by omega, fun heq => by omega⟩

end Verif.Float
