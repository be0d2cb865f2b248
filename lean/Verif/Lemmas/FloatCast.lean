import Verif.Lemmas.Float

/-! The casts of the model are the casts of the specification. -/

namespace Verif.Float
open Compaction (Fmt)

/-- The quotient of a number by its power of two, rounded to `p + 1` digits. -/
def rounded (p n : Nat) : Nat :=
  if n.log2 ≤ p then n * 2 ^ (p - n.log2)
  else if 2 ^ (n.log2 - p - 1) < n % 2 ^ (n.log2 - p) ∨ (n % 2 ^ (n.log2 - p) = 2 ^ (n.log2 - p - 1) ∧ n / 2 ^ (n.log2 - p) % 2 = 1) then
    n / 2 ^ (n.log2 - p) + 1
  else n / 2 ^ (n.log2 - p)

theorem rounded_spec (p n : Nat) (hn : n ≠ 0) : 2 ^ n.log2 ≤ n ∧ 2 ^ p ≤ rounded p n ∧ rounded p n ≤ 2 ^ (p + 1) ∧
    2 * |(n : Int) * 2 ^ p - rounded p n * 2 ^ n.log2| ≤ 2 ^ n.log2 ∧
    (2 * |(n : Int) * 2 ^ p - rounded p n * 2 ^ n.log2| = 2 ^ n.log2 → rounded p n % 2 = 0) := by
  have h1 : 2 ^ n.log2 ≤ n := Nat.log2_self_le hn
  have h2 : n < 2 ^ (n.log2 + 1) := (Nat.log2_lt hn).1 (by omega)
  refine ⟨h1, ?_⟩
  unfold rounded
  generalize n.log2 = k at h1 h2
  have hk0 : (0 : Int) < 2 ^ k := by positivity
  split
  · rename_i hle
    have hpk : 2 ^ p = 2 ^ k * 2 ^ (p - k) := by rw [← pow_add]; congr 1; omega
    have hT : 0 < 2 ^ (p - k) := Nat.two_pow_pos _
    have hz : (n : Int) * 2 ^ p - (n * 2 ^ (p - k) : Nat) * 2 ^ k = 0 := by
      have : (2 : Int) ^ p = 2 ^ k * 2 ^ (p - k) := by exact_mod_cast hpk
      rw [this]
      push_cast
      ring
    refine ⟨?_, ?_, ?_, ?_⟩
    · rw [hpk]; exact Nat.mul_le_mul_right _ h1
    · rw [pow_succ, hpk, Nat.mul_right_comm, ← pow_succ]
      exact Nat.mul_le_mul_right _ h2.le
    · rw [hz]; simp
    · rw [hz]
      intro h
      simp only [abs_zero, mul_zero] at h
      exact absurd h.symm hk0.ne'
  · rename_i hgt
    obtain ⟨sh, rfl⟩ : ∃ sh, k = p + sh + 1 := ⟨k - p - 1, by omega⟩
    have e1 : p + sh + 1 - p = sh + 1 := by omega
    rw [e1, Nat.add_sub_cancel]
    have hD : 2 ^ (sh + 1) = 2 * 2 ^ sh := pow_succ' _ _
    have hd0 : 0 < 2 ^ sh := Nat.two_pow_pos _
    have hdm := Nat.div_add_mod n (2 ^ (sh + 1))
    have hr := Nat.mod_lt n (Nat.two_pow_pos (sh + 1))
    generalize n / 2 ^ (sh + 1) = q at hdm
    generalize n % 2 ^ (sh + 1) = r at hdm hr
    have hkD : 2 ^ (p + sh + 1) = 2 ^ p * 2 ^ (sh + 1) := by rw [← pow_add]; congr 1
    have hkD2 : 2 ^ (p + sh + 1 + 1) = 2 ^ (p + 1) * 2 ^ (sh + 1) := by rw [← pow_add]; congr 1; omega
    have hq1 : 2 ^ p ≤ q := by
      by_contra hc
      have : (q + 1) * 2 ^ (sh + 1) ≤ 2 ^ p * 2 ^ (sh + 1) := Nat.mul_le_mul_right _ (by omega)
      rw [Nat.add_mul, Nat.mul_comm q] at this
      omega
    have hq2 : q < 2 ^ (p + 1) := by
      by_contra hc
      have : 2 ^ (p + 1) * 2 ^ (sh + 1) ≤ q * 2 ^ (sh + 1) := Nat.mul_le_mul_right _ (by omega)
      rw [Nat.mul_comm q] at this
      omega
    have hP : (0 : Int) < 2 ^ p := by positivity
    have hdist : ∀ z : Nat, (n : Int) * 2 ^ p - z * 2 ^ (p + sh + 1) = ((n : Int) - z * 2 ^ (sh + 1)) * 2 ^ p := by
      intro z
      have : (2 : Int) ^ (p + sh + 1) = 2 ^ p * 2 ^ (sh + 1) := by exact_mod_cast hkD
      rw [this]
      ring
    have hkDi : (2 : Int) ^ (p + sh + 1) = 2 ^ (sh + 1) * 2 ^ p := by rw [← pow_add]; congr 1; omega
    have hni : (n : Int) = 2 ^ (sh + 1) * q + r := by exact_mod_cast hdm.symm
    have hDi : (2 : Int) ^ (sh + 1) = 2 * 2 ^ sh := pow_succ' _ _
    have hd0i : (0 : Int) < 2 ^ sh := by positivity
    have hri : (r : Int) < 2 * 2 ^ sh := by rw [← hDi]; exact_mod_cast hr
    have red : ∀ z : Nat, 2 * |(n : Int) - z * 2 ^ (sh + 1)| ≤ 2 ^ (sh + 1) →
        2 * |(n : Int) * 2 ^ p - z * 2 ^ (p + sh + 1)| ≤ 2 ^ (p + sh + 1) := by
      intro z h
      rw [hdist, hkDi, abs_mul, abs_of_pos hP, ← mul_assoc]
      exact mul_le_mul_of_nonneg_right h hP.le
    have red2 : ∀ z : Nat, 2 * |(n : Int) * 2 ^ p - z * 2 ^ (p + sh + 1)| = 2 ^ (p + sh + 1) →
        2 * |(n : Int) - z * 2 ^ (sh + 1)| = 2 ^ (sh + 1) := by
      intro z h
      rw [hdist, hkDi, abs_mul, abs_of_pos hP, ← mul_assoc] at h
      exact mul_right_cancel₀ hP.ne' h
    split
    · rename_i hc
      have hv : (n : Int) - (q + 1 : Nat) * 2 ^ (sh + 1) = -(2 * 2 ^ sh - r) := by
        rw [hni, hDi]
        push_cast
        ring
      have hge : 2 ^ sh ≤ r := by omega
      have hgei : (2 : Int) ^ sh ≤ r := by exact_mod_cast hge
      have ha : |(n : Int) - (q + 1 : Nat) * 2 ^ (sh + 1)| = 2 * 2 ^ sh - r := by
        rw [hv, abs_neg, abs_of_nonneg (by omega)]
      refine ⟨by omega, by omega, red _ (by rw [ha, hDi]; omega), fun h => ?_⟩
      have := red2 _ h
      rw [ha, hDi] at this
      have : (r : Int) = 2 ^ sh := by omega
      have : r = 2 ^ sh := by exact_mod_cast this
      omega
    · rename_i hc
      have hv : (n : Int) - q * 2 ^ (sh + 1) = r := by
        rw [hni]
        ring
      have hle : r ≤ 2 ^ sh := by omega
      have hlei : (r : Int) ≤ 2 ^ sh := by exact_mod_cast hle
      have ha : |(n : Int) - q * 2 ^ (sh + 1)| = r := by
        rw [hv, abs_of_nonneg (by omega)]
      refine ⟨by omega, by omega, red _ (by rw [ha, hDi]; omega), fun h => ?_⟩
      have := red2 _ h
      rw [ha, hDi] at this
      have : (r : Int) = 2 ^ sh := by omega
      have : r = 2 ^ sh := by exact_mod_cast this
      omega

theorem ofNat_eq (F : Fmt) (B : Nat) (hB : 2 ^ (F.w - 1) = B + 1) (n : Nat) (hn : n ≠ 0) (h1 : 1 ≤ B) :
    F.ofNat n = (n.log2 + B - 1) * 2 ^ F.p + rounded F.p n := by
  obtain ⟨_, hr, _⟩ := rounded_spec F.p n hn
  unfold Fmt.ofNat Fmt.bias
  rw [if_neg hn, hB]
  have : (n.log2 + (B + 1 - 1)) * 2 ^ F.p = (n.log2 + B - 1) * 2 ^ F.p + 2 ^ F.p := by
    rw [Nat.add_sub_cancel, ← Nat.succ_mul]
    congr 1
    omega
  show (n.log2 + (B + 1 - 1)) * 2 ^ F.p + (rounded F.p n - 2 ^ F.p) = _
  omega

theorem ofInt_nearest (F : Fmt) (B : Nat) (hB : 2 ^ (F.w - 1) = B + 1) (hw : 2 ^ F.w = 2 * B + 2) (hp : 1 ≤ F.p) (i : Int)
    (hi : i.natAbs.log2 + 1 ≤ B) (h0 : i ≠ 0) : Nearest ⟨F.p, F.w⟩ (i * (Format.mk F.p F.w).one) (F.ofInt i) := by
  have hn : i.natAbs ≠ 0 := by omega
  obtain ⟨r1, r2, r3, r4, r5⟩ := rounded_spec F.p i.natAbs hn
  have key := nearest_of_round ⟨F.p, F.w⟩ B hB hw hp (decide (i < 0)) i.natAbs i.natAbs.log2 (rounded F.p i.natAbs) hi r1 r2 r3 r4 r5
  unfold Fmt.ofInt
  by_cases hneg : i < 0
  · simp only [hneg, decide_true, if_true] at key ⊢
    have e1 : (-i).toNat = i.natAbs := by omega
    have e2 : -((i.natAbs : Nat) : Int) = i := by omega
    rw [e1, ofNat_eq F B hB _ hn (by omega)]
    rw [e2] at key
    exact key
  · simp only [hneg, decide_false, Bool.false_eq_true, if_false, Nat.zero_add] at key ⊢
    have e1 : i.toNat = i.natAbs := by omega
    have e2 : ((i.natAbs : Nat) : Int) = i := by omega
    rw [e1, ofNat_eq F B hB _ hn (by omega)]
    rw [e2] at key
    exact key

/-- the bits fit into the format -/
theorem ofInt_lt (F : Fmt) (B : Nat) (hB : 2 ^ (F.w - 1) = B + 1) (hw : 2 ^ F.w = 2 * B + 2) (i : Int)
    (hi : i.natAbs.log2 + 1 ≤ B) (h0 : i ≠ 0) : F.ofInt i < 2 ^ (F.p + F.w + 1) := by
  have hn : i.natAbs ≠ 0 := by omega
  obtain ⟨r1, r2, r3, r4, r5⟩ := rounded_spec F.p i.natAbs hn
  have h1 : F.ofNat i.natAbs < 2 ^ (F.p + F.w) := by
    rw [ofNat_eq F B hB _ hn (by omega), pow_add, Nat.mul_comm (2 ^ F.p), hw]
    have h2 : (i.natAbs.log2 + B - 1) * 2 ^ F.p + 2 * 2 ^ F.p = (i.natAbs.log2 + B - 1 + 2) * 2 ^ F.p := by rw [Nat.add_mul]
    have h3 : (i.natAbs.log2 + B - 1 + 2) * 2 ^ F.p < (2 * B + 2) * 2 ^ F.p :=
      Nat.mul_lt_mul_of_pos_right (by omega) (Nat.two_pow_pos _)
    rw [pow_succ'] at r3
    omega
  have e : 2 ^ (F.p + F.w + 1) = 2 ^ (F.p + F.w) + 2 ^ (F.p + F.w) := by rw [pow_succ]; omega
  unfold Fmt.ofInt
  split
  · have : (-i).toNat = i.natAbs := by omega
    rw [this]; omega
  · have : i.toNat = i.natAbs := by omega
    rw [this]; omega

theorem source_i64ToF64 (i : Int) : Source.i64ToF64 i = Compaction.i64ToF64 i := by
  unfold Source.i64ToF64 Compaction.i64ToF64 Fmt.ofInt
  by_cases h0 : i.natAbs = 0
  · have : i = 0 := by omega
    subst this
    decide
  · have hB : 2 ^ (Compaction.f64.w - 1) = 1023 + 1 := by decide
    obtain ⟨_, r2, _⟩ := rounded_spec 52 i.natAbs h0
    have hsrc : (if i.natAbs.log2 ≤ 52 then i.natAbs * 2 ^ (52 - i.natAbs.log2)
        else if i.natAbs % 2 ^ (i.natAbs.log2 - 52) * 2 > 2 ^ (i.natAbs.log2 - 52) ∨
            (i.natAbs % 2 ^ (i.natAbs.log2 - 52) * 2 = 2 ^ (i.natAbs.log2 - 52) ∧ i.natAbs / 2 ^ (i.natAbs.log2 - 52) % 2 = 1) then
          i.natAbs / 2 ^ (i.natAbs.log2 - 52) + 1
        else i.natAbs / 2 ^ (i.natAbs.log2 - 52)) = rounded 52 i.natAbs := by
      unfold rounded
      split
      · rfl
      · rename_i hgt
        obtain ⟨sh, hsh⟩ : ∃ sh, i.natAbs.log2 - 52 = sh + 1 := ⟨i.natAbs.log2 - 53, by omega⟩
        rw [hsh, Nat.add_sub_cancel]
        have : 2 ^ (sh + 1) = 2 * 2 ^ sh := pow_succ' _ _
        have hiff : (i.natAbs % 2 ^ (sh + 1) * 2 > 2 ^ (sh + 1) ∨ (i.natAbs % 2 ^ (sh + 1) * 2 = 2 ^ (sh + 1) ∧ i.natAbs / 2 ^ (sh + 1) % 2 = 1)) ↔
            (2 ^ sh < i.natAbs % 2 ^ (sh + 1) ∨ (i.natAbs % 2 ^ (sh + 1) = 2 ^ sh ∧ i.natAbs / 2 ^ (sh + 1) % 2 = 1)) := by
          omega
        simp only [hiff]
    have hl : (i.natAbs.log2 + 1023 - 1) = i.natAbs.log2 + 1022 := by omega
    have hp : Compaction.f64.p = 52 := rfl
    have hw : Compaction.f64.w = 11 := rfl
    simp only [h0, if_false]
    rw [hsrc]
    split
    · have : (-i).toNat = i.natAbs := by omega
      rw [this, ofNat_eq Compaction.f64 1023 hB _ h0 (by omega)]
      refine congrArg (BitVec.ofNat 64) ?_
      rw [hp, hw, hl, show 52 + 11 = 63 from rfl, Nat.add_assoc]
    · have : i.toNat = i.natAbs := by omega
      rw [this, ofNat_eq Compaction.f64 1023 hB _ h0 (by omega)]
      refine congrArg (BitVec.ofNat 64) ?_
      rw [hp, hl, Nat.zero_add]

/-! ## To integers -/

theorem tdiv_units (neg : Bool) (m e c : Nat) :
    (if neg then -((m : Int) * 2 ^ e) else (m : Int) * 2 ^ e).tdiv ((2 ^ c : Nat) : Int) =
      if neg then -((m * 2 ^ e / 2 ^ c : Nat) : Int) else ((m * 2 ^ e / 2 ^ c : Nat) : Int) := by
  have h : ((m : Int) * 2 ^ e) = ((m * 2 ^ e : Nat) : Int) := by push_cast; rfl
  rw [h]
  cases neg
  · simp only [Bool.false_eq_true, if_false]
    rw [Int.ofNat_tdiv]
  · simp only [if_true]
    rw [Int.neg_tdiv]
    congr 1

theorem cut_eq (F : Fmt) (B : Nat) (hB : 2 ^ (F.w - 1) = B + 1) (h1 : 1 ≤ B) (lo hi : Int) (b : Nat) :
    F.toInt lo hi b = (Format.mk F.p F.w).cut lo hi b := by
  unfold Fmt.toInt Format.cut Format.read Fmt.isNan Fmt.isInf Fmt.truncMag Fmt.exp Fmt.man Fmt.neg Fmt.bias
  simp only
  rw [hB, Nat.add_sub_cancel]
  have hneg : (b / 2 ^ (F.p + F.w) % 2 == 1) = decide (b / 2 ^ (F.p + F.w) % 2 = 1) := by
    rw [Bool.eq_iff_iff]; simp
  rw [hneg]
  generalize decide (b / 2 ^ (F.p + F.w) % 2 = 1) = s
  generalize b / 2 ^ F.p % 2 ^ F.w = E
  generalize b % 2 ^ F.p = M
  have hone : (Format.mk F.p F.w).one = 2 ^ (B - 1 + F.p) := by
    unfold Format.one
    simp only
    rw [hB]
    congr 1
  by_cases hE : E = 2 ^ F.w - 1
  · rw [if_pos hE]
    by_cases hM : M = 0
    · simp [hE, hM]
    · simp [hE, hM]
  · rw [if_neg hE]
    have h1' : (E == 2 ^ F.w - 1) = false := by simpa using hE
    simp only [h1', Bool.false_and, Bool.false_eq_true, if_false]
    have key : ∀ m e : Nat, (if B + F.p ≤ e + 1 then m * 2 ^ (e + 1 - (B + F.p)) else m / 2 ^ (B + F.p - (e + 1))) = m * 2 ^ e / 2 ^ (B - 1 + F.p) := by
      intro m e
      split
      · have : e = (e + 1 - (B + F.p)) + (B - 1 + F.p) := by omega
        conv_rhs => rw [this]
        rw [pow_add, ← Nat.mul_assoc, Nat.mul_div_cancel _ (Nat.two_pow_pos _)]
      · have : B - 1 + F.p = (B + F.p - (e + 1)) + e := by omega
        rw [this, pow_add, Nat.mul_div_mul_right _ _ (Nat.two_pow_pos _)]
    by_cases h0 : E = 0
    · subst h0
      simp only [if_true]
      rw [hone, tdiv_units, ← key M 0]
      rfl
    · rw [if_neg h0, if_neg h0]
      simp only
      rw [hone, tdiv_units, ← key (2 ^ F.p + M) (E - 1)]
      have : max E 1 = E - 1 + 1 := by omega
      rw [this]

theorem source_f64ToU64 (f : BitVec 64) : (Source.f64ToU64 f : Int) = double.cut 0 (2 ^ 64 - 1) f.toNat := by
  have h := cut_eq Compaction.f64 1023 (by decide) (by decide) 0 (2 ^ 64 - 1) f.toNat
  rw [show (Format.mk Compaction.f64.p Compaction.f64.w) = double from rfl] at h
  rw [← h]
  unfold Fmt.toInt Fmt.isNan Fmt.isInf Fmt.truncMag Fmt.exp Fmt.man Fmt.neg Source.f64ToU64
  have hb : Compaction.f64.bias = 1023 := by decide
  have hp : Compaction.f64.p = 52 := rfl
  have hw : Compaction.f64.w = 11 := rfl
  rw [hb, hp, hw]
  have hlt : f.toNat / 2 ^ 63 < 2 := Nat.div_lt_of_lt_mul (by have := f.isLt; omega)
  simp only
  have hs : (f.toNat / 2 ^ (52 + 11) % 2 == 1) = decide (f.toNat / 2 ^ 63 = 1) := by
    rw [Bool.eq_iff_iff]
    simp only [beq_iff_eq, decide_eq_true_eq]
    have : 2 ^ (52 + 11) = 2 ^ 63 := rfl
    omega
  rw [hs]
  have hM : f.toNat % 2 ^ 52 < 2 ^ 52 := Nat.mod_lt _ (by decide)
  generalize f.toNat / 2 ^ 52 % 2 ^ 11 = E
  generalize f.toNat % 2 ^ 52 = M at hM
  by_cases hneg : f.toNat / 2 ^ 63 = 1
  · rw [if_pos hneg]
    simp only [hneg, decide_true, if_true]
    split
    · rfl
    · split
      · rfl
      · generalize (if 1023 + 52 ≤ max E 1 then _ else _ : Nat) = t
        omega
  · rw [if_neg hneg]
    simp only [hneg, decide_false, Bool.false_eq_true, if_false]
    by_cases hE : E = 2047
    · subst hE
      by_cases h0 : M = 0
      · subst h0
        simp
      · simp [h0]
    · have : (E == 2 ^ 11 - 1) = false := by simpa using hE
      simp only [this, Bool.false_and, Bool.false_eq_true, if_false, hE]
      by_cases h0 : E = 0
      · subst h0
        simp only [if_true]
        have : M / 2 ^ (1023 + 52 - max 0 1) = 0 := by
          apply Nat.div_eq_of_lt
          refine lt_of_lt_of_le hM (Nat.pow_le_pow_right (by decide) (by decide))
        rw [if_neg (by decide), this]
        rfl
      · have hmx : max E 1 = E := by omega
        simp only [h0, if_false, hmx]
        have : 1023 + 52 = 1075 := rfl
        rw [this]
        generalize (if 1075 ≤ E then _ else _ : Nat) = t
        split <;> omega

end Verif.Float
