import Verif.Lemmas.Shift
import Mathlib.Data.Rat.Cast.Order
import Mathlib.Algebra.Order.Field.Basic
import Mathlib.Tactic.NormNum
/-!
# Property C84: going to the parent phase

`should_shift_to_parent_phase.rs` compares two averages in `f64`. The division and the comparison of the model are those of the
specification `Spec/Float.lean`; and the comparison of the rounded averages is that of the averages themselves as long as the numbers are
not very large.
-/
namespace Verif.Float
open Compaction (Fmt f64 f32)

/-- **C84, division.** Division gives the nearest float to the quotient, of two of them the one with an even significand, infinity if the
quotient is too large; and what IEEE 754 says for zeros, infinities and NaN. -/
theorem C84_division (a b : Nat) : Quotient double a b (f64.div a b) := div_quotient f64 (by decide) (by decide) a b

/-- 1 / 3, the least number / 2 (a tie), the greatest / the least, -1 / 0, 0 / 0 -/
example : f64.div 0x3ff0000000000000 0x4008000000000000 = 0x3fd5555555555555 ∧ f64.div 1 0x4000000000000000 = 0 ∧
    f64.div 0x7fefffffffffffff 1 = 0x7ff0000000000000 ∧ f64.div 0xbff0000000000000 0 = 0xfff0000000000000 ∧
    double.read (f64.div 0 0) = .nan := by decide +kernel

/-- the bits without the sign -/
theorem mag_parts (F : Fmt) (b : Nat) : b % 2 ^ (F.p + F.w) = F.exp b * 2 ^ F.p + F.man b := by
  unfold Fmt.exp Fmt.man
  rw [pow_add, Nat.mod_mul, Nat.mul_comm, Nat.add_comm]

theorem mag_fin (F : Fmt) (b : Nat) : b % 2 ^ (F.p + F.w) = F.sh b * 2 ^ F.p + F.sig b ∧ F.sig b < 2 ^ (F.p + 1) ∧
    (F.sig b < 2 ^ F.p → F.sh b = 0) := by
  have hM : F.man b < 2 ^ F.p := Nat.mod_lt _ (Nat.two_pow_pos _)
  have hps : 2 ^ (F.p + 1) = 2 * 2 ^ F.p := pow_succ' _ _
  rw [mag_parts]
  unfold Fmt.sh Fmt.sig
  split
  · rename_i h
    rw [h]
    exact ⟨by omega, by omega, fun _ => rfl⟩
  · rename_i h
    obtain ⟨j, hj⟩ : ∃ j, F.exp b = j + 1 := ⟨F.exp b - 1, by omega⟩
    rw [hj, Nat.add_sub_cancel, Nat.add_mul]
    exact ⟨by omega, by omega, fun h => by omega⟩

theorem mag_lt (F : Fmt) (a b : Nat) (h : a % 2 ^ (F.p + F.w) < b % 2 ^ (F.p + F.w)) : F.sig a * 2 ^ F.sh a < F.sig b * 2 ^ F.sh b := by
  obtain ⟨ha, ha1, ha2⟩ := mag_fin F a
  obtain ⟨hb, hb1, hb2⟩ := mag_fin F b
  rw [ha, hb] at h
  generalize F.sig a = m at *
  generalize F.sig b = n at *
  generalize F.sh a = e at *
  generalize F.sh b = f at *
  have hps : 2 ^ (F.p + 1) = 2 * 2 ^ F.p := pow_succ' _ _
  rcases Nat.lt_trichotomy e f with hlt | rfl | hgt
  · have hn : 2 ^ F.p ≤ n := by
      by_contra hc
      have := hb2 (by omega)
      omega
    calc m * 2 ^ e < 2 ^ (F.p + 1) * 2 ^ e := Nat.mul_lt_mul_of_pos_right ha1 (Nat.two_pow_pos _)
      _ = 2 ^ F.p * 2 ^ (e + 1) := by rw [← pow_add, ← pow_add]; congr 1; omega
      _ ≤ 2 ^ F.p * 2 ^ f := Nat.mul_le_mul_left _ (Nat.pow_le_pow_right (by norm_num) hlt)
      _ ≤ _ := Nat.mul_le_mul_right _ hn
  · exact Nat.mul_lt_mul_of_pos_right (by omega) (Nat.two_pow_pos _)
  · exfalso
    have : (f + 1) * 2 ^ F.p ≤ e * 2 ^ F.p := Nat.mul_le_mul_right _ hgt
    have hm : 2 ^ F.p ≤ m := by
      by_contra hc
      have := ha2 (by omega)
      omega
    rw [Nat.add_mul] at this
    omega

theorem mag_eq (F : Fmt) (a b : Nat) (h : a % 2 ^ (F.p + F.w) = b % 2 ^ (F.p + F.w)) : F.sig a * 2 ^ F.sh a = F.sig b * 2 ^ F.sh b := by
  have hpos : 0 < 2 ^ F.p := Nat.two_pow_pos _
  have hM : ∀ b, F.man b < 2 ^ F.p := fun b => Nat.mod_lt _ hpos
  rw [mag_parts, mag_parts] at h
  have h1 : F.man a = F.man b := by
    have := congrArg (· % 2 ^ F.p) h
    simpa [Nat.mul_add_mod_self_right, Nat.mod_eq_of_lt, hM] using this
  have h2 : F.exp a = F.exp b := Nat.eq_of_mul_eq_mul_right hpos (by omega)
  unfold Fmt.sig Fmt.sh
  rw [h1, h2]

/-- the order of the numbers is that of the keys -/
theorem lt_iff (F : Fmt) (hw : 2 ≤ 2 ^ F.w) (a b : Nat) : F.lt a b = true ↔ (fmt F).lt a b := by
  have hpos : 0 < 2 ^ F.p := Nat.two_pow_pos _
  have hM : ∀ b, F.man b < 2 ^ F.p := fun b => Nat.mod_lt _ hpos
  have hE : ∀ b, F.exp b < 2 ^ F.w := fun b => Nat.mod_lt _ (Nat.two_pow_pos _)
  have minf : ∀ b, F.isInf b = true → b % 2 ^ (F.p + F.w) = (2 ^ F.w - 1) * 2 ^ F.p := by
    intro b h
    rw [mag_parts]
    simp only [Fmt.isInf, Bool.and_eq_true, beq_iff_eq] at h
    rw [h.1, h.2, Nat.add_zero]
  have mfin : ∀ b, F.isNan b = false → F.isInf b = false → b % 2 ^ (F.p + F.w) < (2 ^ F.w - 1) * 2 ^ F.p := by
    intro b h1 h2
    rw [mag_parts]
    have hne : F.exp b ≠ 2 ^ F.w - 1 := by
      intro he
      simp only [Fmt.isInf, Fmt.isNan, he, beq_self_eq_true, Bool.true_and] at h1 h2
      simp_all
    have := hE b
    have h3 : (F.exp b + 1) * 2 ^ F.p ≤ (2 ^ F.w - 1) * 2 ^ F.p := Nat.mul_le_mul_right _ (by omega)
    have := hM b
    rw [Nat.add_mul] at h3
    omega
  have hI : 0 < (2 ^ F.w - 1) * 2 ^ F.p := Nat.mul_pos (by omega) hpos
  unfold Format.lt Fmt.lt Fmt.key
  rw [read_parts, read_parts]
  cases ha : F.isNan a
  · cases hb : F.isNan b
    · simp only [Bool.not_false, Bool.true_and, decide_eq_true_eq, Bool.false_eq_true, if_false]
      cases hai : F.isInf a
      · cases hbi : F.isInf b
        · simp only [Bool.false_eq_true, if_false]
          have h1 := mag_lt F a b
          have h2 := mag_lt F b a
          have h3 := mag_eq F a b
          have h4 := mag_lt F 0 a
          have h5 := mag_lt F 0 b
          have h6 := mag_eq F 0 a
          have h7 := mag_eq F 0 b
          have hz : F.sig 0 * 2 ^ F.sh 0 = 0 := by simp [Fmt.sig, Fmt.exp, Fmt.man]
          rw [hz] at h4 h5 h6 h7
          rw [Nat.zero_mod] at h4 h5 h6 h7
          have ea : ((F.sig a : Int) * 2 ^ F.sh a) = ((F.sig a * 2 ^ F.sh a : Nat) : Int) := by push_cast; rfl
          have eb : ((F.sig b : Int) * 2 ^ F.sh b) = ((F.sig b * 2 ^ F.sh b : Nat) : Int) := by push_cast; rfl
          rw [ea, eb]
          generalize F.sig a * 2 ^ F.sh a = u at *
          generalize F.sig b * 2 ^ F.sh b = v at *
          generalize a % 2 ^ (F.p + F.w) = x at *
          generalize b % 2 ^ (F.p + F.w) = y at *
          cases F.neg a <;> cases F.neg b <;> simp only [if_true, if_false, Bool.false_eq_true] <;> omega
        · simp only [if_true, if_false, Bool.false_eq_true]
          rw [minf b hbi]
          have := mfin a ha hai
          generalize a % 2 ^ (F.p + F.w) = x at *
          generalize (2 ^ F.w - 1) * 2 ^ F.p = I at *
          cases F.neg a <;> cases F.neg b <;> simp only [if_true, if_false, Bool.false_eq_true, reduceCtorEq, iff_true, iff_false] <;> omega
      · cases hbi : F.isInf b
        · simp only [if_true, if_false, Bool.false_eq_true]
          rw [minf a hai]
          have := mfin b hb hbi
          generalize b % 2 ^ (F.p + F.w) = x at *
          generalize (2 ^ F.w - 1) * 2 ^ F.p = I at *
          cases F.neg a <;> cases F.neg b <;> simp only [if_true, if_false, Bool.false_eq_true, reduceCtorEq, iff_true, iff_false] <;> omega
        · simp only [if_true]
          rw [minf a hai, minf b hbi]
          generalize (2 ^ F.w - 1) * 2 ^ F.p = I at *
          cases F.neg a <;> cases F.neg b <;>
            simp only [if_true, if_false, Bool.false_eq_true, reduceCtorEq, and_self, and_false, false_and, iff_true, iff_false] <;> omega
    · simp only [Bool.not_true, Bool.not_false, Bool.and_false, Bool.false_and, Bool.false_eq_true, if_true, if_false, false_iff]
      split <;> simp_all
  · simp

/-- **C84, comparison.** `<` on floats compares the numbers; infinities are beyond them, and NaN is not less or greater than anything. -/
theorem C84_comparison (a b : Nat) : f64.lt a b = true ↔ double.lt a b := lt_iff f64 (by decide) a b

/-- -0 is not less than 0; -1 is less than 1; NaN is not less than infinity -/
example : f64.lt 0x8000000000000000 0 = false ∧ f64.lt 0xbff0000000000000 0x3ff0000000000000 = true ∧
    f64.lt 0x7ff8000000000000 0x7ff0000000000000 = false := by decide +kernel

/-- Integers below 2^53 are doubles. -/
theorem ofNat_exact (n : Nat) (hn : n < 2 ^ 53) : ∃ m f, double.read (f64.ofNat n) = .fin false m f ∧ m * 2 ^ f = n * double.one := by
  by_cases h0 : n = 0
  · subst h0
    exact ⟨0, 0, by decide +kernel, by simp⟩
  · have hl : n.log2 < 53 := (Nat.log2_lt h0).2 hn
    have e1 : f64.ofNat n = (n.log2 + 1022) * 2 ^ 52 + rounded 52 n := ofNat_eq f64 1023 (by decide) n h0 (by decide)
    obtain ⟨_, h1, h2, _⟩ := rounded_spec 52 n h0
    have hr : rounded 52 n = n * 2 ^ (52 - n.log2) := by unfold rounded; rw [if_pos (by omega)]
    have hlt : (n.log2 + 1022) * 2 ^ 52 + rounded 52 n < (2 ^ 11 - 1) * 2 ^ 52 := by omega
    obtain ⟨m, f, hm, hv⟩ := read_value double false (n.log2 + 1022) (rounded 52 n) h2 (Or.inr h1) hlt
    refine ⟨m, f, ?_, ?_⟩
    · rw [e1]
      rw [if_neg (by decide), Nat.zero_add] at hm
      exact hm
    · rw [hv, hr, Nat.mul_assoc, ← pow_add]
      have : 52 - n.log2 + (n.log2 + 1022) = 1074 := by omega
      rw [this]
      rfl

open Phase

/-- The average of numbers below 2^53 is the rounded quotient. -/
theorem average_read (s l : Nat) (hs : s < 2 ^ 53) (hl : l < 2 ^ 53) (h0 : 0 < l) : ∃ m f, double.read (average s l) = .fin false m f ∧
    m * 2 ^ f = qsig 52 (s * double.one * double.one) (l * double.one) * 2 ^ qexp 52 (s * double.one * double.one) (l * double.one) := by
  obtain ⟨m1, f1, r1, v1⟩ := ofNat_exact s hs
  obtain ⟨m2, f2, r2, v2⟩ := ofNat_exact l hl
  have hone : 0 < double.one := Nat.two_pow_pos _
  have hd : 0 < l * double.one := Nat.mul_pos h0 hone
  have p1 := read_parts f64 (f64.ofNat s)
  have p2 := read_parts f64 (f64.ofNat l)
  change double.read _ = _ at p1 p2
  rw [r1] at p1
  rw [r2] at p2
  have hav : average s l = f64.roundRat (s * double.one * double.one) (l * double.one) := by
    unfold average Fmt.div
    cases n1 : f64.isNan (f64.ofNat s) <;> rw [n1] at p1 <;> simp only [if_true, if_false, Bool.false_eq_true, reduceCtorEq] at p1
    cases n2 : f64.isNan (f64.ofNat l) <;> rw [n2] at p2 <;> simp only [if_true, if_false, Bool.false_eq_true, reduceCtorEq] at p2
    cases i1 : f64.isInf (f64.ofNat s) <;> rw [i1] at p1 <;> simp only [if_true, if_false, Bool.false_eq_true, reduceCtorEq] at p1
    cases i2 : f64.isInf (f64.ofNat l) <;> rw [i2] at p2 <;> simp only [if_true, if_false, Bool.false_eq_true, reduceCtorEq] at p2
    injection p1 with a1 b1 c1
    injection p2 with a2 b2 c2
    have hne : f64.sig (f64.ofNat l) ≠ 0 := by
      rw [← b2]
      intro h
      rw [h, Nat.zero_mul] at v2
      omega
    simp only [Bool.or_self, Bool.false_eq_true, if_false, hne, ← a1, ← a2, bne_self_eq_false, Nat.zero_add]
    rw [← b1, ← b2, ← c1, ← c2, v1, v2]
    rfl
  have hr := isRound 52 (s * double.one * double.one) (l * double.one) hd
  have ho := overflow_iff 52 11 _ _ _ _ (by decide) hd hr
  have hno : qexp 52 (s * double.one * double.one) (l * double.one) * 2 ^ 52 + qsig 52 (s * double.one * double.one) (l * double.one) <
      (2 ^ 11 - 1) * 2 ^ 52 := by
    refine Nat.lt_of_not_le (fun h => ?_)
    have h1 := ho.1 h
    have h2 : 2 * (s * double.one * double.one) < 2 ^ 54 * double.one * double.one := by
      have : 2 * s * (double.one * double.one) < 2 ^ 54 * (double.one * double.one) :=
        Nat.mul_lt_mul_of_pos_right (by omega) (Nat.mul_pos hone hone)
      calc 2 * (s * double.one * double.one) = 2 * s * (double.one * double.one) := by ring
        _ < _ := this
        _ = _ := by ring
    have h3 : (2 ^ (52 + 2) - 1) * 2 ^ (2 ^ 11 - 3) * double.one ≤ (2 ^ (52 + 2) - 1) * 2 ^ (2 ^ 11 - 3) * (l * double.one) :=
      Nat.mul_le_mul_left _ (Nat.le_mul_of_pos_left _ h0)
    have h4 : 2 ^ 54 * double.one * double.one ≤ (2 ^ (52 + 2) - 1) * 2 ^ (2 ^ 11 - 3) * double.one := by
      refine Nat.mul_le_mul_right _ ?_
      decide +kernel
    exact absurd (Nat.lt_of_lt_of_le h2 (Nat.le_trans h4 (Nat.le_trans h3 h1))) (Nat.lt_irrefl _)
  obtain ⟨m, f, hm, hv⟩ := read_value double false _ _ hr.le hr.ge hno
  refine ⟨m, f, ?_, hv⟩
  rw [hav, roundRat_eq]
  change double.read (min (qexp 52 _ _ * 2 ^ 52 + qsig 52 _ _) ((2 ^ 11 - 1) * 2 ^ 52)) = _
  rw [Nat.min_eq_left hno.le]
  rw [if_neg (by decide), Nat.zero_add] at hm
  exact hm

/-- what the code compares -/
theorem shouldShift_iff (ps ds dl cs cl : Nat) (hs : ps + ds + cs < 2 ^ 53) (hl : 1 + dl + cl < 2 ^ 53) :
    shouldShift ps ds dl cs cl = true ↔
      qsig 52 ((ps + ds) * double.one * double.one) ((1 + dl) * double.one) * 2 ^ qexp 52 ((ps + ds) * double.one * double.one) ((1 + dl) * double.one) <
      qsig 52 ((ps + ds + cs) * double.one * double.one) ((1 + dl + cl) * double.one) *
        2 ^ qexp 52 ((ps + ds + cs) * double.one * double.one) ((1 + dl + cl) * double.one) := by
  obtain ⟨m1, f1, r1, v1⟩ := average_read (ps + ds) (1 + dl) (by omega) (by omega) (by omega)
  obtain ⟨m2, f2, r2, v2⟩ := average_read (ps + ds + cs) (1 + dl + cl) hs hl (by omega)
  unfold shouldShift
  simp only
  rw [C84_comparison]
  unfold Format.lt
  rw [r1, r2]
  simp only [Bool.false_eq_true, if_false]
  rw [← v1, ← v2]
  norm_cast

/-- **C84, soundness.** Sizes and counts below 2^53: the code goes to the parent phase only if the average is really larger otherwise. -/
theorem C84_sound (ps ds dl cs cl : Nat) (hs : ps + ds + cs < 2 ^ 53) (hl : 1 + dl + cl < 2 ^ 53) (h : shouldShift ps ds dl cs cl = true) :
    (ps + ds : ℚ) / (1 + dl) < (ps + ds + cs) / (1 + dl + cl) := by
  rw [div_lt_div_iff₀ (by positivity) (by positivity)]
  rw [shouldShift_iff ps ds dl cs cl hs hl] at h
  have hone : 0 < double.one := Nat.two_pow_pos _
  by_contra hc
  have hc' : (ps + ds + cs) * (1 + dl) ≤ (ps + ds) * (1 + dl + cl) := by
    have := not_lt.1 hc
    exact_mod_cast this
  have := (round_mono 52 ((ps + ds + cs) * double.one * double.one) ((1 + dl + cl) * double.one) ((ps + ds) * double.one * double.one)
    ((1 + dl) * double.one) (Nat.mul_pos (by omega) hone) (Nat.mul_pos (by omega) hone) (by
      calc (ps + ds + cs) * double.one * double.one * ((1 + dl) * double.one) =
          (ps + ds + cs) * (1 + dl) * (double.one * double.one * double.one) := by ring
        _ ≤ (ps + ds) * (1 + dl + cl) * (double.one * double.one * double.one) := Nat.mul_le_mul_right _ hc'
        _ = _ := by ring)).1
  exact absurd h (Nat.not_lt.2 this)

example : 10 + 20 + 50 < 2 ^ 53 ∧ 1 + 3 + 2 < 2 ^ 53 ∧ shouldShift 10 20 3 50 2 = true := by decide +kernel

/-- **C84, exactness.** If moreover the whole size times the number of files of the parent is below 2^52, the code goes to the parent phase
exactly if the average is larger otherwise. -/
theorem C84_exact_partial (ps ds dl cs cl : Nat) (hs : (ps + ds + cs) * (1 + dl) < 2 ^ 52) (hl : 1 + dl + cl < 2 ^ 53) :
    shouldShift ps ds dl cs cl = true ↔ (ps + ds : ℚ) / (1 + dl) < (ps + ds + cs) / (1 + dl + cl) := by
  have hs' : ps + ds + cs < 2 ^ 53 := by
    have : (ps + ds + cs) * 1 ≤ (ps + ds + cs) * (1 + dl) := Nat.mul_le_mul_left _ (by omega)
    omega
  refine ⟨C84_sound ps ds dl cs cl hs' hl, fun h => ?_⟩
  rw [div_lt_div_iff₀ (by positivity) (by positivity)] at h
  have h' : (ps + ds) * (1 + dl + cl) < (ps + ds + cs) * (1 + dl) := by exact_mod_cast h
  rw [shouldShift_iff ps ds dl cs cl hs' hl]
  have hone : 0 < double.one := Nat.two_pow_pos _
  have hle : (ps + ds) * double.one * double.one * ((1 + dl + cl) * double.one) ≤
      (ps + ds + cs) * double.one * double.one * ((1 + dl) * double.one) :=
    calc (ps + ds) * double.one * double.one * ((1 + dl + cl) * double.one) =
          (ps + ds) * (1 + dl + cl) * (double.one * double.one * double.one) := by ring
        _ ≤ (ps + ds + cs) * (1 + dl) * (double.one * double.one * double.one) := Nat.mul_le_mul_right _ h'.le
        _ = _ := by ring
  have hm := (round_mono 52 ((ps + ds) * double.one * double.one) ((1 + dl) * double.one) ((ps + ds + cs) * double.one * double.one)
    ((1 + dl + cl) * double.one) (Nat.mul_pos (by omega) hone) (Nat.mul_pos (by omega) hone) hle).1
  refine lt_of_le_of_ne hm (fun heq => ?_)
  have hpos : 0 < ps + ds + cs := by
    by_contra hc
    have : ps + ds + cs = 0 := by omega
    rw [this] at h'
    omega
  have hbig : (1 + dl + cl) * double.one * 2 ^ 52 ≤ (ps + ds + cs) * double.one * double.one := by
    have h1 : (1 + dl + cl) * 2 ^ 52 ≤ 2 ^ 53 * 2 ^ 52 := Nat.mul_le_mul_right _ hl.le
    have h2 : 2 ^ 53 * 2 ^ 52 ≤ double.one := by
      show 2 ^ 53 * 2 ^ 52 ≤ 2 ^ (2 ^ (11 - 1) - 2 + 52)
      rw [← pow_add]
      exact Nat.pow_le_pow_right (by norm_num) (by decide)
    calc (1 + dl + cl) * double.one * 2 ^ 52 = (1 + dl + cl) * 2 ^ 52 * double.one := by ring
      _ ≤ double.one * double.one := Nat.mul_le_mul_right _ (Nat.le_trans h1 h2)
      _ = 1 * (double.one * double.one) := by ring
      _ ≤ (ps + ds + cs) * (double.one * double.one) := Nat.mul_le_mul_right _ hpos
      _ = _ := by ring
  have hclose := round_close 52 ((ps + ds) * double.one * double.one) ((1 + dl) * double.one) ((ps + ds + cs) * double.one * double.one)
    ((1 + dl + cl) * double.one) (Nat.mul_pos (by omega) hone) (Nat.mul_pos (by omega) hone) hle heq hbig
  have hT : 0 < double.one * double.one * double.one := Nat.mul_pos (Nat.mul_pos hone hone) hone
  have e1 : (ps + ds + cs) * double.one * double.one * ((1 + dl) * double.one) =
      (ps + ds + cs) * (1 + dl) * (double.one * double.one * double.one) := by ring
  have e2 : (ps + ds) * double.one * double.one * ((1 + dl + cl) * double.one) =
      (ps + ds) * (1 + dl + cl) * (double.one * double.one * double.one) := by ring
  rw [e1, e2, ← Nat.sub_mul, Nat.mul_right_comm] at hclose
  have h3 := Nat.le_of_mul_le_mul_right hclose hT
  have h4 : 1 * 2 ^ 52 ≤ ((ps + ds + cs) * (1 + dl) - (ps + ds) * (1 + dl + cl)) * 2 ^ 52 := Nat.mul_le_mul_right _ (by omega)
  omega

/-- the difference of 15000001/3 and 25000001/5 is seen -/
example : (15000001 + 10000000) * (1 + 2) < 2 ^ 52 ∧ shouldShift 15000001 0 2 10000000 2 = false ∧ shouldShift 15000000 0 2 10000001 2 = true := by
  decide +kernel

/-- The numbers of the model that compares exactly are those of the code. -/
theorem C84_shiftExact (ps ds dl cs cl : Nat) (hs : (ps + ds + cs) * (1 + dl) < 2 ^ 52) (hl : 1 + dl + cl < 2 ^ 53) :
    shouldShift ps ds dl cs cl = shiftExact ps ds dl cs cl := by
  rw [Bool.eq_iff_iff, C84_exact_partial ps ds dl cs cl hs hl, div_lt_div_iff₀ (by positivity) (by positivity)]
  unfold shiftExact
  rw [decide_eq_true_eq]
  norm_cast

/-- **C84, negation.** Without the bounds it is not so: with 35 terabytes in 254 files the average is larger and the code does not see it … -/
theorem C84_negation : ∃ ps ds dl cs cl : Nat, (ps + ds + cs) * (1 + dl) < 2 ^ 53 ∧ 1 + dl + cl < 2 ^ 53 ∧
    (ps + ds : ℚ) / (1 + dl) < (ps + ds + cs) / (1 + dl + cl) ∧ shouldShift ps ds dl cs cl = false :=
  ⟨21470778243216, 0, 154, 13713593845667, 99, by norm_num, by norm_num, by norm_num, by decide +kernel⟩

/-- … and with sizes above 2^53 the code sees larger averages that are not. -/
theorem C84_negation_sound : ∃ ps ds dl cs cl : Nat, ps + ds + cs < 2 ^ 54 ∧ 1 + dl + cl < 2 ^ 53 ∧
    ¬ (ps + ds : ℚ) / (1 + dl) < (ps + ds + cs) / (1 + dl + cl) ∧ shouldShift ps ds dl cs cl = true :=
  ⟨9398708945558117, 0, 1, 4699354472779058, 1, by norm_num, by norm_num, by norm_num, by decide +kernel⟩

end Verif.Float
