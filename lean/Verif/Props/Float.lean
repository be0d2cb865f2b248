import Verif.Lemmas.FloatCast
/-!
# Property C82: the casts between numbers

The casts of the model, which are used where sources are read (`get_id.rs`, `array_null.rs`, `json_array_to_rust.rs`), where sources are
written (`get_param.rs`, `tmp_obj_to_json.rs`) and where values are compacted (`basic_compaction.rs`, `kval_enum.rs`), are those of the
specification `Spec/Float.lean`, which is about numbers and not about bits.
-/
namespace Verif.Float
open Compaction (Fmt f64 f32)

theorem log2_i64 (i : Int) (hi : i.natAbs ≤ 2 ^ 64) (h0 : i ≠ 0) : i.natAbs.log2 + 1 ≤ 127 := by
  have : i.natAbs.log2 < 65 := (Nat.log2_lt (by omega)).2 (by omega)
  omega

/-- **C82, integers to floats.** `i64 as f64`, `u64 as f64` and `i64 as f32` give the nearest float, of two of them the one with an even
significand; and zero gives the positive zero. The two definitions of the first that the model has are the same. -/
theorem C82_to_float (i : Int) (hi : i.natAbs ≤ 2 ^ 64) :
    Nearest double (i * double.one) (Source.i64ToF64 i).toNat ∧ Nearest double (i * double.one) (Compaction.i64ToF64 i).toNat ∧
      Nearest single (i * single.one) (Compaction.i64ToF32 i).toNat ∧
      (i = 0 → Source.i64ToF64 i = 0#64 ∧ Compaction.i64ToF32 i = 0#32) := by
  have hz : ∀ F : Format, 1 ≤ F.p → 2 ≤ F.w → Nearest F (0 * F.one) 0 := by
    intro F _ hw
    have hw' : 2 ≤ 2 ^ F.w := le_trans hw (Nat.lt_two_pow_self).le
    refine ⟨0, ?_, fun c u hu => ⟨by simp, fun _ _ => rfl⟩⟩
    unfold Format.read
    simp only [Nat.zero_div, Nat.zero_mod]
    rw [if_neg (by omega)]
    rfl
  rw [source_i64ToF64]
  have h64 : Nearest double (i * double.one) (Compaction.i64ToF64 i).toNat := by
    by_cases h0 : i = 0
    · subst h0
      exact hz double (by decide) (by decide)
    · have hl := log2_i64 i hi h0
      have h1 := ofInt_nearest f64 1023 (by decide) (by decide) (by decide) i (by omega) h0
      have h2 := ofInt_lt f64 1023 (by decide) (by decide) i (by omega) h0
      have e : (Compaction.i64ToF64 i).toNat = f64.ofInt i := by
        unfold Compaction.i64ToF64
        rw [BitVec.toNat_ofNat]
        exact Nat.mod_eq_of_lt h2
      rw [e]
      exact h1
  have h32 : Nearest single (i * single.one) (Compaction.i64ToF32 i).toNat := by
    by_cases h0 : i = 0
    · subst h0
      exact hz single (by decide) (by decide)
    · have hl := log2_i64 i hi h0
      have h1 := ofInt_nearest f32 127 (by decide) (by decide) (by decide) i (by omega) h0
      have h2 := ofInt_lt f32 127 (by decide) (by decide) i (by omega) h0
      have e : (Compaction.i64ToF32 i).toNat = f32.ofInt i := by
        unfold Compaction.i64ToF32
        rw [BitVec.toNat_ofNat]
        exact Nat.mod_eq_of_lt h2
      rw [e]
      exact h1
  refine ⟨h64, h64, h32, ?_⟩
  rintro rfl
  decide

/-- 2^53 + 1 is halfway between two doubles; 2^24 + 3 between two floats. -/
example : (2 ^ 53 + 1 : Int).natAbs ≤ 2 ^ 64 ∧ Source.i64ToF64 (2 ^ 53 + 1) = 0x4340000000000000#64 ∧
    Compaction.i64ToF32 (2 ^ 24 + 3) = 0x4b800002#32 := by decide

/-- **C82, floats to integers.** `f64 as u64`, `f64 as i64`, `f32 as i64` and `f32 as i32` cut towards zero, saturate, and give 0 for NaN. -/
theorem C82_to_int (d : BitVec 64) (f : BitVec 32) :
    (Source.f64ToU64 d : Int) = double.cut 0 (2 ^ 64 - 1) d.toNat ∧
      Compaction.f64ToI64 d = double.cut (-2 ^ 63) (2 ^ 63 - 1) d.toNat ∧
      Compaction.f32ToI64 f = single.cut (-2 ^ 63) (2 ^ 63 - 1) f.toNat ∧
      Compaction.f32ToI32 f = single.cut (-2 ^ 31) (2 ^ 31 - 1) f.toNat :=
  ⟨source_f64ToU64 d, cut_eq f64 1023 (by decide) (by decide) _ _ _, cut_eq f32 127 (by decide) (by decide) _ _ _,
    cut_eq f32 127 (by decide) (by decide) _ _ _⟩

/-- -1.5, 1.9, infinity and NaN -/
example : Source.f64ToU64 0xbff8000000000000#64 = 0 ∧ Compaction.f64ToI64 0xbff8000000000000#64 = -1 ∧
    Source.f64ToU64 0x3ffe666666666666#64 = 1 ∧ Source.f64ToU64 0x7ff0000000000000#64 = 2 ^ 64 - 1 ∧
    Source.f64ToU64 0x7ff8000000000000#64 = 0 := by decide +kernel

/-- what the bits of a finite float can be -/
theorem units_inj (F : Format) (B : Nat) (hw : 2 ^ F.w = 2 * B + 2) (hB : 1 ≤ B) (a b : Nat) (ha : a < 2 ^ (F.p + F.w + 1)) (hb : b < 2 ^ (F.p + F.w + 1))
    (u : Int) (hua : (F.read a).units = some u) (hub : (F.read b).units = some u) : a = b ∨ u = 0 := by
  -- sign, significand and exponent of the bits
  have parts : ∀ x, x < 2 ^ (F.p + F.w + 1) → (F.read x).units = some u → ∃ (s : Bool) (m e : Nat),
      u = (if s then -((m : Int) * 2 ^ e) else (m : Int) * 2 ^ e) ∧ m < 2 ^ (F.p + 1) ∧ (m < 2 ^ F.p → e = 0) ∧
      x = (if s then 2 ^ (F.p + F.w) else 0) + (e * 2 ^ F.p + m) := by
    intro x hx hu
    have h1 : x = x / 2 ^ (F.p + F.w) * 2 ^ (F.p + F.w) + (x / 2 ^ F.p % 2 ^ F.w * 2 ^ F.p + x % 2 ^ F.p) := by
      have e1 := Nat.div_add_mod x (2 ^ F.p)
      have e2 := Nat.div_add_mod (x / 2 ^ F.p) (2 ^ F.w)
      rw [Nat.div_div_eq_div_mul, ← pow_add] at e2
      have e3 : x / 2 ^ F.p * 2 ^ F.p = (2 ^ F.w * (x / 2 ^ (F.p + F.w)) + x / 2 ^ F.p % 2 ^ F.w) * 2 ^ F.p := by rw [e2]
      rw [Nat.add_mul] at e3
      have e4 : 2 ^ F.w * (x / 2 ^ (F.p + F.w)) * 2 ^ F.p = x / 2 ^ (F.p + F.w) * 2 ^ (F.p + F.w) := by
        rw [pow_add]; ring
      rw [Nat.mul_comm] at e1
      omega
    have h2 : x / 2 ^ (F.p + F.w) < 2 := Nat.div_lt_of_lt_mul (by rw [pow_succ] at hx; exact hx)
    have h3 : x / 2 ^ (F.p + F.w) * 2 ^ (F.p + F.w) = if decide (x / 2 ^ (F.p + F.w) % 2 = 1) then 2 ^ (F.p + F.w) else 0 := by
      rcases (Nat.le_one_iff_eq_zero_or_eq_one.1 (Nat.lt_succ_iff.1 h2)) with h | h <;> simp [h]
    rw [h3] at h1
    have hM : x % 2 ^ F.p < 2 ^ F.p := Nat.mod_lt _ (Nat.two_pow_pos _)
    have hps : 2 ^ (F.p + 1) = 2 * 2 ^ F.p := pow_succ' _ _
    unfold Format.read at hu
    simp only at hu
    split at hu
    · split at hu <;> cases hu
    · split at hu
      · rename_i h0
        simp only [Kind.units, Option.some.injEq] at hu
        refine ⟨_, _, 0, hu.symm, by omega, fun _ => rfl, ?_⟩
        rw [h0] at h1
        exact h1
      · rename_i h0
        simp only [Kind.units, Option.some.injEq] at hu
        refine ⟨_, _, _, hu.symm, by omega, fun h => by omega, ?_⟩
        have : x / 2 ^ F.p % 2 ^ F.w * 2 ^ F.p = (x / 2 ^ F.p % 2 ^ F.w - 1) * 2 ^ F.p + 2 ^ F.p := by
          rw [← Nat.succ_mul]
          congr 1
          omega
        omega
  obtain ⟨s, m, e, h1, h2, h3, h4⟩ := parts a ha hua
  obtain ⟨t, n, f, g1, g2, g3, g4⟩ := parts b hb hub
  by_cases hu0 : u = 0
  · exact Or.inr hu0
  left
  have hm : (0 : Int) ≤ (m : Int) * 2 ^ e := by positivity
  have hn : (0 : Int) ≤ (n : Int) * 2 ^ f := by positivity
  have hst : s = t := by
    cases s <;> cases t <;> simp only [Bool.false_eq_true, if_false, if_true] at h1 g1 <;> first | rfl | (exfalso; omega)
  subst hst
  have heq : m * 2 ^ e = n * 2 ^ f := by
    have : (m : Int) * 2 ^ e = (n : Int) * 2 ^ f := by
      rw [h1] at g1
      cases s <;> simpa using g1
    exact_mod_cast this
  have hlt : ∀ (m n e f : Nat), m * 2 ^ e = n * 2 ^ f → m < 2 ^ (F.p + 1) → (n < 2 ^ F.p → f = 0) → ¬ e < f := by
    intro m n e f heq hm hn hlt
    have hnp : 2 ^ F.p ≤ n := by
      by_contra hc
      have := hn (by omega)
      omega
    obtain ⟨d, rfl⟩ : ∃ d, f = e + d + 1 := ⟨f - e - 1, by omega⟩
    have h5 : m = n * 2 ^ (d + 1) := by
      refine Nat.eq_of_mul_eq_mul_right (Nat.two_pow_pos e) ?_
      rw [heq, Nat.mul_assoc, ← pow_add]
      congr 2
      omega
    have h6 : 2 ^ F.p * 2 ^ 1 ≤ n * 2 ^ (d + 1) := Nat.mul_le_mul hnp (Nat.pow_le_pow_right (by decide) (by omega))
    rw [← pow_add] at h6
    omega
  have hef : e = f := by
    have := hlt m n e f heq h2 g3
    have := hlt n m f e heq.symm g2 h3
    omega
  subst hef
  have hmn : m = n := Nat.eq_of_mul_eq_mul_right (Nat.two_pow_pos e) heq
  rw [h4, g4, hmn]

/-- the bits of zeros -/
theorem isZero_iff (F : Fmt) (B : Nat) (hw : 2 ^ F.w = 2 * B + 2) (hB : 1 ≤ B) (a : Nat) (ha : a < 2 ^ (F.p + F.w + 1)) :
    F.isZero a = true ↔ ((Format.mk F.p F.w).read a).units = some 0 := by
  have r0 : ∀ s : Bool, (Format.mk F.p F.w).read (if s then 2 ^ (F.p + F.w) else 0) = .fin s 0 0 := by
    intro s
    have := read_mk ⟨F.p, F.w⟩ s 0 0 (Nat.two_pow_pos _) (Nat.two_pow_pos _)
    have hne : ¬ 0 = 2 ^ F.w - 1 := by omega
    rw [Nat.zero_mul] at this
    refine this.trans ?_
    simp only [hne, if_false, if_true]
  unfold Fmt.isZero
  simp only [Bool.or_eq_true, beq_iff_eq]
  constructor
  · rintro (rfl | rfl)
    · have := r0 false
      simp only [Bool.false_eq_true, if_false] at this
      rw [this]; rfl
    · have := r0 true
      simp only [if_true] at this
      rw [this]; rfl
  · intro h
    unfold Format.read at h
    simp only at h
    have hx := Nat.div_add_mod a (2 ^ F.p)
    have e2 := Nat.div_add_mod (a / 2 ^ F.p) (2 ^ F.w)
    rw [Nat.div_div_eq_div_mul, ← pow_add] at e2
    have h2 : a / 2 ^ (F.p + F.w) < 2 := Nat.div_lt_of_lt_mul (by rw [pow_succ] at ha; exact ha)
    have hpp : 0 < 2 ^ F.p := Nat.two_pow_pos _
    split at h
    · split at h <;> cases h
    · split at h
      · rename_i h0
        simp only [Kind.units, Option.some.injEq, pow_zero, mul_one] at h
        have hm : a % 2 ^ F.p = 0 := by
          split at h <;> omega
        rw [h0, Nat.add_zero] at e2
        rw [hm, Nat.add_zero, ← e2, ← Nat.mul_assoc, ← pow_add] at hx
        rcases (Nat.le_one_iff_eq_zero_or_eq_one.1 (Nat.lt_succ_iff.1 h2)) with h3 | h3
        · left; rw [h3] at hx; omega
        · right; rw [h3] at hx; omega
      · exfalso
        simp only [Kind.units, Option.some.injEq] at h
        have : (0 : Int) < ((2 ^ F.p + a % 2 ^ F.p : Nat) : Int) * 2 ^ (a / 2 ^ F.p % 2 ^ F.w - 1) := by positivity
        split at h <;> omega

theorem feq_iff (F : Fmt) (B : Nat) (hw : 2 ^ F.w = 2 * B + 2) (hB : 1 ≤ B) (a b : Nat) (ha : a < 2 ^ (F.p + F.w + 1))
    (hb : b < 2 ^ (F.p + F.w + 1)) : F.feq a b = true ↔ (Format.mk F.p F.w).eq a b := by
  have hnan : ∀ x, F.isNan x = true ↔ (Format.mk F.p F.w).read x = .nan := by
    intro x
    unfold Fmt.isNan Fmt.exp Fmt.man Format.read
    simp only [Bool.and_eq_true, beq_iff_eq, bne_iff_ne]
    constructor
    · rintro ⟨h1, h2⟩
      rw [if_pos h1, if_neg h2]
    · intro h
      split at h
      · split at h
        · cases h
        · rename_i h1 h2; exact ⟨h1, h2⟩
      · split at h <;> cases h
  have hinf : ∀ x s, x < 2 ^ (F.p + F.w + 1) → (Format.mk F.p F.w).read x = .inf s →
      x = (if s then 2 ^ (F.p + F.w) else 0) + (2 ^ F.w - 1) * 2 ^ F.p := by
    intro x s hx h
    unfold Format.read at h
    simp only at h
    split at h
    · rename_i hE
      split at h
      · rename_i hM
        simp only [Kind.inf.injEq] at h
        have e1 := Nat.div_add_mod x (2 ^ F.p)
        have e2 := Nat.div_add_mod (x / 2 ^ F.p) (2 ^ F.w)
        rw [Nat.div_div_eq_div_mul, ← pow_add] at e2
        have h2 : x / 2 ^ (F.p + F.w) < 2 := Nat.div_lt_of_lt_mul (by rw [pow_succ] at hx; exact hx)
        rw [hM, Nat.add_zero, ← e2, hE, Nat.mul_add, ← Nat.mul_assoc, ← pow_add] at e1
        rw [Nat.mul_comm (2 ^ F.w - 1)]
        rcases (Nat.le_one_iff_eq_zero_or_eq_one.1 (Nat.lt_succ_iff.1 h2)) with h3 | h3
        · rw [h3] at h e1
          rw [← h]
          simp only [Nat.zero_mod, Nat.zero_ne_one, decide_false, Bool.false_eq_true, if_false]
          omega
        · rw [h3] at h e1
          rw [← h]
          simp only [decide_true, if_true]
          omega
      · cases h
    · split at h <;> cases h
  have hz := isZero_iff F B hw hB
  unfold Fmt.feq Format.eq
  simp only [Bool.and_eq_true, Bool.not_eq_true', Bool.or_eq_true, beq_iff_eq]
  have hnan' : ∀ x, F.isNan x = false ↔ (Format.mk F.p F.w).read x ≠ .nan := by
    intro x
    rw [Ne, ← hnan, Bool.not_eq_true]
  rw [hnan', hnan', hz a ha, hz b hb]
  cases hra : (Format.mk F.p F.w).read a with
  | nan => simp
  | inf s =>
    cases hrb : (Format.mk F.p F.w).read b with
    | nan => simp
    | inf t =>
      simp only [ne_eq, reduceCtorEq, not_false_eq_true, and_self, true_and, Kind.units, or_false]
      constructor
      · rintro rfl
        rw [hra] at hrb
        cases hrb
        rfl
      · rintro rfl
        rw [hinf a s ha hra, hinf b s hb hrb]
    | fin t n f =>
      simp only [ne_eq, reduceCtorEq, not_false_eq_true, and_self, true_and, Kind.units, false_and, or_false, iff_false]
      rintro rfl
      rw [hra] at hrb
      cases hrb
  | fin s m e =>
    cases hrb : (Format.mk F.p F.w).read b with
    | nan => simp
    | inf t =>
      simp only [ne_eq, reduceCtorEq, not_false_eq_true, and_self, true_and, Kind.units, and_false, or_false, iff_false]
      rintro rfl
      rw [hra] at hrb
      cases hrb
    | fin t n f =>
      simp only [ne_eq, reduceCtorEq, not_false_eq_true, and_self, true_and]
      constructor
      · rintro (rfl | ⟨h1, h2⟩)
        · rw [hra] at hrb
          rw [hrb]
        · rw [h1, h2]
      · intro h
        cases hu : (Kind.fin s m e).units with
        | none => cases hu
        | some u =>
          rw [hu] at h
          rcases units_inj ⟨F.p, F.w⟩ B hw hB a b ha hb u (by rw [hra, hu]) (by rw [hrb, ← h]) with h1 | rfl
          · exact Or.inl h1
          · exact Or.inr ⟨rfl, h.symm⟩

/-- **C82, equality.** `==` of the model compares numbers: NaN equals nothing, and the two zeros are equal. -/
theorem C82_equality (a b : BitVec 64) (c d : BitVec 32) :
    (Compaction.eq64 a b = true ↔ double.eq a.toNat b.toNat) ∧ (Compaction.eq32 c d = true ↔ single.eq c.toNat d.toNat) :=
  ⟨feq_iff f64 1023 (by decide) (by decide) _ _ a.isLt b.isLt, feq_iff f32 127 (by decide) (by decide) _ _ c.isLt d.isLt⟩

/-- 2^53 as it is written and as it is cast; the two zeros; NaN -/
example : Compaction.eq64 0x4340000000000000#64 (Source.i64ToF64 (2 ^ 53)) = true ∧ Compaction.eq64 0x8000000000000000#64 0#64 = true ∧
    Compaction.eq64 0x7ff8000000000000#64 0x7ff8000000000000#64 = false := by decide

end Verif.Float
