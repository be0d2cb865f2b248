import Verif.Model.Compaction
import Verif.Lemmas.Codec
/-! Helper lemmas for typed compaction. -/
namespace Verif.Compaction
open VarInt Codec

theorem asI64_compInt (i : Int) : asI64 (compInt i) = some i := by
  unfold compInt
  split
  · simp_all [asI64]
  · split
    · simp_all [asI64]
    · split
      · simp_all [asI64]
      · simp [asI64]

theorem asF64_compInt (F : FloatOps) (i : Int) : asF64 F (compInt i) = some (i64ToF64 i) := by
  unfold compInt
  split
  · simp_all [asF64]
  · split
    · simp_all [asF64]
    · split
      · simp_all [asF64]
      · simp [asF64]

theorem asF32_compInt (F : FloatOps) (i : Int) : asF32 F (compInt i) = some (i64ToF32 i) := by
  unfold compInt
  split
  · simp_all [asF32]
  · split
    · simp_all [asF32]
    · split
      · simp_all [asF32]
      · simp [asF32]

theorem valid_compInt (i : Int) (h : InI64 i) : Valid (compInt i) := by
  unfold compInt
  split
  · trivial
  · split
    · trivial
    · split
      · simp only [Valid]
        have := (byteOfI8 i).toNat_lt
        unfold i8OfByte; split <;> omega
      · exact h

theorem strBytes_eq_nil (s : String) (h : (strBytes s).length = 0) : s = "" := by
  have h1 : strOfBytes (strBytes s) = strOfBytes [] := by rw [List.length_eq_zero_iff.mp h]
  rw [strOfBytes_strBytes, show strOfBytes [] = some "" from by
    rw [← strOfBytes_strBytes ""]; rfl] at h1
  exact Option.some.inj h1

theorem asString_compStr (s : String) : asString (compStr s) = some s := by
  unfold compStr
  simp only
  split
  · rename_i h; simp [asString, strBytes_eq_nil s h]
  · split
    · rfl
    · split <;> rfl

theorem valid_compStr (s : String) (h : (strBytes s).length < 2 ^ 63) : Valid (compStr s) := by
  unfold compStr
  simp only
  split
  · trivial
  · split
    · simp_all [Valid]
    · split <;> simp_all [Valid]

theorem feq64 (a b : BitVec 64) (h : eq64 a b = true) :
    a = b ∨ ((a = 0 ∨ a = 0x8000000000000000#64) ∧ (b = 0 ∨ b = 0x8000000000000000#64)) := by
  simp only [eq64, Fmt.feq, Fmt.isZero, Bool.and_eq_true, Bool.or_eq_true, beq_iff_eq, f64] at h
  rcases h with ⟨_, h | ⟨h1, h2⟩⟩
  · exact Or.inl (BitVec.eq_of_toNat_eq h)
  · right
    constructor
    · rcases h1 with h | h
      · exact Or.inl (BitVec.eq_of_toNat_eq (by simpa using h))
      · exact Or.inr (BitVec.eq_of_toNat_eq (by simpa using h))
    · rcases h2 with h | h
      · exact Or.inl (BitVec.eq_of_toNat_eq (by simpa using h))
      · exact Or.inr (BitVec.eq_of_toNat_eq (by simpa using h))

theorem feq32 (a b : BitVec 32) (h : eq32 a b = true) :
    a = b ∨ ((a = 0 ∨ a = 0x80000000#32) ∧ (b = 0 ∨ b = 0x80000000#32)) := by
  simp only [eq32, Fmt.feq, Fmt.isZero, Bool.and_eq_true, Bool.or_eq_true, beq_iff_eq, f32] at h
  rcases h with ⟨_, h | ⟨h1, h2⟩⟩
  · exact Or.inl (BitVec.eq_of_toNat_eq h)
  · right
    constructor
    · rcases h1 with h | h
      · exact Or.inl (BitVec.eq_of_toNat_eq (by simpa using h))
      · exact Or.inr (BitVec.eq_of_toNat_eq (by simpa using h))
    · rcases h2 with h | h
      · exact Or.inl (BitVec.eq_of_toNat_eq (by simpa using h))
      · exact Or.inr (BitVec.eq_of_toNat_eq (by simpa using h))

theorem f64ToI64_zero : f64ToI64 0#64 = 0 := by decide +kernel
theorem f64ToI64_negzero : f64ToI64 0x8000000000000000#64 = 0 := by decide +kernel
theorem i64ToF64_zero : i64ToF64 0 = 0#64 := by decide
theorem f32ToI32_zero : f32ToI32 0#32 = 0 := by decide
theorem f32ToI32_negzero : f32ToI32 0x80000000#32 = 0 := by decide
theorem f32ToI64_zero : f32ToI64 0#32 = 0 := by decide
theorem f32ToI64_negzero : f32ToI64 0x80000000#32 = 0 := by decide
theorem i64ToF32_zero : i64ToF32 0 = 0#32 := by decide
theorem eq64_zero : eq64 0#64 0#64 = true := by decide
theorem eq64_zero' : eq64 0#64 0x8000000000000000#64 = true := by decide

theorem compDouble_bits (F : FloatOps) (num : BitVec 64) : asF64 F (compDouble F num) = some num := by
  unfold compDouble
  split
  · rfl
  · rename_i hneg
    simp only
    split
    · rfl
    · rename_i hint
      simp only [Bool.not_eq_true', Bool.not_eq_false] at hint
      -- the truncated number is the number, or both are zero
      have h1 := feq64 _ _ hint
      split
      · rename_i hi
        have h2 := feq64 _ _ hi
        rw [asF64_compInt]
        rcases h1 with h1 | ⟨h1, h1'⟩
        · rcases h2 with h2 | ⟨h2, h2'⟩
          · rw [h2, h1]
          · rw [h1] at h2' ⊢
            rcases h2' with h2' | h2'
            · rw [h2']; decide +kernel
            · exact absurd h2' hneg
        · have hn : num = 0 := by rcases h1' with h | h; exact h; exact absurd h hneg
          rcases h1 with h1 | h1 <;> rw [h1, hn] <;> decide +kernel
      · rename_i hi
        split
        · rename_i hf
          have h3 := feq64 _ _ hf
          simp only [asF64]
          rcases h3 with h3 | ⟨h3, h3'⟩
          · rw [h3]
          · exfalso
            have hn : num = 0 := by rcases h3' with h | h; exact h; exact absurd h hneg
            apply hi
            rcases h1 with h1 | ⟨h1 | h1, _⟩
            · rw [h1, hn]; decide +kernel
            · rw [h1]; decide +kernel
            · rw [h1]; decide +kernel
        · rfl

theorem i64ToF32_max : i64ToF32 i32Hi = 0x4f000000#32 := by decide
theorem i64ToF32_min : i64ToF32 i32Lo = 0xcf000000#32 := by decide

/-- a saturated `i32` conversion that compares equal comes from 2^31 -/
theorem f32_int_agree (a : BitVec 32) (h : eq32 (i64ToF32 (f32ToI32 a)) a = true) :
    i64ToF32 (f32ToI64 a) = i64ToF32 (f32ToI32 a) := by
  unfold f32ToI32 f32ToI64 at *
  simp only [Fmt.toInt] at *
  by_cases hn : f32.isNan a.toNat = true
  · simp [hn]
  · simp only [hn, Bool.false_eq_true, ↓reduceIte] at *
    by_cases hinf : f32.isInf a.toNat = true
    · exfalso
      simp only [hinf, ↓reduceIte] at h
      have hz : ∀ b : BitVec 32, f32.isInf b.toNat = true → b ≠ 0 ∧ b ≠ 0x80000000#32 ∧ b ≠ 0x4f000000#32 ∧ b ≠ 0xcf000000#32 := by
        intro b hb
        refine ⟨?_, ?_, ?_, ?_⟩ <;> rintro rfl <;> revert hb <;> decide
      have hz' := hz a hinf
      split at h
      · rw [i64ToF32_min] at h
        rcases feq32 _ _ h with h | ⟨h, _⟩
        · exact hz'.2.2.2 h.symm
        · revert h; decide
      · rw [i64ToF32_max] at h
        rcases feq32 _ _ h with h | ⟨h, _⟩
        · exact hz'.2.2.1 h.symm
        · revert h; decide
    · simp only [hinf, Bool.false_eq_true, ↓reduceIte] at *
      generalize hv : (if f32.neg a.toNat = true then -(f32.truncMag a.toNat : Int) else (f32.truncMag a.toNat : Int)) = v at *
      by_cases hlo : v < i32Lo
      · exfalso
        have hm : max i32Lo (min i32Hi v) = i32Lo := by unfold i32Lo i32Hi at *; omega
        rw [hm, i64ToF32_min] at h
        rcases feq32 _ _ h with h | ⟨h, _⟩
        · rw [← h] at hv
          have : v = i32Lo := by rw [← hv]; decide
          omega
        · revert h; decide
      · by_cases hhi : i32Hi < v
        · have hm : max i32Lo (min i32Hi v) = i32Hi := by unfold i32Lo i32Hi at *; omega
          rw [hm] at h ⊢
          rw [i64ToF32_max] at h
          rcases feq32 _ _ h with h | ⟨h, _⟩
          · rw [← h] at hv
            have hv' : v = 2147483648 := by rw [← hv]; decide
            rw [hv']; decide
          · exact absurd h (by decide)
        · have h1 : max i32Lo (min i32Hi v) = v := by unfold i32Lo i32Hi at *; omega
          have h2 : max i64Lo (min i64Hi v) = v := by unfold i64Lo i64Hi i32Lo i32Hi at *; omega
          rw [h1, h2]

theorem compFloat_bits (F : FloatOps) (num : BitVec 32) : asF32 F (compFloat F num) = some num := by
  unfold compFloat
  split
  · rfl
  · rename_i hneg
    simp only
    split
    · rfl
    · rename_i hint
      simp only [Bool.not_eq_true', Bool.not_eq_false] at hint
      have h1 := feq32 _ _ hint
      split
      · rename_i hi
        have h2 := feq32 _ _ hi
        rw [asF32_compInt, f32_int_agree _ hi]
        rcases h1 with h1 | ⟨h1, h1'⟩
        · rcases h2 with h2 | ⟨h2, h2'⟩
          · rw [h2, h1]
          · rw [h1] at h2' ⊢
            rcases h2' with h2' | h2'
            · rw [h2']; decide
            · exact absurd h2' hneg
        · have hn : num = 0 := by rcases h1' with h | h; exact h; exact absurd h hneg
          rcases h1 with h1 | h1 <;> rw [h1, hn] <;> decide
      · rfl

end Verif.Compaction
