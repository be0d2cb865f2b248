import Verif.Model.Codec
/-! # Evaluation of the encoder on small values, for examples -/
namespace Verif.Codec
open VarInt

theorem write_small (n : Nat) (h : n < 128) : write n = [1, UInt8.ofNat n] := by
  have hm : magnitude (n : Int) = n := by unfold magnitude; split <;> omega
  have he : encode n = [UInt8.ofNat n] := by
    unfold encode
    rw [hm]
    have h1 : signedBytes (n : Int) = 1 := by unfold signedBytes; rw [hm, signedBytesLoop, if_pos h]
    have h2 : toBytes n = [UInt8.ofNat n] := by
      unfold toBytes
      split
      · subst n; rfl
      · rw [digits, if_neg (by omega), Nat.div_eq_of_lt (by omega), digits, if_pos rfl, Nat.mod_eq_of_lt (by omega)]
    simp only [h1, h2]
    have h3 : ¬ ((n : Int) < 0) := by omega
    have h4 : ¬ ([UInt8.ofNat n].length < 1) := by simp
    rw [if_neg h3, if_neg h4]
  unfold write
  rw [he]
  rfl

/-- The tag bytes, eight bits at a time; `n` rounds. -/
def bitsToBytesFuel : Nat → List Bool → Bytes
  | 0, _ => []
  | _ + 1, [] => []
  | n + 1, b :: l =>
    UInt8.ofNat (bitsVal ((b :: l.take 7) ++ List.replicate (8 - (b :: l.take 7).length) false))
      :: bitsToBytesFuel n (l.drop 7)

theorem bitsToBytes_fuel (n : Nat) (l : List Bool) (h : l.length ≤ 8 * n) : bitsToBytes l = bitsToBytesFuel n l := by
  induction n generalizing l with
  | zero =>
    have : l = [] := by simpa using h
    subst this
    rw [bitsToBytes]; rfl
  | succ n ih =>
    cases l with
    | nil => rw [bitsToBytes]; rfl
    | cons b l =>
      rw [bitsToBytes, bitsToBytesFuel, ih]
      simp only [List.length_cons, List.length_drop] at h ⊢
      omega

/-- `encodeVals` for few values -/
def encodeSmall (n : Nat) (vals : List KVal) : Option Bytes :=
  let bits := vals.flatMap tagBits
  let tagVec := bitsToBytesFuel n bits
  if vals.any encodePanics = false ∧ vals.length < 128 ∧ tagVec.length < 128 ∧ bits.length ≤ 8 * n then
    some ([1, UInt8.ofNat vals.length, 1, UInt8.ofNat tagVec.length] ++ (tagVec ++ vals.flatMap dataBytes))
  else none

theorem encodeVals_small (n : Nat) (vals : List KVal) (out : Bytes) (h : encodeSmall n vals = some out) :
    encodeVals vals = .ok out := by
  unfold encodeSmall at h
  simp only at h
  split at h
  · rename_i hc
    obtain ⟨h1, h2, h3, h4⟩ := hc
    unfold encodeVals
    rw [h1, bitsToBytes_fuel n _ h4, write_small _ h2]
    simp only [Bool.false_eq_true, if_false]
    rw [write_small _ h3]
    cases h
    rfl
  · cases h

example : encodeVals [.bit true, .byte 5, .bit false, .bit false] = .ok [1, 4, 1, 2, 221, 0, 5] :=
  encodeVals_small 2 _ _ (by decide +kernel)

end Verif.Codec
