import Verif.Model.UrlString
import Verif.Lemmas.Codec
/-! Helper lemmas for URL strings. -/
namespace Verif.UrlString
open VarInt Codec

theorem charToB6_b6ToChar (b : UInt8) (h : b.toNat < 64) :
    ∃ c, b6ToChar b = some c ∧ charToB6 c = some b ∧
      (c.isAlphanum = true ∨ c = '-' ∨ c = '_') := by
  have key : ∀ n : Fin 64, ∃ c, b6ToChar (UInt8.ofNat n.val) = some c ∧
      charToB6 c = some (UInt8.ofNat n.val) ∧ (c.isAlphanum = true ∨ c = '-' ∨ c = '_') := by
    intro n
    have : ∀ n : Fin 64, ((b6ToChar (UInt8.ofNat n.val)).any fun c =>
      charToB6 c == some (UInt8.ofNat n.val) && (c.isAlphanum || c == '-' || c == '_')) = true := by decide
    have := this n
    rw [Option.any_eq_true] at this
    obtain ⟨c, h1, h2⟩ := this
    simp only [Bool.and_eq_true, beq_iff_eq, Bool.or_eq_true] at h2
    exact ⟨c, h1, h2.1, by rcases h2.2 with (h | h) | h; exact Or.inl h; exact Or.inr (Or.inl h); exact Or.inr (Or.inr h)⟩
  have := key ⟨b.toNat, h⟩
  simpa using this

theorem b6s_roundtrip (bs : Bytes) (h : ∀ b ∈ bs, b.toNat < 64) :
    ∃ cs, b6sToString bs = some cs ∧ stringToB6s cs = some bs ∧
      (∀ c ∈ cs, c.isAlphanum = true ∨ c = '-' ∨ c = '_') ∧ cs.length = bs.length := by
  induction bs with
  | nil => exact ⟨[], rfl, rfl, by simp, rfl⟩
  | cons b bs ih =>
    obtain ⟨c, h1, h2, h3⟩ := charToB6_b6ToChar b (h b (by simp))
    obtain ⟨cs, g1, g2, g3, g4⟩ := ih fun b hb => h b (by simp [hb])
    refine ⟨c :: cs, by simp [b6sToString, h1, g1], by simp [stringToB6s, h2, g2], ?_, by simp [g4]⟩
    intro d hd
    rcases List.mem_cons.mp hd with rfl | hd
    · exact h3
    · exact g3 d hd

/-- one group -/
theorem spread_group (g rest : List Bool) (k : Nat) (hk : k + g.length ≤ 6) (h0 : 0 < k ∨ g = []) :
    spread (g ++ rest) k = g ++ spread rest (k + g.length) := by
  induction g generalizing k with
  | nil => simp
  | cons b g ih =>
    simp only [List.length_cons] at hk
    rw [List.cons_append, spread, if_neg (by omega), ih (k + 1) (by omega) (by omega)]
    simp only [List.length_cons, List.cons_append]
    rw [Nat.add_assoc, Nat.add_comm 1]

theorem spread_six (b : Bool) (g rest : List Bool) (hg : g.length = 5) :
    spread (b :: (g ++ rest)) 6 = false :: false :: b :: (g ++ spread rest 6) := by
  rw [spread, if_pos rfl, spread_group g rest 1 (by omega) (by omega), hg]

theorem spread_last (b : Bool) (g : List Bool) (hg : g.length ≤ 5) :
    spread (b :: g) 6 = false :: false :: b :: g := by
  have := spread_group g [] 1 (by omega) (by omega)
  rw [List.append_nil] at this
  rw [spread, if_pos rfl, this]
  simp [spread]

theorem bitsToBytes_eight (l rest : List Bool) (h : l.length = 8) :
    bitsToBytes (l ++ rest) = UInt8.ofNat (bitsVal l) :: bitsToBytes rest := by
  match l, h with
  | b :: l', h =>
    have h7 : l'.length = 7 := by simpa using h
    rw [List.cons_append, bitsToBytes, List.take_left' h7, List.drop_left' h7]
    simp [h7]

theorem sixBits_of_val (b : UInt8) : 
    [getBit b 6, getBit b 5, getBit b 4, getBit b 3, getBit b 2, getBit b 1] = appendBits b.toNat 6 := by
  simp [getBit, appendBits]

theorem bitsVal_false (l : List Bool) : bitsVal (false :: l) = bitsVal l := by
  rw [bitsVal_cons]; simp

theorem ofNat_bitsVal (l : List Bool) (h : l.length ≤ 8) : (UInt8.ofNat (bitsVal l)).toNat = bitsVal l := by
  have := bitsVal_lt l
  have h2 : 2 ^ l.length ≤ 2 ^ 8 := Nat.pow_le_pow_right (by omega) h
  simp; omega

theorem group_six (g : List Bool) (hg : g.length = 6) :
    let b := UInt8.ofNat (bitsVal (false :: false :: g))
    b.toNat < 64 ∧ [getBit b 6, getBit b 5, getBit b 4, getBit b 3, getBit b 2, getBit b 1] = g := by
  simp only
  rw [sixBits_of_val, bitsVal_false, bitsVal_false, ofNat_bitsVal g (by omega)]
  have := bitsVal_lt g
  rw [hg] at this
  refine ⟨by omega, ?_⟩
  have h := appendBits_bitsVal g
  rwa [hg] at h

theorem spread_roundtrip (l : List Bool) :
    (∀ b ∈ bitsToBytes (spread l 6), b.toNat < 64) ∧
    ((bitsToBytes (spread l 6)).flatMap fun b =>
        [getBit b 6, getBit b 5, getBit b 4, getBit b 3, getBit b 2, getBit b 1]) =
      l ++ List.replicate ((6 - l.length % 6) % 6) false := by
  induction hn : l.length using Nat.strongRecOn generalizing l with
  | _ n ih =>
    match l with
    | [] => subst hn; simp [spread, bitsToBytes]
    | b :: l' =>
      by_cases h : l'.length ≤ 5
      · rw [spread_last b l' h]
        have h8 : bitsToBytes (false :: false :: b :: l') =
            [UInt8.ofNat (bitsVal (false :: false :: (b :: l' ++ List.replicate (5 - l'.length) false)))] := by
          rw [bitsToBytes]
          have h1 : (false :: b :: l').take 7 = false :: b :: l' := List.take_of_length_le (by simp; omega)
          have h2 : (false :: b :: l').drop 7 = [] := List.drop_eq_nil_of_le (by simp; omega)
          rw [h1, h2, bitsToBytes]
          simp only [List.length_cons, List.cons_append]
          have e : 8 - (l'.length + 1 + 1 + 1) = 5 - l'.length := by omega
          rw [e]
        rw [h8]
        have hg := group_six (b :: l' ++ List.replicate (5 - l'.length) false) (by simp; omega)
        simp only at hg
        simp only [List.mem_singleton, forall_eq, List.flatMap_cons, List.flatMap_nil, List.append_nil]
        refine ⟨hg.1, hg.2.trans ?_⟩
        simp only [List.length_cons] at hn
        congr 2
        omega
      · have hl : (l'.take 5).length = 5 := by simp; omega
        have hsplit : b :: l' = b :: (l'.take 5 ++ l'.drop 5) := by rw [List.take_append_drop]
        have hs : spread (b :: l') 6 = (false :: false :: b :: l'.take 5) ++ spread (l'.drop 5) 6 := by
          rw [hsplit, spread_six b _ _ hl]; simp
        rw [hs, bitsToBytes_eight _ _ (by simp; omega)]
        have hg := group_six (b :: l'.take 5) (by simp; omega)
        have ih' := ih (l'.drop 5).length (by simp at hn ⊢; omega) (l'.drop 5) rfl
        simp only at hg
        constructor
        · intro c hc
          rcases List.mem_cons.mp hc with rfl | hc
          · exact hg.1
          · exact ih'.1 c hc
        · rw [List.flatMap_cons, hg.2, ih'.2, List.cons_append, ← List.append_assoc, List.take_append_drop]
          simp only [List.cons_append]
          congr 3
          simp only [List.length_cons] at hn
          simp only [List.length_drop]
          omega

theorem bytesToBits_length (bs : Bytes) : (bytesToBits bs).length = 8 * bs.length := by
  induction bs with
  | nil => rfl
  | cons b bs ih =>
    simp only [bytesToBits, List.flatMap_cons, List.length_append, appendBits_length, List.length_cons] at *
    omega

theorem bitsVal_appendBits (v n : Nat) : bitsVal (appendBits v n) = v % 2 ^ n := by
  induction n with
  | zero => simp [appendBits, bitsVal, Nat.mod_one]
  | succ n ih =>
    rw [appendBits, bitsVal_cons, ih, appendBits_length, Nat.pow_succ, Nat.mod_mul]
    have h1 : (v / 2 ^ n % 2 == 1).toNat = v / 2 ^ n % 2 := by
      rcases Nat.mod_two_eq_zero_or_one (v / 2 ^ n) with h | h <;> simp [h]
    rw [h1, Nat.mul_comm]; omega

theorem bitsToBytes_bytesToBits (bs : Bytes) (tail : List Bool) :
    bitsToBytes (bytesToBits bs ++ tail) = bs ++ bitsToBytes tail := by
  induction bs with
  | nil => simp [bytesToBits]
  | cons b bs ih =>
    have hb := b.toNat_lt
    simp only [bytesToBits, List.flatMap_cons, List.append_assoc] at *
    rw [bitsToBytes_eight _ _ (by simp), ih, bitsVal_appendBits, Nat.mod_eq_of_lt (by omega)]
    simp

theorem bitsToBytes_zeros (k : Nat) (h : k ≤ 8) :
    bitsToBytes (List.replicate k false) = if k = 0 then [] else [0] := by
  have : ∀ k : Fin 9, bitsToBytes (List.replicate k.val false) = if k.val = 0 then [] else [0] := by
    intro k
    rcases k with ⟨k, hk⟩
    match k, hk with
    | 0, _ => simp [bitsToBytes]
    | k + 1, hk =>
      rw [List.replicate_succ, bitsToBytes]
      have h1 : (List.replicate k false).take 7 = List.replicate k false := List.take_of_length_le (by simp; omega)
      have h2 : (List.replicate k false).drop 7 = [] := List.drop_eq_nil_of_le (by simp; omega)
      rw [h1, h2, ← List.replicate_succ, List.replicate_append_replicate, bitsToBytes]
      simp only [List.length_replicate, Nat.add_eq_zero_iff, Nat.succ_ne_self, and_false, ↓reduceIte]
      rw [show k + 1 + (8 - (k + 1)) = 8 from by omega]
      rfl
  exact this ⟨k, by omega⟩

theorem toB8s_toB6s (bs : Bytes) : toB8s (toB6s bs) = bs ++ if bs.length % 3 = 0 then [] else [0] := by
  unfold toB8s toB6s
  rw [(spread_roundtrip (bytesToBits bs)).2, bitsToBytes_bytesToBits, bytesToBits_length,
    bitsToBytes_zeros _ (by omega)]
  congr 1
  by_cases h : bs.length % 3 = 0
  · rw [if_pos h, if_pos (by omega)]
  · rw [if_neg h, if_neg (by omega)]

theorem url_main (bs : Bytes) : ∃ s, getUrlString bs = .ok s ∧
    (∀ c ∈ s.toList, c.isAlphanum = true ∨ c = '-' ∨ c = '_') ∧
    getBytes s = some (bs ++ if bs.length % 3 = 0 then [] else [0]) := by
  obtain ⟨cs, h1, h2, h3, h4⟩ := b6s_roundtrip (toB6s bs) (spread_roundtrip (bytesToBits bs)).1
  refine ⟨String.ofList cs, by simp [getUrlString, h1], by simpa using h3, ?_⟩
  simp [getBytes, h2, toB8s_toB6s]

end Verif.UrlString
