import Verif.Spec.HashDir
import Verif.Lemmas.Codec
import Mathlib.Data.Nat.Digits.Lemmas
import Mathlib.Tactic.ByContra
/-! # Folder names and creation times (C43, C44) -/
namespace Verif.HashDir
open Codec VarInt

/-! ## From names to hashes -/

theorem hexNumber_append (a b : List UInt8) : hexNumber (a ++ b) = hexNumber a * 16 ^ b.length + hexNumber b := by
  unfold hexNumber
  rw [List.reverse_append, List.map_append, Nat.ofDigits_append]
  simp only [List.length_map, List.length_reverse]
  rw [Nat.mul_comm (16 ^ _)]; omega

theorem hexNumber_cons (c : UInt8) (r : List UInt8) : hexNumber (c :: r) = hexValue c * 16 ^ r.length + hexNumber r := by
  rw [show c :: r = [c] ++ r from rfl, hexNumber_append]
  simp [hexNumber]

theorem hexValue_lt {b : UInt8} (h : HexByte b) : hexValue b < 16 := by
  unfold hexValue
  rcases h with h | h
  · rw [if_pos h.2]; omega
  · rw [if_neg (by omega)]; omega

theorem hexNumber_lt {s : List UInt8} (h : ∀ b ∈ s, HexByte b) : hexNumber s < 16 ^ s.length := by
  induction s with
  | nil => decide
  | cons c r ih =>
    rw [hexNumber_cons, List.length_cons, Nat.pow_succ]
    have h1 := hexValue_lt (h c List.mem_cons_self)
    have h2 := ih fun b hb => h b (List.mem_cons_of_mem _ hb)
    have : hexValue c * 16 ^ r.length ≤ 15 * 16 ^ r.length := Nat.mul_le_mul_right _ (by omega)
    omega

/-- what happens with one byte -/
theorem subByte_nat (checked : Bool) (a b : UInt8) (h : b.toNat ≤ a.toNat) :
    subByte checked a b = .ok (a - b) ∧ (a - b).toNat = a.toNat - b.toNat := by
  refine ⟨?_, UInt8.toNat_sub_of_le _ _ (UInt8.le_iff_toNat_le.2 h)⟩
  unfold subByte
  rw [if_neg]
  simp only [Bool.and_eq_true, decide_eq_true_eq, not_and]
  intro _ hlt
  have := UInt8.lt_iff_toNat_lt.1 hlt
  omega

theorem hexToU64_digit (checked : Bool) (r : UInt64) (b : UInt8) (s : Bytes) (h : HexByte b) :
    hexToU64 checked r (b :: s) = hexToU64 checked ((r <<< 4) + UInt64.ofNat (hexValue b)) s := by
  conv_lhs => unfold hexToU64
  rcases h with ⟨h1, h2⟩ | ⟨h1, h2⟩
  · obtain ⟨e, hn⟩ := subByte_nat checked b 48 h1
    rw [e]
    simp only [Res.bind_ok]
    rw [if_pos (UInt8.le_iff_toNat_le.2 (by rw [hn]; exact Nat.sub_le_iff_le_add.2 h2))]
    congr 2
    rw [← UInt64.toNat_inj]
    unfold hexValue
    rw [if_pos h2, UInt8.toNat_toUInt64, hn, UInt64.toNat_ofNat']
    rw [Nat.mod_eq_of_lt (by omega)]; rfl
  · obtain ⟨e, hn⟩ := subByte_nat checked b 48 (show (48 : Nat) ≤ _ by omega)
    obtain ⟨e', hn'⟩ := subByte_nat checked b 97 h1
    rw [e]
    simp only [Res.bind_ok]
    rw [if_neg (fun hle => by have := UInt8.le_iff_toNat_le.1 hle; rw [hn] at this; have : b.toNat - 48 ≤ 9 := this; omega)]
    rw [e']
    simp only [Res.bind_ok]
    rw [if_pos (UInt8.le_iff_toNat_le.2 (by rw [hn']; show b.toNat - 97 ≤ 5; omega))]
    congr 2
    rw [← UInt64.toNat_inj]
    unfold hexValue
    rw [if_neg (by omega), UInt64.toNat_add, UInt8.toNat_toUInt64, hn', UInt64.toNat_ofNat']
    show (10 + (b.toNat - 97)) % 2 ^ 64 = _
    congr 1; omega

theorem shift_add (r : UInt64) (d : Nat) (hd : d < 16) (hr : r.toNat < 2 ^ 60) :
    ((r <<< 4) + UInt64.ofNat d).toNat = r.toNat * 16 + d := by
  rw [UInt64.toNat_add, UInt64.toNat_shiftLeft, UInt64.toNat_ofNat', show UInt64.toNat 4 % 64 = 4 from rfl, Nat.shiftLeft_eq]
  omega

theorem hexToU64_hex (checked : Bool) (s : Bytes) (h : ∀ b ∈ s, HexByte b) (r : UInt64) (hr : (r.toNat + 1) * 16 ^ s.length ≤ 2 ^ 64) :
    ∃ v, hexToU64 checked r s = .ok (some v) ∧ v.toNat = r.toNat * 16 ^ s.length + hexNumber s := by
  induction s generalizing r with
  | nil => exact ⟨r, rfl, by simp [hexNumber]⟩
  | cons b s ih =>
    have hb := h b List.mem_cons_self
    have hv := hexValue_lt hb
    rw [hexToU64_digit checked r b s hb]
    rw [List.length_cons, Nat.pow_succ] at hr
    have hp : 1 ≤ 16 ^ s.length := Nat.one_le_pow _ _ (by decide)
    have hr60 : r.toNat < 2 ^ 60 := by
      have : (r.toNat + 1) * (1 * 16) ≤ 2 ^ 64 := Nat.le_trans (Nat.mul_le_mul_left _ (Nat.mul_le_mul_right _ hp)) hr
      omega
    have hs := shift_add r (hexValue b) hv hr60
    obtain ⟨v, h1, h2⟩ := ih (fun b hb => h b (List.mem_cons_of_mem _ hb)) _ (by
      rw [hs]
      refine Nat.le_trans (Nat.mul_le_mul_right _ (show _ ≤ (r.toNat + 1) * 16 by omega)) ?_
      rw [Nat.mul_assoc, Nat.mul_comm 16]; exact hr)
    refine ⟨v, h1, ?_⟩
    rw [h2, hs, hexNumber_cons, List.length_cons, Nat.pow_succ, Nat.add_mul, Nat.mul_assoc, Nat.mul_comm 16]
    omega

theorem hexToU64_append (checked : Bool) (a s : Bytes) (h : ∀ b ∈ a, HexByte b) (r : UInt64) :
    ∃ r', hexToU64 checked r (a ++ s) = hexToU64 checked r' s := by
  induction a generalizing r with
  | nil => exact ⟨r, rfl⟩
  | cons b a ih =>
    rw [List.cons_append, hexToU64_digit checked r b _ (h b List.mem_cons_self)]
    exact ih (fun b hb => h b (List.mem_cons_of_mem _ hb)) _

/-- a byte that is no digit -/
theorem hexToU64_other (checked : Bool) (r : UInt64) (b : UInt8) (s : Bytes) (h : ¬ HexByte b) :
    hexToU64 checked r (b :: s) = if checked = true ∧ b.toNat < 97 then .panic else .ok none := by
  have hlt : b.toNat < 256 := b.toNat_lt
  unfold HexByte at h
  unfold hexToU64 subByte
  cases checked with
  | false =>
    simp only [Bool.false_and, Bool.false_eq_true, if_false, Res.bind_ok, false_and]
    have e1 : (b - 48).toNat = (2 ^ 8 - 48 + b.toNat) % 2 ^ 8 := UInt8.toNat_sub b 48
    have e2 : (b - 97).toNat = (2 ^ 8 - 97 + b.toNat) % 2 ^ 8 := UInt8.toNat_sub b 97
    rw [if_neg (fun hle => by have := UInt8.le_iff_toNat_le.1 hle; rw [e1, show (9 : UInt8).toNat = 9 from rfl] at this; omega),
      if_neg (fun hle => by have := UInt8.le_iff_toNat_le.1 hle; rw [e2, show (5 : UInt8).toNat = 5 from rfl] at this; omega)]
  | true =>
    simp only [Bool.true_and, decide_eq_true_eq, true_and]
    by_cases h48 : b < 48
    · have : b.toNat < 48 := UInt8.lt_iff_toNat_lt.1 h48
      rw [if_pos h48, if_pos (show b.toNat < 97 by omega)]; rfl
    · have h48' : ¬ b.toNat < 48 := fun hh => h48 (UInt8.lt_iff_toNat_lt.2 hh)
      rw [if_neg h48]
      have e1 : (b - 48).toNat = b.toNat - 48 := (subByte_nat true b 48 (by show 48 ≤ _; omega)).2
      simp only [Res.bind_ok]
      rw [if_neg (fun hle => by have := UInt8.le_iff_toNat_le.1 hle; rw [e1, show (9 : UInt8).toNat = 9 from rfl] at this; omega)]
      by_cases h97 : b < 97
      · have : b.toNat < 97 := UInt8.lt_iff_toNat_lt.1 h97
        rw [if_pos h97, if_pos this]; rfl
      · have h97' : ¬ b.toNat < 97 := fun hh => h97 (UInt8.lt_iff_toNat_lt.2 hh)
        rw [if_neg h97, if_neg h97']
        have e2 : (b - 97).toNat = b.toNat - 97 := (subByte_nat true b 97 (by show 97 ≤ _; omega)).2
        simp only [Res.bind_ok]
        rw [if_neg (fun hle => by have := UInt8.le_iff_toNat_le.1 hle; rw [e2, show (5 : UInt8).toNat = 5 from rfl] at this; omega)]

theorem fatal_iff (b : UInt8) : Fatal b ↔ ¬ HexByte b ∧ b.toNat < 97 := by unfold Fatal HexByte; omega

instance (b : UInt8) : Decidable (Fatal b) := inferInstanceAs (Decidable (_ ∨ _))

/-- the first byte that is no digit -/
theorem split_hex (s : Bytes) : (∀ b ∈ s, HexByte b) ∨ ∃ a b r, s = a ++ b :: r ∧ (∀ x ∈ a, HexByte x) ∧ ¬ HexByte b := by
  induction s with
  | nil => exact .inl fun b hb => nomatch hb
  | cons c s ih =>
    by_cases hc : HexByte c
    · rcases ih with h | ⟨a, b, r, rfl, ha, hb⟩
      · left
        intro b hb
        rcases List.mem_cons.1 hb with rfl | hb
        · exact hc
        · exact h b hb
      · refine .inr ⟨c :: a, b, r, rfl, ?_, hb⟩
        intro x hx
        rcases List.mem_cons.1 hx with rfl | hx
        · exact hc
        · exact ha x hx
    · exact .inr ⟨[], c, s, rfl, (fun x hx => nomatch hx), hc⟩

theorem hexToU64_16 (checked : Bool) (s : Bytes) (hl : s.length = 16) (h : ∀ b ∈ s, HexByte b) :
    ∃ v, hexToU64 checked 0 s = .ok (some v) ∧ v.toNat = hexNumber s := by
  obtain ⟨v, h1, h2⟩ := hexToU64_hex checked s h 0 (by rw [hl]; decide)
  exact ⟨v, h1, by rw [h2]; simp⟩

/-- 32 digits -/
theorem folderNameToHash_hex (checked : Bool) (name : Bytes) (hl : name.length = 32) (h : ∀ b ∈ name, HexByte b) :
    folderNameToHash checked name = .ok (some (hexNumber name)) := by
  obtain ⟨u, hu, hu'⟩ := hexToU64_16 checked (name.take 16) (by simp [hl]) fun b hb => h b (List.mem_of_mem_take hb)
  obtain ⟨l, hl', hl''⟩ := hexToU64_16 checked (name.drop 16) (by simp [hl]) fun b hb => h b (List.mem_of_mem_drop hb)
  unfold folderNameToHash
  rw [if_neg (by simp [hl]), hu]
  simp only [Res.bind_ok]
  rw [hl']
  simp only [Res.bind_ok]
  rw [hu', hl'']
  congr 2
  conv_rhs => rw [← List.take_append_drop 16 name]
  rw [hexNumber_append, show (name.drop 16).length = 16 by simp [hl]]
  rfl

theorem folderNameToHash_other (checked : Bool) (name a r : Bytes) (b : UInt8) (hl : name.length = 32) (hs : name = a ++ b :: r)
    (ha : ∀ x ∈ a, HexByte x) (hb : ¬ HexByte b) :
    folderNameToHash checked name = if checked = true ∧ b.toNat < 97 then .panic else .ok none := by
  unfold folderNameToHash
  rw [if_neg (by simp [hl])]
  by_cases hk : a.length < 16
  · have ht : name.take 16 = a ++ b :: r.take (15 - a.length) := by
      rw [hs, List.take_append, List.take_of_length_le (by omega), show 16 - a.length = (15 - a.length) + 1 by omega, List.take_succ_cons]
    obtain ⟨r', hr'⟩ := hexToU64_append checked a (b :: r.take (15 - a.length)) ha 0
    rw [ht, hr', hexToU64_other checked r' b _ hb]
    by_cases hc : checked = true ∧ b.toNat < 97
    · rw [if_pos hc, if_pos hc]; rfl
    · rw [if_neg hc, if_neg hc]; rfl
  · have ht : name.take 16 = a.take 16 := by rw [hs, List.take_append_of_le_length (by omega)]
    have hd : name.drop 16 = a.drop 16 ++ b :: r := by rw [hs, List.drop_append_of_le_length (by omega)]
    obtain ⟨u, hu, _⟩ := hexToU64_16 checked (a.take 16) (by simp; omega) fun b hb => ha b (List.mem_of_mem_take hb)
    obtain ⟨r', hr'⟩ := hexToU64_append checked (a.drop 16) (b :: r) (fun b hb => ha b (List.mem_of_mem_drop hb)) 0
    rw [ht, hu]
    simp only [Res.bind_ok]
    rw [hd, hr', hexToU64_other checked r' b _ hb]
    by_cases hc : checked = true ∧ b.toNat < 97
    · rw [if_pos hc, if_pos hc]; rfl
    · rw [if_neg hc, if_neg hc]; rfl

/-! ## From hashes to names -/

theorem getChar_hex (num : UInt64) : HexByte (getChar num) ∧ hexValue (getChar num) = num.toNat / 2 ^ 60 := by
  have hn : num.toNat < 2 ^ 64 := num.toNat_lt
  have hx : ((num &&& 0xf000000000000000) >>> 60).toNat = num.toNat / 2 ^ 60 := by
    rw [UInt64.toNat_shiftRight, UInt64.toNat_and, show (60 : UInt64).toNat % 64 = 60 from rfl,
      show (0xf000000000000000 : UInt64).toNat = (2 ^ 4 - 1) <<< 60 from rfl]
    rw [Nat.shiftRight_and_distrib, show ((2 ^ 4 - 1) <<< 60) >>> 60 = 2 ^ 4 - 1 from rfl, Nat.and_two_pow_sub_one_eq_mod,
      Nat.shiftRight_eq_div_pow]
    omega
  unfold getChar
  simp only
  generalize (num &&& 0xf000000000000000) >>> 60 = hex at hx
  have hlt : hex.toNat < 16 := by omega
  by_cases h : hex < 10
  · have h' : hex.toNat < 10 := UInt64.lt_iff_toNat_lt.1 h
    rw [if_pos h]
    have e : (48 + hex.toUInt8).toNat = 48 + hex.toNat := by
      rw [UInt8.toNat_add, UInt64.toNat_toUInt8, show (48 : UInt8).toNat = 48 from rfl]; omega
    refine ⟨.inl (by omega), ?_⟩
    unfold hexValue
    rw [e, if_pos (by omega)]; omega
  · have h' : ¬ hex.toNat < 10 := fun hh => h (UInt64.lt_iff_toNat_lt.2 hh)
    rw [if_neg h]
    have e : (97 + (hex - 10).toUInt8).toNat = 87 + hex.toNat := by
      rw [UInt8.toNat_add, UInt64.toNat_toUInt8, UInt64.toNat_sub_of_le _ _ (UInt64.le_iff_toNat_le.2 (by show 10 ≤ _; omega)),
        show (97 : UInt8).toNat = 97 from rfl, show (10 : UInt64).toNat = 10 from rfl]; omega
    refine ⟨.inr (by omega), ?_⟩
    unfold hexValue
    rw [e, if_neg (by omega)]; omega

theorem u64ToHex_hex (num : UInt64) (k : Nat) : (u64ToHex num k).length = k ∧ ∀ b ∈ u64ToHex num k, HexByte b := by
  induction k generalizing num with
  | zero => exact ⟨rfl, fun b hb => nomatch hb⟩
  | succ k ih =>
    refine ⟨by rw [u64ToHex, List.length_cons, (ih _).1], ?_⟩
    intro b hb
    rcases List.mem_cons.1 hb with rfl | hb
    · exact (getChar_hex num).1
    · exact (ih _).2 b hb

theorem u64ToHex_number (num : UInt64) (k : Nat) (hk : k ≤ 16) : hexNumber (u64ToHex num k) = num.toNat / 2 ^ (64 - 4 * k) := by
  induction k generalizing num with
  | zero =>
    have : num.toNat < 2 ^ 64 := num.toNat_lt
    rw [Nat.div_eq_of_lt (by simpa using this)]; rfl
  | succ k ih =>
    rw [u64ToHex, hexNumber_cons, (getChar_hex num).2, (u64ToHex_hex _ k).1, ih _ (by omega)]
    rw [UInt64.toNat_shiftLeft, show UInt64.toNat 4 % 64 = 4 from rfl, Nat.shiftLeft_eq]
    generalize num.toNat = a
    have ha : a = a / 2 ^ 60 * 2 ^ 60 + a % 2 ^ 60 := by omega
    have h1 : a * 2 ^ 4 % 2 ^ 64 = (a % 2 ^ 60) * 2 ^ 4 := by omega
    rw [h1]
    have e1 : (64 - 4 * k) = (64 - 4 * (k + 1)) + 4 := by omega
    rw [e1, Nat.pow_add, Nat.mul_div_mul_right _ _ (by decide)]
    have e2 : (2 : Nat) ^ 60 = 16 ^ k * 2 ^ (64 - 4 * (k + 1)) := by
      rw [show (16 : Nat) = 2 ^ 4 from rfl, ← Nat.pow_mul, ← Nat.pow_add]; congr 1; omega
    conv_rhs => rw [ha]
    generalize a / 2 ^ 60 = q
    generalize a % 2 ^ 60 = t
    rw [e2, ← Nat.mul_assoc, Nat.add_comm (q * 16 ^ k * _), Nat.add_mul_div_right _ _ (Nat.two_pow_pos _), Nat.add_comm]

/-! ## C43 -/

theorem hexValue_inj {x y : UInt8} (hx : HexByte x) (hy : HexByte y) (e : hexValue x = hexValue y) : x = y := by
  rw [← UInt8.toNat_inj]
  unfold hexValue at e
  rcases hx with hx | hx <;> rcases hy with hy | hy
  · rw [if_pos hx.2, if_pos hy.2] at e; omega
  · rw [if_pos hx.2, if_neg (by omega)] at e; omega
  · rw [if_neg (by omega), if_pos hy.2] at e; omega
  · rw [if_neg (by omega), if_neg (by omega)] at e; omega

theorem hexNumber_inj {a b : List UInt8} (hl : a.length = b.length) (ha : ∀ x ∈ a, HexByte x) (hb : ∀ x ∈ b, HexByte x)
    (h : hexNumber a = hexNumber b) : a = b := by
  induction a generalizing b with
  | nil => rw [List.length_nil] at hl; exact (List.eq_nil_of_length_eq_zero hl.symm).symm
  | cons x a ih =>
    cases b with
    | nil => simp at hl
    | cons y b =>
      have hl' : a.length = b.length := by simpa using hl
      rw [hexNumber_cons, hexNumber_cons, hl'] at h
      have h1 := hexNumber_lt fun z hz => ha z (List.mem_cons_of_mem _ hz)
      have h2 := hexNumber_lt fun z hz => hb z (List.mem_cons_of_mem _ hz)
      rw [hl'] at h1
      have hp : 0 < 16 ^ b.length := Nat.pos_of_ne_zero (by simp)
      have e := congrArg (· / 16 ^ b.length) h
      simp only [Nat.mul_comm _ (16 ^ b.length), Nat.mul_add_div hp, Nat.div_eq_of_lt h1, Nat.div_eq_of_lt h2, Nat.add_zero] at e
      rw [e] at h
      rw [hexValue_inj (ha x List.mem_cons_self) (hb y List.mem_cons_self) e,
        ih hl' (fun z hz => ha z (List.mem_cons_of_mem _ hz)) (fun z hz => hb z (List.mem_cons_of_mem _ hz)) (by omega)]

/-- **C43, the name** of a hash consists of 32 small hexadecimal digits that denote it. -/
theorem C43_name (hash : Nat) (h : hash < 2 ^ 128) : Names (hashToFolderName hash) hash := by
  unfold hashToFolderName
  refine ⟨by simp [u64ToHex_hex], ?_, ?_⟩
  · intro b hb
    rcases List.mem_append.1 hb with hb | hb
    · exact (u64ToHex_hex _ _).2 b hb
    · exact (u64ToHex_hex _ _).2 b hb
  · rw [hexNumber_append, u64ToHex_number _ _ (Nat.le_refl _), u64ToHex_number _ _ (Nat.le_refl _), (u64ToHex_hex _ _).1,
      UInt64.toNat_ofNat', UInt64.toNat_ofNat']
    simp only [Nat.reduceMul, Nat.sub_self, Nat.pow_zero, Nat.div_one]
    rw [show (16 : Nat) ^ 16 = 2 ^ 64 from by decide]
    omega

/-- **C43, one to one.** A hash has one name, a name has one hash. -/
theorem C43_one_to_one : (∀ a b h, Names a h → Names b h → a = b) ∧ (∀ a h h', Names a h → Names a h' → h = h') ∧
    (∀ a h, Names a h → h < 2 ^ 128) := by
  refine ⟨?_, ?_, ?_⟩
  · rintro a b h ⟨l1, x1, n1⟩ ⟨l2, x2, n2⟩
    exact hexNumber_inj (l1.trans l2.symm) x1 x2 (n1.trans n2.symm)
  · rintro a h h' ⟨_, _, n1⟩ ⟨_, _, n2⟩
    exact n1.symm.trans n2
  · rintro a h ⟨l, x, rfl⟩
    have := hexNumber_lt x
    rw [l] at this
    exact Nat.lt_of_lt_of_eq this (by decide)

/-- **C43, round trip**: the name of a hash is read back, with or without overflow checks. -/
theorem C43_round_trip (checked : Bool) (hash : Nat) (h : hash < 2 ^ 128) :
    folderNameToHash checked (hashToFolderName hash) = .ok (some hash) := by
  obtain ⟨h1, h2, h3⟩ := C43_name hash h
  rw [folderNameToHash_hex checked _ h1 h2, h3]

/-- What is read for every name. -/
theorem C43_exact (checked : Bool) (name : Bytes) :
    (∀ h, folderNameToHash checked name = .ok (some h) ↔ Names name h) ∧
    (folderNameToHash checked name = .panic ↔ checked = true ∧ FatalName name) ∧ folderNameToHash checked name ≠ .err := by
  by_cases hl : name.length = 32
  · rcases split_hex name with hx | ⟨a, b, r, hs, ha, hb⟩
    · rw [folderNameToHash_hex checked name hl hx]
      refine ⟨?_, ?_, by simp⟩
      · intro h
        constructor
        · intro e; cases e; exact ⟨hl, hx, rfl⟩
        · rintro ⟨_, _, e⟩; rw [e]
      · constructor
        · intro e; cases e
        · rintro ⟨_, _, a, b, r, rfl, _, hb⟩
          exact absurd (hx b (by simp)) ((fatal_iff b).1 hb).1
    · rw [folderNameToHash_other checked name a r b hl hs ha hb]
      refine ⟨?_, ?_, ?_⟩
      · intro h
        constructor
        · intro e; split at e <;> cases e
        · rintro ⟨_, hx, _⟩
          exact absurd (hx b (by rw [hs]; simp)) hb
      · constructor
        · intro e
          split at e
          · rename_i hc; exact ⟨hc.1, hl, a, b, r, hs, ha, (fatal_iff b).2 ⟨hb, hc.2⟩⟩
          · cases e
        · rintro ⟨hc, _, a', b', r', hs', ha', hb'⟩
          have hn := folderNameToHash_other checked name a' r' b' hl hs' ha' ((fatal_iff b').1 hb').1
          rw [folderNameToHash_other checked name a r b hl hs ha hb] at hn
          rw [hn, if_pos ⟨hc, ((fatal_iff b').1 hb').2⟩]
      · split <;> simp
  · have e : folderNameToHash checked name = .ok none := by unfold folderNameToHash; rw [if_pos hl]
    rw [e]
    refine ⟨?_, ?_, by simp⟩
    · intro h
      constructor
      · intro e; cases e
      · rintro ⟨h1, _⟩; exact absurd h1 hl
    · constructor
      · intro e; cases e
      · rintro ⟨_, h1, _⟩; exact absurd h1 hl

/-- **C43, recognition, in a build without overflow checks**: exactly the names of hashes are recognised. -/
theorem C43_recognised (name : Bytes) :
    (∃ h, folderNameToHash false name = .ok (some h) ∧ name = hashToFolderName h) ∨
    (folderNameToHash false name = .ok none ∧ ∀ h, h < 2 ^ 128 → name ≠ hashToFolderName h) := by
  obtain ⟨h1, h2, h3⟩ := C43_exact false name
  cases hf : folderNameToHash false name with
  | err => exact absurd hf h3
  | panic => exact absurd (h2.1 hf).1 (by decide)
  | ok o =>
    cases o with
    | some h =>
      have hn := (h1 h).1 hf
      exact .inl ⟨h, rfl, C43_one_to_one.1 _ _ _ hn (C43_name h (C43_one_to_one.2.2 _ _ hn))⟩
    | none =>
      refine .inr ⟨rfl, ?_⟩
      rintro h hh rfl
      rw [C43_round_trip false h hh] at hf
      cases hf

/-- **C43, recognition, in a build with overflow checks** (partial: names with a fatal byte make it panic). -/
theorem C43_recognised_checked_partial (name : Bytes) (hf : ¬ FatalName name) :
    (∃ h, folderNameToHash true name = .ok (some h) ∧ name = hashToFolderName h) ∨
    (folderNameToHash true name = .ok none ∧ ∀ h, h < 2 ^ 128 → name ≠ hashToFolderName h) := by
  obtain ⟨h1, h2, h3⟩ := C43_exact true name
  cases hx : folderNameToHash true name with
  | err => exact absurd hx h3
  | panic => exact absurd (h2.1 hx).2 hf
  | ok o =>
    cases o with
    | some h =>
      have hn := (h1 h).1 hx
      exact .inl ⟨h, rfl, C43_one_to_one.1 _ _ _ hn (C43_name h (C43_one_to_one.2.2 _ _ hn))⟩
    | none =>
      refine .inr ⟨rfl, ?_⟩
      rintro h hh rfl
      rw [C43_round_trip true h hh] at hx
      cases hx

/-- **C43 is false in a build with overflow checks**: the name `New folder for the backup of it!` is not refused, it makes the
list of folders panic. -/
theorem C43_negation : folderNameToHash true (strBytes "New folder for the backup of it!") = .panic := by decide +kernel

/-- … and so does the name of a hash in capitals. -/
theorem C43_negation_capitals : folderNameToHash true (strBytes "0123456789ABCDEF0123456789ABCDEF") = .panic := by decide +kernel

example : hashToFolderName 0x123456789abcdef0fedcba9876543210 = strBytes "123456789abcdef0fedcba9876543210" := by decide +kernel
example : ¬ FatalName (strBytes "zzzz") := by
  rintro ⟨h, _⟩; revert h; decide +kernel

/-! ## C44 -/

theorem readN_append (a rest : Bytes) (n : Nat) (h : a.length = n) : readN n (a ++ rest) = .ok (a, rest) := by
  unfold readN
  rw [if_neg (by simp [h])]
  subst h
  simp

theorem time_add (t : Time) (secs nanos : Nat) (hn : t.nanos + nanos < 1000000000) (hs : t.secs + secs < 2 ^ 63) :
    t.add secs nanos = .ok ⟨t.secs + secs, t.nanos + nanos⟩ := by
  unfold Time.add
  dsimp only
  rw [Nat.div_eq_of_lt hn, Nat.mod_eq_of_lt hn]
  have e : t.secs + (secs : Int) + ((0 : Nat) : Int) = t.secs + secs := Int.add_zero _
  rw [e, if_pos hs]

theorem add_zero_time (s n : Nat) (hs : s < 2 ^ 63) (hn : n < 1000000000) :
    timeOf s n = .ok ⟨s, n⟩ := by
  unfold timeOf
  have hs' : (0 : Int) + s < 2 ^ 63 := by omega
  have e : Time.add ⟨0, 0⟩ s 0 = .ok ⟨0 + s, 0⟩ := time_add ⟨0, 0⟩ s 0 (by simp) hs'
  rw [e, Res.bind_ok, Nat.div_eq_of_lt hn, Nat.mod_eq_of_lt hn]
  have e' := time_add ⟨0 + s, 0⟩ 0 n (by simpa using hn) (by simpa using hs')
  rw [e']
  simp

/-- the two numbers of the file -/
def readTwo (f : Nat → Nat → Res Time) : Rd UInt8 Time :=
  Rd.bind (readN 8) fun secs => Rd.bind (readN 4) fun nanos => Rd.lift (f (fromBytes secs) (fromBytes nanos))

theorem fromTimeDat_eq : fromTimeDat = readTwo timeOf := rfl

theorem readTwo_ok (f : Nat → Nat → Res Time) (a b rest : Bytes) (ha : a.length = 8) (hb : b.length = 4) :
    readTwo f (a ++ (b ++ rest)) = (f (fromBytes a) (fromBytes b)).map fun t => (t, rest) := by
  unfold readTwo
  simp only [Rd.bind]
  rw [readN_append _ _ 8 ha]
  simp only [Res.bind_ok]
  rw [readN_append _ _ 4 hb]
  simp only [Res.bind_ok]
  rfl

theorem readTwo_short (f : Nat → Nat → Res Time) (x : Bytes) (hlen : x.length < 12) : readTwo f x = .err := by
  unfold readTwo
  simp only [Rd.bind]
  by_cases h8 : x.length < 8
  · rw [show readN 8 x = .err from by unfold readN; rw [if_pos h8], Res.bind_err]
  · rw [show readN 8 x = .ok (x.take 8, x.drop 8) from by unfold readN; rw [if_neg h8]]
    simp only [Res.bind_ok]
    rw [show readN 4 (x.drop 8) = .err from by unfold readN; rw [if_pos (by rw [List.length_drop]; omega)], Res.bind_err]

/-- **C44.** Every time since 1970 that the system has is written and read back exactly. -/
theorem C44_round_trip (t : Time) (h : t.Wf) (h0 : 0 ≤ t.secs) :
    ∃ out, createTimeDat t = .ok out ∧ out.length = 12 ∧ ∀ rest, fromTimeDat (out ++ rest) = .ok (t, rest) := by
  obtain ⟨⟨_, h1⟩, h2⟩ := h
  refine ⟨leBytes 8 t.secs.toNat ++ leBytes 4 t.nanos, ?_, by simp, ?_⟩
  · unfold createTimeDat; rw [if_neg (by omega)]
  · intro rest
    rw [fromTimeDat_eq, List.append_assoc, readTwo_ok _ _ _ _ (leBytes_length _ _) (leBytes_length _ _),
      fromBytes_leBytes, fromBytes_leBytes, Nat.mod_eq_of_lt (show t.secs.toNat < 256 ^ 8 by omega),
      Nat.mod_eq_of_lt (show t.nanos < 256 ^ 4 by omega), add_zero_time _ _ (by omega) h2, Res.map_ok, Int.toNat_of_nonneg h0]

/-- Times before 1970 are refused. -/
theorem C44_before (t : Time) (h0 : t.secs < 0) : createTimeDat t = .err := by unfold createTimeDat; rw [if_pos h0]

/-- Different times are written differently. -/
theorem C44_injective (t t' : Time) (h : t.Wf) (h' : t'.Wf) (out : Bytes) (he : createTimeDat t = .ok out)
    (he' : createTimeDat t' = .ok out) : t = t' := by
  have h0 : 0 ≤ t.secs := by
    by_contra hn; rw [C44_before t (by omega)] at he; cases he
  have h0' : 0 ≤ t'.secs := by
    by_contra hn; rw [C44_before t' (by omega)] at he'; cases he'
  obtain ⟨o, e, _, r⟩ := C44_round_trip t h h0
  obtain ⟨o', e', _, r'⟩ := C44_round_trip t' h' h0'
  rw [he] at e; cases e
  rw [he'] at e'; cases e'
  have := (r []).symm.trans (r' [])
  cases this
  rfl

/-- A file that was cut off is refused, and the time of the system is taken instead. -/
theorem C44_truncated (t : Time) (out : Bytes) (he : createTimeDat t = .ok out) (cut : Nat) (hc : cut < out.length) :
    fromTimeDat (out.take cut) = .err := by
  have hl : out.length = 12 := by
    unfold createTimeDat at he
    split at he
    · cases he
    · cases he; simp
  have hlen : (out.take cut).length < 12 := by rw [List.length_take]; omega
  rw [fromTimeDat_eq]
  exact readTwo_short _ _ hlen

/-- A damaged file with a time that does not fit makes the list of folders panic. -/
theorem C44_damaged_panics : fromTimeDat (leBytes 8 (2 ^ 63) ++ leBytes 4 0) = .panic := by decide +kernel

example : (⟨1700000000, 123456789⟩ : Time).Wf := ⟨⟨by decide, by decide⟩, by decide⟩

/-! ## The list of folders -/

theorem time_le_total (a b : Time) : (a.le b || b.le a) = true := by
  unfold Time.le
  simp only [Bool.or_eq_true, Bool.and_eq_true, decide_eq_true_eq]
  omega

theorem time_le_trans (a b c : Time) (h1 : a.le b = true) (h2 : b.le c = true) : a.le c = true := by
  unfold Time.le at *
  simp only [Bool.or_eq_true, Bool.and_eq_true, decide_eq_true_eq] at *
  omega

theorem collect_perm {checked : Bool} {l : List Entry} {out : List (Nat × Time)} (h : collect checked l = .ok out) (x : Nat × Time) :
    x ∈ out ↔ ∃ e ∈ l, e.isDir = true ∧ Names e.name x.1 ∧ getFolderTime e = .ok x.2 := by
  induction l generalizing out with
  | nil => cases h; simp
  | cons e r ih =>
    unfold collect at h
    by_cases hd : e.isDir = true
    · rw [if_pos hd] at h
      obtain ⟨o, ho, h⟩ := Res.bind_eq_ok.1 h
      cases o with
      | none =>
        rw [ih h]
        constructor
        · rintro ⟨e', he', hh⟩; exact ⟨e', List.mem_cons_of_mem _ he', hh⟩
        · rintro ⟨e', he', hd', hn, ht⟩
          rcases List.mem_cons.1 he' with rfl | he'
          · rw [((C43_exact checked _).1 x.1).2 hn] at ho; cases ho
          · exact ⟨e', he', hd', hn, ht⟩
      | some hash =>
        obtain ⟨t, ht, h⟩ := Res.bind_eq_ok.1 h
        cases hc : collect checked r with
        | err => rw [hc] at h; cases h
        | panic => rw [hc] at h; cases h
        | ok l =>
          rw [hc] at h
          cases h
          have hn := ((C43_exact checked _).1 hash).1 ho
          rw [List.mem_cons, ih hc]
          constructor
          · rintro (rfl | ⟨e', he', hh⟩)
            · exact ⟨e, List.mem_cons_self, hd, hn, ht⟩
            · exact ⟨e', List.mem_cons_of_mem _ he', hh⟩
          · rintro ⟨e', he', hd', hn', ht'⟩
            rcases List.mem_cons.1 he' with rfl | he'
            · left
              rw [ht] at ht'
              cases ht'
              rw [C43_one_to_one.2.1 _ _ _ hn hn']
            · exact .inr ⟨e', he', hd', hn', ht'⟩
    · rw [if_neg hd] at h
      rw [ih h]
      constructor
      · rintro ⟨e', he', hh⟩; exact ⟨e', List.mem_cons_of_mem _ he', hh⟩
      · rintro ⟨e', he', hd', hh⟩
        rcases List.mem_cons.1 he' with rfl | he'
        · exact absurd hd' hd
        · exact ⟨e', he', hd', hh⟩

/-- The list of source versions has exactly the folders with names of hashes, in the order of their times. -/
theorem C43_listed (checked : Bool) (entries : List Entry) (out : List (Nat × Time)) (h : getHashTimes checked entries = .ok out) :
    (∀ x, x ∈ out ↔ ∃ e ∈ entries, e.isDir = true ∧ Names e.name x.1 ∧ getFolderTime e = .ok x.2) ∧
    out.Pairwise fun a b => a.2.le b.2 = true := by
  unfold getHashTimes at h
  cases hc : collect checked entries with
  | err => rw [hc] at h; cases h
  | panic => rw [hc] at h; cases h
  | ok l =>
    rw [hc] at h
    cases h
    refine ⟨?_, ?_⟩
    · intro x
      rw [List.mem_mergeSort]
      exact collect_perm hc x
    · exact List.pairwise_mergeSort (le := fun a b : Nat × Time => a.2.le b.2) (fun a b c => time_le_trans a.2 b.2 c.2)
        (fun a b => time_le_total a.2 b.2) l

end Verif.HashDir
