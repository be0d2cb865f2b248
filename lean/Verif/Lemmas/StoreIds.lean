import Verif.Spec.StoreIds
import Verif.Spec.Codec
import Verif.Lemmas.Compaction
/-! Lemmas about the storage of id sets. -/
namespace Verif.Diff
open VarInt Codec Compaction

/-! ## Values -/

theorem asUsize_i64OfU64 (n : Nat) (h : n < 2 ^ 64) : asUsize (i64OfU64 n) = n := by
  unfold asUsize i64OfU64
  split <;> omega

theorem inI64_i64OfU64 (n : Nat) (h : n < 2 ^ 64) : InI64 (i64OfU64 n) := by
  unfold InI64 i64OfU64
  split <;> constructor <;> omega

theorem valid_compU64 (n : Nat) (h : n < 2 ^ 64) : Valid (compU64 n) := valid_compInt _ (inI64_i64OfU64 n h)

theorem norm_compInt (i : Int) : norm (compInt i) = compInt i := by
  unfold compInt
  split
  · rfl
  · split
    · rfl
    · split <;> rfl

theorem norm_compU64 (n : Nat) : norm (compU64 n) = compU64 n := norm_compInt _

theorem norm_compStr (s : String) : norm (compStr s) = compStr s := by
  unfold compStr
  simp only
  split
  · rfl
  · split
    · rfl
    · split <;> rfl

theorem readI64_compInt (i : Int) (rest : List KVal) : readI64 (compInt i :: rest) = .ok (i, rest) := by
  simp [readI64, Rd.bind, readOne, Rd.lift, asI64_compInt]

theorem readU64_compU64 (n : Nat) (h : n < 2 ^ 64) (rest : List KVal) : readU64 (compU64 n :: rest) = .ok (n, rest) := by
  simp [readU64, Rd.bind, compU64, readI64_compInt, Rd.pure, asUsize_i64OfU64 n h]

theorem readBool_bit (b : Bool) (rest : List KVal) : readBool (.bit b :: rest) = .ok (b, rest) := by
  simp [readBool, Rd.bind, readOne, Rd.lift, asBool]

theorem readStr_compStr (s : String) (rest : List KVal) : readStr (compStr s :: rest) = .ok (s, rest) := by
  simp [readStr, Rd.bind, readOne, Rd.lift, asString_compStr]

theorem readTimes_u64 (l : List Nat) (h : ∀ i ∈ l, i < 2 ^ 64) (rest : List KVal) :
    readTimes readU64 l.length (l.map compU64 ++ rest) = .ok (l, rest) := by
  induction l with
  | nil => rfl
  | cons a l ih =>
    simp only [List.length_cons, readTimes, List.map_cons, List.cons_append, Rd.bind,
      readU64_compU64 a (h a (by simp)), Res.bind_ok, ih fun i hi => h i (by simp [hi])]
    rfl

theorem readU64Array_spec (l : List Nat) (hl : l.length < 2 ^ 64) (h : ∀ i ∈ l, i < 2 ^ 64) (rest : List KVal) :
    readU64Array (compU64 l.length :: (l.map compU64 ++ rest)) = .ok (l, rest) := by
  simp only [readU64Array, Rd.bind, readU64_compU64 _ hl, Res.bind_ok, readTimes_u64 l h]

/-! ## Representations -/

/-- The numbers of a representation fit their types, and a mask is not zero. -/
def StoredIDs.Fits : StoredIDs → Prop
  | .zero => True
  | .u64 b => b ≠ 0 ∧ b < 2 ^ 64
  | .bits v => v.length < 2 ^ 64 ∧ ∀ b ∈ v, b < 2 ^ 64
  | .numbers v => v.length < 2 ^ 64 ∧ ∀ b ∈ v, b < 2 ^ 64

theorem norm_map_compU64 (l : List Nat) : (l.map compU64).map norm = l.map compU64 := by
  rw [List.map_map]
  exact List.map_congr_left fun n _ => norm_compU64 n

theorem norm_bit (b : Bool) : norm (.bit b) = .bit b := rfl

theorem norm_writeStoredIds (s : StoredIDs) : (writeStoredIds s).map norm = writeStoredIds s := by
  cases s with
  | zero => rfl
  | u64 b => simp [writeStoredIds, norm_bit, norm_compU64]
  | bits v => simp only [writeStoredIds, norm_bit, norm_compU64, norm_map_compU64, List.map_append, List.map_cons, List.map_nil]
  | numbers v => simp only [writeStoredIds, norm_bit, norm_compU64, norm_map_compU64, List.map_append, List.map_cons, List.map_nil]

theorem valid_writeStoredIds (s : StoredIDs) (h : s.Fits) : ∀ k ∈ writeStoredIds s, Valid k := by
  cases s with
  | zero => intro k hk; simp only [writeStoredIds, List.mem_cons, List.not_mem_nil, or_false] at hk; rcases hk with rfl | rfl <;> trivial
  | u64 b =>
    intro k hk
    simp only [writeStoredIds, List.mem_cons, List.not_mem_nil, or_false] at hk
    rcases hk with rfl | rfl
    · trivial
    · exact valid_compU64 b h.2
  | bits v =>
    intro k hk
    simp only [writeStoredIds, List.mem_cons, List.cons_append, List.nil_append, List.mem_map] at hk
    rcases hk with rfl | rfl | rfl | ⟨a, ha, rfl⟩
    · trivial
    · trivial
    · exact valid_compU64 _ h.1
    · exact valid_compU64 _ (h.2 a ha)
  | numbers v =>
    intro k hk
    simp only [writeStoredIds, List.mem_cons, List.cons_append, List.nil_append, List.mem_map] at hk
    rcases hk with rfl | rfl | rfl | ⟨a, ha, rfl⟩
    · trivial
    · trivial
    · exact valid_compU64 _ h.1
    · exact valid_compU64 _ (h.2 a ha)

/-- What is written is read back. -/
theorem read_writeStoredIds (s : StoredIDs) (h : s.Fits) (rest : List KVal) :
    readStoredIds (writeStoredIds s ++ rest) = .ok (s, rest) := by
  cases s with
  | zero =>
    have := readU64_compU64 0 (by decide) rest
    rw [show compU64 0 = .bit false from rfl] at this
    simp [readStoredIds, writeStoredIds, Rd.bind, readBool_bit, this, Rd.pure]
  | u64 b =>
    simp [readStoredIds, writeStoredIds, Rd.bind, readBool_bit, readU64_compU64 b h.2, Rd.pure, h.1]
  | bits v =>
    simp [readStoredIds, writeStoredIds, Rd.bind, readBool_bit, readU64Array_spec v h.1 h.2, Rd.pure]
  | numbers v =>
    simp [readStoredIds, writeStoredIds, Rd.bind, readBool_bit, readU64Array_spec v h.1 h.2, Rd.pure]

/-! ## The set of ids of a representation -/

theorem testBit_one_shift (i j : Nat) : (1 <<< i).testBit j = decide (i = j) := by
  rw [Nat.one_shiftLeft, Nat.testBit_two_pow]

theorem testBit_updateU64 (keys : List Nat) (r j : Nat) :
    (updateU64 keys r).testBit j = (r.testBit j || decide (j ∈ keys)) := by
  induction keys generalizing r with
  | nil => simp [updateU64]
  | cons a keys ih =>
    rw [show updateU64 (a :: keys) r = updateU64 keys (r ||| (1 <<< a)) from rfl, ih, Nat.testBit_or, testBit_one_shift,
      Bool.or_assoc]
    congr 1
    simp only [List.mem_cons]
    by_cases h : j = a
    · subst h; simp
    · have : a ≠ j := fun e => h e.symm
      simp [h, this]

theorem or_lt (a b n : Nat) (ha : a < 2 ^ n) (hb : b < 2 ^ n) : a ||| b < 2 ^ n := Nat.or_lt_two_pow ha hb

theorem shift_lt (i : Nat) (h : i < 64) : 1 <<< i < 2 ^ 64 := by
  rw [Nat.one_shiftLeft]; exact Nat.pow_lt_pow_right (by decide) h

theorem updateU64_lt (keys : List Nat) (r : Nat) (h : ∀ i ∈ keys, i < 64) (hr : r < 2 ^ 64) : updateU64 keys r < 2 ^ 64 := by
  induction keys generalizing r with
  | nil => exact hr
  | cons a keys ih =>
    exact ih _ (fun i hi => h i (by simp [hi])) (or_lt _ _ _ hr (shift_lt a (h a (by simp))))

theorem updateBits_length (keys r : List Nat) : (updateBits keys r).length = r.length := by
  induction keys generalizing r with
  | nil => rfl
  | cons a keys ih =>
    rw [show updateBits (a :: keys) r = updateBits keys (r.modify (a / 64) (· ||| (1 <<< (a % 64)))) from rfl, ih,
      List.length_modify]

theorem updateBits_lt (keys r : List Nat) (hr : ∀ b ∈ r, b < 2 ^ 64) : ∀ b ∈ updateBits keys r, b < 2 ^ 64 := by
  induction keys generalizing r with
  | nil => exact hr
  | cons a keys ih =>
    refine ih _ ?_
    intro b hb
    obtain ⟨i, hi, rfl⟩ := List.mem_iff_getElem.mp hb
    rw [List.getElem_modify]
    have hi' : i < r.length := by rw [List.length_modify] at hi; exact hi
    split
    · exact or_lt _ _ _ (hr _ (List.getElem_mem hi')) (shift_lt _ (Nat.mod_lt _ (by decide)))
    · exact hr _ (List.getElem_mem hi')

/-- bit `j` of word `k` -/
def bitAt (r : List Nat) (k j : Nat) : Bool := (r[k]?.getD 0).testBit j

theorem bitAt_updateBits (keys r : List Nat) (h : ∀ i ∈ keys, i / 64 < r.length) (k j : Nat) (hj : j < 64) :
    bitAt (updateBits keys r) k j = (bitAt r k j || decide (k * 64 + j ∈ keys)) := by
  induction keys generalizing r with
  | nil => simp [updateBits]
  | cons a keys ih =>
    rw [show updateBits (a :: keys) r = updateBits keys (r.modify (a / 64) (· ||| (1 <<< (a % 64)))) from rfl, ih]
    · unfold bitAt
      rw [List.getElem?_modify]
      have ha := h a (by simp)
      by_cases hk : a / 64 = k
      · subst hk
        rw [List.getElem?_eq_getElem ha]
        simp only [if_true, Option.map_eq_map, Option.map_some, Option.getD_some, Nat.testBit_or, testBit_one_shift, List.mem_cons,
          Bool.or_assoc]
        congr 1
        by_cases hm : a % 64 = j
        · have : a / 64 * 64 + j = a := by omega
          simp [hm, this]
        · have : a / 64 * 64 + j ≠ a := by omega
          simp [hm, this]
      · have : k * 64 + j ≠ a := by omega
        simp only [if_neg hk, List.mem_cons]
        cases r[k]? <;> simp [this]
    · intro i hi
      rw [List.length_modify]
      exact h i (by simp [hi])

theorem mem_wordIds (b offset id : Nat) : id ∈ wordIds b offset ↔ ∃ i, i < 64 ∧ b.testBit i = true ∧ id = i + offset := by
  simp only [wordIds, List.mem_map, List.mem_filter, List.mem_range]
  constructor
  · rintro ⟨i, ⟨h1, h2⟩, rfl⟩; exact ⟨i, h1, h2, rfl⟩
  · rintro ⟨i, h1, h2, rfl⟩; exact ⟨i, ⟨h1, h2⟩, rfl⟩

theorem wordIds_sorted (b offset : Nat) : (wordIds b offset).Pairwise (· < ·) := by
  unfold wordIds
  rw [List.pairwise_map]
  exact (List.pairwise_lt_range.filter _).imp fun h => by omega

theorem mem_wordsIds (bs : List Nat) (offset id : Nat) :
    id ∈ wordsIds bs offset ↔ ∃ k j, j < 64 ∧ bitAt bs k j = true ∧ id = k * 64 + j + offset := by
  induction bs generalizing offset with
  | nil => simp [wordsIds, bitAt]
  | cons b bs ih =>
    simp only [wordsIds, List.mem_append, mem_wordIds, ih]
    constructor
    · rintro (⟨i, h1, h2, rfl⟩ | ⟨k, j, h1, h2, rfl⟩)
      · exact ⟨0, i, h1, by simpa [bitAt] using h2, by omega⟩
      · exact ⟨k + 1, j, h1, by simpa [bitAt] using h2, by omega⟩
    · rintro ⟨k, j, h1, h2, rfl⟩
      cases k with
      | zero => exact Or.inl ⟨j, h1, by simpa [bitAt] using h2, by omega⟩
      | succ k => exact Or.inr ⟨k, j, h1, by simpa [bitAt] using h2, by omega⟩

theorem wordsIds_sorted (bs : List Nat) (offset : Nat) : (wordsIds bs offset).Pairwise (· < ·) := by
  induction bs generalizing offset with
  | nil => exact List.Pairwise.nil
  | cons b bs ih =>
    rw [wordsIds, List.pairwise_append]
    refine ⟨wordIds_sorted b offset, ih _, ?_⟩
    intro x hx y hy
    obtain ⟨i, hi, _, rfl⟩ := (mem_wordIds ..).mp hx
    obtain ⟨k, j, _, _, rfl⟩ := (mem_wordsIds ..).mp hy
    omega

theorem sorted_le_getLast (l : List Nat) (h : l.Pairwise (· < ·)) (m : Nat) (hm : l.getLast? = some m) : ∀ i ∈ l, i ≤ m := by
  obtain ⟨ys, rfl⟩ := List.getLast?_eq_some_iff.mp hm
  intro i hi
  rw [List.pairwise_append] at h
  rcases List.mem_append.mp hi with hi | hi
  · exact Nat.le_of_lt (h.2.2 i hi m (by simp))
  · simp only [List.mem_cons, List.not_mem_nil, or_false] at hi; omega

theorem maxAndLen_len (l : List Nat) : (maxAndLen l).2 = l.length := by
  unfold maxAndLen
  cases h : l.getLast? with
  | none => rw [List.getLast?_eq_none_iff] at h; simp [h]
  | some m => rfl

theorem maxAndLen_max (l : List Nat) (h : l.Pairwise (· < ·)) : ∀ i ∈ l, i ≤ (maxAndLen l).1 := by
  unfold maxAndLen
  cases hl : l.getLast? with
  | none => rw [List.getLast?_eq_none_iff] at hl; simp [hl]
  | some m => exact sorted_le_getLast l h m hl

theorem maxAndLen_lt (l : List Nat) (h : ∀ i ∈ l, i < 2 ^ 64) : (maxAndLen l).1 < 2 ^ 64 := by
  unfold maxAndLen
  cases hl : l.getLast? with
  | none => simp
  | some m => exact h m (List.mem_of_getLast? hl)

theorem calcType_u64 (max len : Nat) (h : calcType max len = .u64) : max < 64 ∧ len ≠ 0 := by
  unfold calcType at h
  split at h
  · cases h
  · split at h
    · split at h
      · rename_i h1 h2 _; exact ⟨h2, h1⟩
      · cases h
    · split at h
      · split at h <;> cases h
      · split at h
        · split at h <;> cases h
        · split at h
          · split at h <;> cases h
          · split at h <;> cases h

theorem calcType_zero (max len : Nat) (h : calcType max len = .zero) : len = 0 := by
  unfold calcType at h
  split at h
  · assumption
  · split at h
    · split at h <;> cases h
    · split at h
      · split at h <;> cases h
      · split at h
        · split at h <;> cases h
        · split at h
          · split at h <;> cases h
          · split at h <;> cases h

theorem bitAt_replicate (n k j : Nat) : bitAt (List.replicate n 0) k j = false := by
  unfold bitAt
  rw [List.getElem?_replicate]
  split <;> simp

theorem sorted_nodup {l : List Nat} (h : l.Pairwise (· < ·)) : l.Nodup :=
  h.imp fun h => Nat.ne_of_lt h

/-- The stored ids are the given ids, fit their types, and are in ascending order (`u64`, `bits`) or parameters first
(`numbers`). -/
theorem storeIds_spec (P L : List Nat) (hP : Keys P) (hL : Keys L) (hd : ∀ i ∈ P, i ∉ L)
    (hlen : P.length + L.length < 2 ^ 64) :
    (storeIds P L).Fits ∧ (∀ i, i ∈ (storeIds P L).ids ↔ i ∈ P ∨ i ∈ L) ∧ (storeIds P L).ids.Nodup ∧
      (storeIds P L = .zero → P = [] ∧ L = []) ∧
      ((storeIds P L).ids.Pairwise (· < ·) ∨ storeIds P L = .numbers (P ++ L)) := by
  have hmax : ∀ i, i ∈ P ∨ i ∈ L → i ≤ Nat.max (Nat.max 0 (maxAndLen P).1) (maxAndLen L).1 := by
    intro i hi
    rcases hi with hi | hi
    · exact Nat.le_trans (maxAndLen_max P hP.1 i hi) (Nat.le_trans (Nat.le_max_right _ _) (Nat.le_max_left _ _))
    · exact Nat.le_trans (maxAndLen_max L hL.1 i hi) (Nat.le_max_right _ _)
  have hmlt : Nat.max (Nat.max 0 (maxAndLen P).1) (maxAndLen L).1 < 2 ^ 64 :=
    Nat.max_lt.mpr ⟨Nat.max_lt.mpr ⟨by decide, maxAndLen_lt P hP.2⟩, maxAndLen_lt L hL.2⟩
  unfold storeIds
  simp only [maxAndLen_len]
  generalize hm : Nat.max (Nat.max 0 (maxAndLen P).1) (maxAndLen L).1 = m at *
  split
  · rename_i h
    have h0 := calcType_zero _ _ h
    have hp : P = [] := List.length_eq_zero_iff.mp (by omega)
    have hl : L = [] := List.length_eq_zero_iff.mp (by omega)
    subst hp hl
    refine ⟨trivial, ?_, ?_, fun _ => ⟨rfl, rfl⟩, Or.inl ?_⟩ <;> simp [StoredIDs.ids]
  · rename_i h
    obtain ⟨h64, hne⟩ := calcType_u64 _ _ h
    have hbit : ∀ j, (updateU64 L (updateU64 P 0)).testBit j = decide (j ∈ P ∨ j ∈ L) := by
      intro j
      rw [testBit_updateU64, testBit_updateU64]
      by_cases h1 : j ∈ P <;> by_cases h2 : j ∈ L <;> simp [h1, h2]
    refine ⟨⟨?_, ?_⟩, ?_, ?_, fun h => (StoredIDs.noConfusion h), Or.inl (wordIds_sorted _ _)⟩
    · intro h0
      have : ∃ j, j ∈ P ∨ j ∈ L := by
        cases P with
        | cons a P => exact ⟨a, Or.inl (by simp)⟩
        | nil =>
          cases L with
          | cons a L => exact ⟨a, Or.inr (by simp)⟩
          | nil => simp at hne
      obtain ⟨j, hj⟩ := this
      have hb := hbit j
      rw [h0, Nat.zero_testBit] at hb
      exact absurd hj (of_decide_eq_false hb.symm)
    · apply updateU64_lt _ _ (fun i hi => Nat.lt_of_le_of_lt (hmax i (Or.inr hi)) h64)
      exact updateU64_lt _ _ (fun i hi => Nat.lt_of_le_of_lt (hmax i (Or.inl hi)) h64) (by decide)
    · intro i
      simp only [StoredIDs.ids, mem_wordIds, hbit, decide_eq_true_eq]
      constructor
      · rintro ⟨j, _, h2, rfl⟩; simpa using h2
      · intro hi; exact ⟨i, Nat.lt_of_le_of_lt (hmax i hi) h64, hi, by omega⟩
    · exact sorted_nodup (wordIds_sorted _ _)
  · rename_i h
    have hidx : ∀ i, i ∈ P ∨ i ∈ L → i / 64 < (List.replicate (m / 64 + 1) 0).length := by
      intro i hi
      rw [List.length_replicate]
      have := Nat.div_le_div_right (c := 64) (hmax i hi)
      omega
    have hbit : ∀ k j, j < 64 →
        bitAt (updateBits L (updateBits P (List.replicate (m / 64 + 1) 0))) k j = decide (k * 64 + j ∈ P ∨ k * 64 + j ∈ L) := by
      intro k j hj
      rw [bitAt_updateBits _ _ (fun i hi => by rw [updateBits_length]; exact hidx i (Or.inr hi)) k j hj,
        bitAt_updateBits _ _ (fun i hi => hidx i (Or.inl hi)) k j hj, bitAt_replicate]
      by_cases h1 : k * 64 + j ∈ P <;> by_cases h2 : k * 64 + j ∈ L <;> simp [h1, h2]
    refine ⟨⟨?_, ?_⟩, ?_, ?_, fun h => (StoredIDs.noConfusion h), Or.inl (wordsIds_sorted _ _)⟩
    · rw [updateBits_length, updateBits_length, List.length_replicate]
      omega
    · apply updateBits_lt
      apply updateBits_lt
      intro b hb
      rw [List.eq_of_mem_replicate hb]
      decide
    · intro i
      simp only [StoredIDs.ids, mem_wordsIds]
      constructor
      · rintro ⟨k, j, h1, h2, rfl⟩
        rw [hbit k j h1, decide_eq_true_eq] at h2
        simpa using h2
      · intro hi
        refine ⟨i / 64, i % 64, Nat.mod_lt _ (by decide), ?_, by omega⟩
        rw [hbit _ _ (Nat.mod_lt _ (by decide)), decide_eq_true_eq]
        have : i / 64 * 64 + i % 64 = i := by omega
        rw [this]
        exact hi
    · exact sorted_nodup (wordsIds_sorted _ _)
  · refine ⟨⟨?_, ?_⟩, ?_, ?_, fun h => (StoredIDs.noConfusion h), Or.inr rfl⟩
    · rw [List.length_append]; exact hlen
    · intro i hi
      rcases List.mem_append.mp hi with hi | hi
      · exact hP.2 i hi
      · exact hL.2 i hi
    · intro i; simp [StoredIDs.ids]
    · exact List.nodup_append.mpr ⟨sorted_nodup hP.1, sorted_nodup hL.1, fun a ha b hb e => hd a ha (e ▸ hb)⟩

theorem storeIdsRef_eq (R : List Nat) : storeIdsRef R = storeIds R [] := by
  unfold storeIdsRef storeIds
  simp [maxAndLen, updateU64, updateBits]

/-! ## Reading the members of a representation -/

theorem and_two_pow_ne_zero (b i : Nat) : (b &&& 2 ^ i ≠ 0) ↔ b.testBit i = true := by
  constructor
  · intro h
    obtain ⟨j, hj⟩ := Nat.exists_testBit_of_ne_zero h
    rw [Nat.testBit_and, Nat.testBit_two_pow, Bool.and_eq_true, decide_eq_true_eq] at hj
    rw [hj.2]; exact hj.1
  · intro h h0
    have : (b &&& 2 ^ i).testBit i = true := by rw [Nat.testBit_and, Nat.testBit_two_pow, h]; simp
    rw [h0, Nat.zero_testBit] at this
    cases this

theorem flagLoop_spec {α : Type} (b offset : Nat) (f : Nat → Rd KVal (Option α)) (n i : Nat) (hi : i + n = 64)
    (inp : List KVal) :
    flagLoop b offset f n (2 ^ i % 2 ^ 64) i inp =
      readNumbers f (((List.range' i n).filter fun j => b.testBit j).map (· + offset)) inp := by
  induction n generalizing i inp with
  | zero => rfl
  | succ n ih =>
    have hi64 : i < 64 := by omega
    have hmod : 2 ^ i % 2 ^ 64 = 2 ^ i := Nat.mod_eq_of_lt (Nat.pow_lt_pow_right (by decide) hi64)
    have hflag : (2 ^ i) <<< 1 % 2 ^ 64 = 2 ^ (i + 1) % 2 ^ 64 := by
      rw [Nat.shiftLeft_eq, Nat.pow_succ 2 i, Nat.pow_one]
    rw [flagLoop, hmod, hflag, List.range'_succ, List.filter_cons]
    have hstop : b < 2 ^ (i + 1) % 2 ^ 64 → (List.range' (i + 1) n).filter (fun j => b.testBit j) = [] := by
      intro hlt
      rw [List.filter_eq_nil_iff]
      intro j hj
      rw [List.mem_range'_1] at hj
      have : 2 ^ (i + 1) % 2 ^ 64 ≤ 2 ^ j :=
        Nat.le_trans (Nat.mod_le _ _) (Nat.pow_le_pow_right (by decide) hj.1)
      rw [Nat.testBit_lt_two_pow (Nat.lt_of_lt_of_le hlt this)]
      simp
    by_cases hlt : b < 2 ^ (i + 1) % 2 ^ 64
    · simp only [if_pos hlt, hstop hlt]
      by_cases ht : b.testBit i = true
      · rw [if_pos ((and_two_pow_ne_zero b i).mpr ht), if_pos ht]
        simp only [List.map_cons, List.map_nil, readNumbers, Rd.bind]
        cases f (i + offset) inp with
        | err => rfl
        | panic => rfl
        | ok p => simp [Rd.pure]
      · rw [if_neg (fun h => ht ((and_two_pow_ne_zero b i).mp h)), if_neg ht]
        simp [readNumbers, Rd.pure, Rd.bind]
    · simp only [if_neg hlt]
      by_cases ht : b.testBit i = true
      · rw [if_pos ((and_two_pow_ne_zero b i).mpr ht), if_pos ht]
        simp only [List.map_cons, readNumbers, Rd.bind]
        cases f (i + offset) inp with
        | err => rfl
        | panic => rfl
        | ok p =>
          simp only [Res.bind_ok]
          rw [ih (i + 1) (by omega)]
      · rw [if_neg (fun h => ht ((and_two_pow_ne_zero b i).mp h)), if_neg ht]
        simp only [Rd.bind, Rd.pure, Res.bind_ok, Option.toList_none, List.map_nil, List.nil_append]
        rw [ih (i + 1) (by omega)]
        generalize readNumbers f _ inp = r
        cases r <;> rfl

theorem readWord_spec {α : Type} (b offset : Nat) (f : Nat → Rd KVal (Option α)) :
    readWord b offset f = readNumbers f (wordIds b offset) := by
  funext inp
  have := flagLoop_spec b offset f 64 0 rfl inp
  rw [show 2 ^ 0 % 2 ^ 64 = 1 from rfl, ← List.range_eq_range'] at this
  exact this

theorem readNumbers_append {α : Type} (f : Nat → Rd KVal (Option α)) (a b : List Nat) (inp : List KVal) :
    readNumbers f (a ++ b) inp =
      Rd.bind (readNumbers f a) (fun xs => Rd.bind (readNumbers f b) fun ys => Rd.pure (xs ++ ys)) inp := by
  induction a generalizing inp with
  | nil =>
    simp only [List.nil_append, readNumbers, Rd.bind, Rd.pure, Res.bind_ok]
    generalize readNumbers f b inp = r
    cases r <;> rfl
  | cons x a ih =>
    simp only [List.cons_append, readNumbers, Rd.bind]
    cases f x inp with
    | err => rfl
    | panic => rfl
    | ok p =>
      simp only [Res.bind_ok, ih, Rd.bind]
      cases readNumbers f a p.2 with
      | err => rfl
      | panic => rfl
      | ok q =>
        simp only [Res.bind_ok, Rd.pure]
        cases readNumbers f b q.2 with
        | err => rfl
        | panic => rfl
        | ok r => simp

theorem readWords64_spec {α : Type} (f : Nat → Rd KVal (Option α)) (bs : List Nat) (offset : Nat) :
    readWords64 f bs offset = readNumbers f (wordsIds bs offset) := by
  induction bs generalizing offset with
  | nil => rfl
  | cons b bs ih =>
    funext inp
    rw [readWords64, readWord_spec b offset f, ih, wordsIds,
      readNumbers_append]

end Verif.Diff
