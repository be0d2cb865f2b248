import Verif.Spec.Export
/-!
# There are printers

A printer and a reader of floats as `Printer` wants them, which shows that the assumptions do not contradict each other. (They are not
those of the standard library: what is not a small integer is printed as `0.` and the number of its bits.)
-/
namespace Verif.Export
open Source (i64ToF64)
open Number (DecInt Lit signed denotes exponent IsDigit signText RustFloat RustExp)

theorem i64ToF64_parts {i : Int} (h0 : i ≠ 0) (h : i.natAbs ≤ 2 ^ 53) : ∃ l m, l ≤ 53 ∧ 2 ^ 52 ≤ m ∧ m < 2 ^ 53 ∧
    i.natAbs * 2 ^ 53 = m * 2 ^ (l + 1) ∧ (i64ToF64 i).toNat = (if i < 0 then 2 ^ 63 else 0) + (l + 1022) * 2 ^ 52 + m := by
  have hn : i.natAbs ≠ 0 := by omega
  have h1 := Nat.log2_self_le hn
  have h2 := Nat.lt_log2_self (n := i.natAbs)
  have hl : Nat.log2 i.natAbs ≤ 53 := by
    by_contra hc
    have : 2 ^ 54 ≤ 2 ^ Nat.log2 i.natAbs := Nat.pow_le_pow_right (by omega) (by omega)
    omega
  have key : ∀ m, 2 ^ 52 ≤ m → m < 2 ^ 53 → (BitVec.ofNat 64 ((if i < 0 then 2 ^ 63 else 0) + (Nat.log2 i.natAbs + 1022) * 2 ^ 52 + m)).toNat =
      (if i < 0 then 2 ^ 63 else 0) + (Nat.log2 i.natAbs + 1022) * 2 ^ 52 + m := by
    intro m _ h4
    rw [BitVec.toNat_ofNat]
    refine Nat.mod_eq_of_lt ?_
    split <;> omega
  by_cases h52 : Nat.log2 i.natAbs ≤ 52
  · have e : 2 ^ 52 = 2 ^ Nat.log2 i.natAbs * 2 ^ (52 - Nat.log2 i.natAbs) := by rw [← pow_add]; congr 1; omega
    have hm1 : 2 ^ 52 ≤ i.natAbs * 2 ^ (52 - Nat.log2 i.natAbs) := by rw [e]; exact Nat.mul_le_mul_right _ h1
    have hm2 : i.natAbs * 2 ^ (52 - Nat.log2 i.natAbs) < 2 ^ 53 := by
      have : 2 ^ 53 = 2 ^ (Nat.log2 i.natAbs + 1) * 2 ^ (52 - Nat.log2 i.natAbs) := by rw [← pow_add]; congr 1; omega
      rw [this]
      exact Nat.mul_lt_mul_of_pos_right h2 (by positivity)
    refine ⟨Nat.log2 i.natAbs, i.natAbs * 2 ^ (52 - Nat.log2 i.natAbs), hl, hm1, hm2, ?_, ?_⟩
    · rw [mul_assoc, ← pow_add]
      congr 2
      omega
    · unfold i64ToF64
      simp only [hn, if_false, h52, if_true]
      exact key _ hm1 hm2
  · have hl' : Nat.log2 i.natAbs = 53 := by omega
    have hi : i.natAbs = 2 ^ 53 := by rw [hl'] at h1; omega
    refine ⟨53, 2 ^ 52, le_refl _, le_refl _, by norm_num, by rw [hi]; norm_num, ?_⟩
    have := key (2 ^ 52) (le_refl _) (by norm_num)
    rw [hl'] at this
    rw [← this]
    unfold i64ToF64
    simp only [hi]
    rw [show Nat.log2 (2 ^ 53) = 53 by rw [← hi, hl']]
    norm_num

/-- integers up to 2^53 are different floats -/
theorem i64ToF64_inj {i j : Int} (hi : i.natAbs ≤ 2 ^ 53) (hj : j.natAbs ≤ 2 ^ 53) (h : i64ToF64 i = i64ToF64 j) : i = j := by
  have hz : i64ToF64 0 = 0#64 := by decide
  by_cases h0 : i = 0
  · by_cases h1 : j = 0
    · rw [h0, h1]
    · obtain ⟨l, m, _, hm, _, _, e⟩ := i64ToF64_parts h1 hj
      rw [← h, h0, hz] at e
      simp only [BitVec.toNat_ofNat, Nat.zero_mod] at e
      omega
  · obtain ⟨l, m, h2, h3, h4, h5, h6⟩ := i64ToF64_parts h0 hi
    by_cases h1 : j = 0
    · rw [h, h1, hz] at h6
      simp only [BitVec.toNat_ofNat, Nat.zero_mod] at h6
      omega
    · obtain ⟨l', m', h2', h3', h4', h5', h6'⟩ := i64ToF64_parts h1 hj
      rw [h, h6'] at h6
      have hs : (i < 0 ↔ j < 0) ∧ l = l' ∧ m = m' := by
        split at h6 <;> split at h6 <;> omega
      obtain ⟨ha, rfl, rfl⟩ := hs
      have : i.natAbs = j.natAbs := by
        have := h5.trans h5'.symm
        exact Nat.eq_of_mul_eq_mul_right (by norm_num) this
      omega

theorem digit_char : ∀ d : Nat, d < 10 → ∃ c : Char, IsDigit c ∧ Number.value c = d ∧ (c = '0' → d = 0) := by
  intro d hd
  have : ∀ d : Fin 10, ∃ c ∈ "0123456789".toList, IsDigit c ∧ Number.value c = d ∧ (c = '0' → d = 0) := by
    unfold IsDigit
    decide
  obtain ⟨c, _, h1, h2, h3⟩ := this ⟨d, hd⟩
  exact ⟨c, h1, h2, fun e => by have := h3 e; simpa [Fin.ext_iff] using this⟩

theorem dec_exists (n : Nat) : ∃ i, DecInt i ∧ denotes 10 i = n := by
  induction n using Nat.strong_induction_on with
  | _ n ih =>
    by_cases h0 : n = 0
    · exact ⟨['0'], .inl rfl, by rw [h0]; decide⟩
    obtain ⟨c, h1, h2, h3⟩ := digit_char (n % 10) (by omega)
    by_cases hn : n < 10
    · refine ⟨[c], .inr ⟨c, [], rfl, h1, fun e => by have := h3 e; omega, by simp⟩, ?_⟩
      simp only [denotes, List.reverse_cons, List.reverse_nil, List.nil_append, List.map_cons, List.map_nil, Nat.ofDigits_singleton, h2]
      omega
    · obtain ⟨i, hi, e⟩ := ih (n / 10) (by omega)
      refine ⟨i ++ [c], ?_, ?_⟩
      · rcases hi with rfl | ⟨a, r, rfl, h4, h5, h6⟩
        · rw [show denotes 10 ['0'] = 0 by decide] at e
          omega
        · refine .inr ⟨a, r ++ [c], rfl, h4, h5, fun x hx => ?_⟩
          rcases List.mem_append.1 hx with hx | hx
          · exact h6 x hx
          · rw [List.mem_singleton] at hx
            rw [hx]
            exact h1
      · unfold denotes at e ⊢
        simp only [List.reverse_append, List.reverse_cons, List.reverse_nil, List.nil_append, List.singleton_append, List.map_cons,
          Nat.ofDigits_cons, e, h2]
        omega

/-- decimal digits -/
noncomputable def dec (n : Nat) : List Char := (dec_exists n).choose
theorem dec_int (n : Nat) : DecInt (dec n) := (dec_exists n).choose_spec.1
theorem dec_denotes (n : Nat) : denotes 10 (dec n) = n := (dec_exists n).choose_spec.2

theorem text_int (s : Option Bool) (i : List Char) : Lit.text ⟨s, .int i⟩ = signText s ++ i := rfl
theorem text_frac (i f : List Char) : Lit.text ⟨none, .frac i f none⟩ = i ++ '.' :: (f ++ []) := rfl

theorem _root_.Verif.Number.DecInt.digits {i : List Char} (h : DecInt i) : i ≠ [] ∧ ∀ x ∈ i, IsDigit x := by
  rcases h with rfl | ⟨c, r, rfl, h1, _, h2⟩
  · refine ⟨by simp, fun x hx => ?_⟩
    rw [List.mem_singleton] at hx
    subst hx
    unfold IsDigit
    decide
  · refine ⟨by simp, fun x hx => ?_⟩
    rcases List.mem_cons.1 hx with rfl | hx
    · exact h1
    · exact h2 x hx

theorem int_text_no_dot (s : Option Bool) {i : List Char} (h : DecInt i) : '.' ∉ Lit.text ⟨s, .int i⟩ := by
  have hd := h.digits.2
  intro hm
  rcases List.mem_append.1 hm with hm | hm
  · simp only at hm
    revert hm
    rcases s with _ | _ | _ <;> simp [signText]
  · have := hd _ hm
    unfold IsDigit at this
    revert this
    decide

theorem int_text_inj {s s' : Option Bool} {i i' : List Char} (h : DecInt i) (h' : DecInt i')
    (e : Lit.text ⟨s, .int i⟩ = Lit.text ⟨s', .int i'⟩) : s = s' ∧ i = i' := by
  have hp : ∀ {x : List Char}, DecInt x → ∀ c r, c = '+' ∨ c = '-' → x ≠ c :: r := by
    rintro x hx c r hc rfl
    have := hx.digits.2 c (by simp)
    unfold IsDigit at this
    rcases hc with rfl | rfl <;> revert this <;> decide
  simp only [text_int] at e
  rcases s with _ | _ | _ <;> rcases s' with _ | _ | _ <;>
    simp only [signText, List.nil_append, List.cons_append, List.cons.injEq, true_and] at e
  · exact ⟨rfl, e⟩
  · exact absurd e (hp h _ _ (.inr rfl))
  · exact absurd e (hp h _ _ (.inl rfl))
  · exact absurd e.symm (hp h' _ _ (.inr rfl))
  · exact ⟨rfl, e⟩
  · exact absurd e.1 (by decide)
  · exact absurd e.symm (hp h' _ _ (.inl rfl))
  · exact absurd e.1 (by decide)
  · exact ⟨rfl, e⟩

/-- the float that an integer is read as -/
def nearest (s : Option Bool) (i : List Char) : UInt64 :=
  if s = some false ∧ denotes 10 i = 0 then toU negZero else toU (i64ToF64 (signed s (denotes 10 i)))

def codeText (f : BitVec 64) (d : Nat → List Char) : List Char := Lit.text ⟨none, .frac ['0'] (d f.toNat) none⟩

open Classical in
/-- a printer -/
noncomputable def somePrinter (f : BitVec 64) : List Char :=
  if h : ∃ n : Int, n.natAbs ≤ 2 ^ 53 ∧ i64ToF64 n = f then
    Lit.text ⟨if h.choose < 0 then some false else none, .int (dec h.choose.natAbs)⟩
  else codeText f dec

open Classical in
/-- a reader -/
noncomputable def someReader (s : List Char) : Option UInt64 :=
  if h : ∃ x : Option Bool × List Char, DecInt x.2 ∧ denotes 10 x.2 < 2 ^ 63 ∧ s = Lit.text ⟨x.1, .int x.2⟩ then
    some (nearest h.choose.1 h.choose.2)
  else if h : ∃ f, s = codeText f dec then some (toU h.choose)
  else if RustFloat s then some 0 else none

theorem someReader_int {s : Option Bool} {i : List Char} (hi : DecInt i) (hl : denotes 10 i < 2 ^ 63) :
    someReader (Lit.text ⟨s, .int i⟩) = some (nearest s i) := by
  have h : ∃ x : Option Bool × List Char, DecInt x.2 ∧ denotes 10 x.2 < 2 ^ 63 ∧ Lit.text ⟨s, .int i⟩ = Lit.text ⟨x.1, .int x.2⟩ := ⟨(s, i), hi, hl, rfl⟩
  unfold someReader
  rw [dif_pos h]
  obtain ⟨a, _, b⟩ := h.choose_spec
  obtain ⟨e1, e2⟩ := int_text_inj hi a b
  rw [← e1, ← e2]

theorem codeText_dot (f : BitVec 64) : '.' ∈ codeText f dec := by
  simp [codeText, text_frac]

theorem codeText_inj {f g : BitVec 64} (h : codeText f dec = codeText g dec) : f = g := by
  simp only [codeText, text_frac, List.append_nil, List.nil_append, List.cons_append, List.cons.injEq, true_and] at h
  have := dec_denotes f.toNat
  rw [h, dec_denotes] at this
  exact (BitVec.eq_of_toNat_eq this).symm

theorem someReader_code (f : BitVec 64) : someReader (codeText f dec) = some (toU f) := by
  have hn : ¬ ∃ x : Option Bool × List Char, DecInt x.2 ∧ denotes 10 x.2 < 2 ^ 63 ∧ codeText f dec = Lit.text ⟨x.1, .int x.2⟩ := by
    rintro ⟨x, h1, _, h2⟩
    exact int_text_no_dot _ h1 (h2 ▸ codeText_dot f)
  have h : ∃ g, codeText f dec = codeText g dec := ⟨f, rfl⟩
  unfold someReader
  rw [dif_neg hn, dif_pos h, ← codeText_inj h.choose_spec]

theorem someReader_rust (s : List Char) : (someReader s).isSome ↔ RustFloat s := by
  have hint : ∀ (x : Option Bool) (i : List Char), DecInt i → RustFloat (Lit.text ⟨x, .int i⟩) := by
    intro x i hi
    have := RustFloat.int (s := x) hi.digits.1 hi.digits.2 .none
    simpa [text_int] using this
  have hcode : ∀ f, RustFloat (codeText f dec) := by
    intro f
    have := RustFloat.frac (s := none) (i := ['0']) (f := dec f.toNat) (.inl (by simp)) (DecInt.digits (.inl rfl)).2 (dec_int _).digits.2 .none
    simpa [codeText, text_frac, signText] using this
  unfold someReader
  split
  · rename_i h
    obtain ⟨x, h1, _, rfl⟩ := h
    simp [hint x.1 x.2 h1]
  · split
    · rename_i h
      obtain ⟨f, rfl⟩ := h
      simp [hcode f]
    · split
      · simp_all
      · simp_all

theorem somePrinter_int {f : BitVec 64} (h : ∃ n : Int, n.natAbs ≤ 2 ^ 53 ∧ i64ToF64 n = f) : ∃ n : Int, n.natAbs ≤ 2 ^ 53 ∧ i64ToF64 n = f ∧
    somePrinter f = Lit.text ⟨if n < 0 then some false else none, .int (dec n.natAbs)⟩ := by
  refine ⟨h.choose, h.choose_spec.1, h.choose_spec.2, ?_⟩
  unfold somePrinter
  rw [dif_pos h]

theorem signed_natAbs (n : Int) : signed (if n < 0 then some false else none) n.natAbs = n := by
  split
  · simp only [signed]; omega
  · simp only [signed]; omega

/-- The assumptions on the printer and on the reader do not contradict each other. -/
theorem printer_exists : ∃ disp pf, Printer disp pf ∧ ∀ s, (pf s).isSome ↔ RustFloat s := by
  refine ⟨somePrinter, someReader, ⟨fun f _ => ?_, fun f _ => ?_, fun s i hi hl => someReader_int hi hl, fun n hn => ?_⟩, someReader_rust⟩
  · by_cases h : ∃ n : Int, n.natAbs ≤ 2 ^ 53 ∧ i64ToF64 n = f
    · obtain ⟨n, h1, _, h3⟩ := somePrinter_int h
      refine .inl ⟨_, _, h3, by split <;> simp, dec_int _, ?_⟩
      rw [dec_denotes]
      omega
    · refine .inr ⟨none, ['0'], dec f.toNat, ?_, by simp, .inl rfl, (dec_int _).digits.1, (dec_int _).digits.2⟩
      unfold somePrinter
      rw [dif_neg h]
      rfl
  · by_cases h : ∃ n : Int, n.natAbs ≤ 2 ^ 53 ∧ i64ToF64 n = f
    · obtain ⟨n, h1, h2, h3⟩ := somePrinter_int h
      rw [h3, someReader_int (dec_int _) (by rw [dec_denotes]; omega)]
      unfold nearest
      rw [dec_denotes, signed_natAbs, h2, if_neg]
      rintro ⟨h4, h5⟩
      split at h4
      · omega
      · cases h4
    · unfold somePrinter
      rw [dif_neg h, someReader_code]
  · obtain ⟨n', h1, h2, h3⟩ := somePrinter_int (f := i64ToF64 n) ⟨n, hn, rfl⟩
    obtain rfl := i64ToF64_inj h1 hn h2
    exact ⟨_, _, h3, by split <;> simp, dec_int _, by rw [dec_denotes, signed_natAbs]⟩

end Verif.Export
