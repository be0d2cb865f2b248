import Verif.Lemmas.FloatCast
import Verif.Model.Shift

/-! Division and comparison of floats. -/

namespace Verif.Float
open Compaction (Fmt)

/-- the format of the specification -/
abbrev fmt (F : Fmt) : Format := ⟨F.p, F.w⟩

theorem read_parts (F : Fmt) (b : Nat) : (fmt F).read b =
    if F.isNan b then .nan else if F.isInf b then .inf (F.neg b) else .fin (F.neg b) (F.sig b) (F.sh b) := by
  have hn : decide (b / 2 ^ (F.p + F.w) % 2 = 1) = F.neg b := by unfold Fmt.neg; by_cases h : b / 2 ^ (F.p + F.w) % 2 = 1 <;> simp [h]
  unfold Format.read
  simp only [hn]
  unfold Fmt.isNan Fmt.isInf Fmt.sig Fmt.sh Fmt.exp Fmt.man
  by_cases h1 : b / 2 ^ F.p % 2 ^ F.w = 2 ^ F.w - 1
  · by_cases h2 : b % 2 ^ F.p = 0 <;> simp [h1, h2]
  · by_cases h3 : b / 2 ^ F.p % 2 ^ F.w = 0
    · rw [if_neg h1, if_pos h3]
      rw [h3] at h1
      simp [h1, h3]
    · simp [h1, h3]

/-- exponent and significand of the rounded quotient -/
def qexp (p n d : Nat) : Nat := (n / d).log2 - p
def qsig (p n d : Nat) : Nat :=
  if d * 2 ^ qexp p n d < 2 * (n % (d * 2 ^ qexp p n d)) ∨
      (2 * (n % (d * 2 ^ qexp p n d)) = d * 2 ^ qexp p n d ∧ n / (d * 2 ^ qexp p n d) % 2 = 1) then n / (d * 2 ^ qexp p n d) + 1
  else n / (d * 2 ^ qexp p n d)

theorem roundRat_eq (F : Fmt) (n d : Nat) :
    F.roundRat n d = min (qexp F.p n d * 2 ^ F.p + qsig F.p n d) ((2 ^ F.w - 1) * 2 ^ F.p) := rfl

/-- What the rounded quotient is. -/
structure IsRound (p n d e q : Nat) : Prop where
  le : q ≤ 2 ^ (p + 1)
  ge : e = 0 ∨ 2 ^ p ≤ q
  big : e = 0 ∨ d * 2 ^ (p + e) ≤ n
  near : 2 * |(n : Int) - q * (d * 2 ^ e)| ≤ d * 2 ^ e
  even : 2 * |(n : Int) - q * (d * 2 ^ e)| = d * 2 ^ e → q % 2 = 0

theorem isRound (p n d : Nat) (hd : 0 < d) : IsRound p n d (qexp p n d) (qsig p n d) := by
  have hlt : n < d * 2 ^ (p + qexp p n d + 1) := by
    rcases Nat.eq_zero_or_pos (n / d) with h | h
    · have : n < d := by
        rcases Nat.div_eq_zero_iff.1 h with h | h
        · omega
        · exact h
      exact lt_of_lt_of_le this (Nat.le_mul_of_pos_right _ (Nat.two_pow_pos _))
    · have h2 : n / d < 2 ^ ((n / d).log2 + 1) := (Nat.log2_lt (by omega)).1 (by omega)
      have h3 : n / d < 2 ^ (p + qexp p n d + 1) :=
        lt_of_lt_of_le h2 (Nat.pow_le_pow_right (by norm_num) (by unfold qexp; omega))
      rw [Nat.mul_comm]
      exact (Nat.div_lt_iff_lt_mul hd).1 h3
  have hbig : qexp p n d = 0 ∨ d * 2 ^ (p + qexp p n d) ≤ n := by
    rcases Nat.eq_zero_or_pos (qexp p n d) with h | h
    · exact Or.inl h
    · right
      have he : p + qexp p n d = (n / d).log2 := by unfold qexp at h ⊢; omega
      rw [he]
      have h0 : n / d ≠ 0 := by
        intro h0
        unfold qexp at h
        rw [h0] at h
        simp at h
      have := Nat.log2_self_le h0
      calc d * 2 ^ (n / d).log2 ≤ d * (n / d) := Nat.mul_le_mul_left _ this
        _ ≤ n := Nat.mul_div_le n d
  unfold qsig
  generalize qexp p n d = e at hlt hbig
  have hK : 0 < d * 2 ^ e := Nat.mul_pos hd (Nat.two_pow_pos _)
  have hup : n < 2 ^ (p + 1) * (d * 2 ^ e) := by
    have : d * 2 ^ (p + e + 1) = 2 ^ (p + 1) * (d * 2 ^ e) := by rw [show p + e + 1 = (p + 1) + e by omega, pow_add]; ring
    omega
  have hq2 : n / (d * 2 ^ e) < 2 ^ (p + 1) := (Nat.div_lt_iff_lt_mul hK).2 hup
  have hq1 : e = 0 ∨ 2 ^ p ≤ n / (d * 2 ^ e) := by
    rcases hbig with h | h
    · exact Or.inl h
    · right
      rw [Nat.le_div_iff_mul_le hK]
      have : 2 ^ p * (d * 2 ^ e) = d * 2 ^ (p + e) := by rw [pow_add]; ring
      omega
  have hdm := Nat.div_add_mod n (d * 2 ^ e)
  have hr := Nat.mod_lt n hK
  generalize n / (d * 2 ^ e) = q at hdm hq1 hq2
  generalize n % (d * 2 ^ e) = r at hdm hr
  have hKi : ((d : Int) * 2 ^ e) = ((d * 2 ^ e : Nat) : Int) := by push_cast; rfl
  generalize hKd : d * 2 ^ e = K at *
  have hni : (n : Int) = K * q + r := by exact_mod_cast hdm.symm
  split
  · rename_i h
    have hx : (n : Int) - ((q + 1 : Nat) : Int) * (d * 2 ^ e) = -((K : Int) - r) := by rw [hKi, hni]; push_cast; ring
    have hab : |(n : Int) - ((q + 1 : Nat) : Int) * (d * 2 ^ e)| = (K : Int) - r := by
      rw [hx, abs_neg, abs_of_nonneg (by omega)]
    refine ⟨by omega, by omega, hbig, ?_, ?_⟩
    · rw [hab, hKi]; omega
    · rw [hab, hKi]; intro; omega
  · rename_i h
    have hx : (n : Int) - (q : Int) * (d * 2 ^ e) = r := by rw [hKi, hni]; ring
    have hab : |(n : Int) - (q : Int) * (d * 2 ^ e)| = r := by
      rw [hx, abs_of_nonneg (by omega)]
    refine ⟨by omega, by omega, hbig, ?_, ?_⟩
    · rw [hab, hKi]; omega
    · rw [hab, hKi]; intro; omega

/-- What composed bits mean. -/
theorem read_value (F : Format) (s : Bool) (e q : Nat) (hq : q ≤ 2 ^ (F.p + 1)) (h0 : e = 0 ∨ 2 ^ F.p ≤ q)
    (hb : e * 2 ^ F.p + q < (2 ^ F.w - 1) * 2 ^ F.p) :
    ∃ m f, F.read ((if s then 2 ^ (F.p + F.w) else 0) + (e * 2 ^ F.p + q)) = .fin s m f ∧ m * 2 ^ f = q * 2 ^ e := by
  have hp0 : 0 < 2 ^ F.p := Nat.two_pow_pos _
  have hps : 2 ^ (F.p + 1) = 2 * 2 ^ F.p := pow_succ' _ _
  have lift : ∀ a r, a * 2 ^ F.p + r < (2 ^ F.w - 1) * 2 ^ F.p → a < 2 ^ F.w - 1 := by
    intro a r h
    by_contra hc
    have := Nat.mul_le_mul_right (2 ^ F.p) (Nat.le_of_not_lt hc)
    omega
  rcases Nat.lt_or_ge q (2 ^ F.p) with h1 | h1
  · have he : e = 0 := by omega
    subst he
    have := lift 0 q hb
    rw [read_mk F s 0 q (by omega) h1, if_neg (by omega), if_pos rfl]
    exact ⟨_, _, rfl, rfl⟩
  · rcases Nat.lt_or_ge q (2 ^ (F.p + 1)) with h2 | h2
    · have he : e * 2 ^ F.p + q = (e + 1) * 2 ^ F.p + (q - 2 ^ F.p) := by rw [Nat.add_mul]; omega
      rw [he] at hb ⊢
      have := lift _ _ hb
      rw [read_mk F s _ _ (by omega) (by omega), if_neg (by omega), if_neg (by omega)]
      exact ⟨_, _, rfl, by rw [Nat.add_sub_cancel' h1, Nat.add_sub_cancel]⟩
    · have hqe : q = 2 ^ (F.p + 1) := by omega
      have he : e * 2 ^ F.p + q = (e + 2) * 2 ^ F.p + 0 := by rw [Nat.add_mul]; omega
      rw [he] at hb ⊢
      have := lift _ _ hb
      rw [read_mk F s _ _ (by omega) hp0, if_neg (by omega), if_neg (by omega)]
      exact ⟨_, _, rfl, by rw [hqe, show e + 2 - 1 = e + 1 by omega, pow_succ, pow_succ]; ring⟩

/-- When the rounded quotient is too large. -/
theorem overflow_iff (p w n d e q : Nat) (hw : 4 ≤ 2 ^ w) (hd : 0 < d) (h : IsRound p n d e q) :
    (2 ^ w - 1) * 2 ^ p ≤ e * 2 ^ p + q ↔ (2 ^ (p + 2) - 1) * 2 ^ (2 ^ w - 3) * d ≤ 2 * n := by
  obtain ⟨E, hE⟩ : ∃ E, 2 ^ w = E + 3 := ⟨2 ^ w - 3, by omega⟩
  rw [hE, show E + 3 - 1 = E + 2 by omega, Nat.add_sub_cancel]
  obtain ⟨hle, hge, hbig, hnear, heven⟩ := h
  have hp0 : 0 < 2 ^ p := Nat.two_pow_pos _
  have hps : 2 ^ (p + 1) = 2 * 2 ^ p := pow_succ' _ _
  have hps2 : 2 ^ (p + 2) = 4 * 2 ^ p := by rw [pow_add]; omega
  have hKi : ((d : Int) * 2 ^ e) = ((d * 2 ^ e : Nat) : Int) := by push_cast; rfl
  rw [hKi] at hnear heven
  have hK : 0 < d * 2 ^ e := Nat.mul_pos hd (Nat.two_pow_pos _)
  have hC : (2 ^ (p + 2) - 1) * 2 ^ E * d = (4 * 2 ^ p - 1) * (d * 2 ^ E) := by rw [hps2]; ring
  rw [hC]
  rw [hps] at hle
  have habs1 := le_abs_self ((n : Int) - q * (d * 2 ^ e : Nat))
  have habs2 := neg_le_abs ((n : Int) - q * (d * 2 ^ e : Nat))
  -- n between the bounds
  have hlo : 2 * q * (d * 2 ^ e) ≤ 2 * n + d * 2 ^ e := by
    have : (2 * q * (d * 2 ^ e : Nat) : Int) ≤ 2 * n + (d * 2 ^ e : Nat) := by linarith
    exact_mod_cast this
  have hhi : 2 * n ≤ 2 * q * (d * 2 ^ e) + d * 2 ^ e := by
    have : (2 * n : Int) ≤ 2 * q * (d * 2 ^ e : Nat) + (d * 2 ^ e : Nat) := by linarith
    exact_mod_cast this
  obtain ⟨P, hP⟩ : ∃ P, 2 ^ p = P + 1 := ⟨2 ^ p - 1, by omega⟩
  rcases Nat.lt_trichotomy e E with hlt | heq | hgt
  · constructor
    · intro hb
      exfalso
      have : (e + 1) * 2 ^ p ≤ E * 2 ^ p := Nat.mul_le_mul_right _ hlt
      rw [Nat.add_mul] at this hb
      omega
    · intro hb
      exfalso
      have h2 : 2 * (d * 2 ^ e) ≤ d * 2 ^ E := by
        have : 2 ^ (e + 1) ≤ 2 ^ E := Nat.pow_le_pow_right (by norm_num) hlt
        rw [pow_succ'] at this
        calc 2 * (d * 2 ^ e) = d * (2 * 2 ^ e) := by ring
          _ ≤ _ := Nat.mul_le_mul_left _ this
      have h3 : 2 * q * (d * 2 ^ e) ≤ 4 * 2 ^ p * (d * 2 ^ e) := Nat.mul_le_mul_right _ (by omega)
      have h4 : (4 * 2 ^ p - 1) * (2 * (d * 2 ^ e)) ≤ (4 * 2 ^ p - 1) * (d * 2 ^ E) := Nat.mul_le_mul_left _ h2
      rw [hP, show 4 * (P + 1) - 1 = 4 * P + 3 by omega] at h4 hb
      rw [hP] at h3
      nlinarith
  · subst heq
    rw [Nat.add_mul]
    constructor
    · intro hb
      have hqe : 2 * q = 4 * 2 ^ p := by omega
      rw [hqe, hP] at hlo
      rw [hP, show 4 * (P + 1) - 1 = 4 * P + 3 by omega]
      nlinarith
    · intro hb
      by_contra hc
      have hq : 2 * q + 1 ≤ 4 * 2 ^ p - 1 := by omega
      have h1 : (2 * q + 1) * (d * 2 ^ e) ≤ (4 * 2 ^ p - 1) * (d * 2 ^ e) := Nat.mul_le_mul_right _ hq
      have h2 : 2 * n = (2 * q + 1) * (d * 2 ^ e) := by
        have : (2 * q + 1) * (d * 2 ^ e) = 2 * q * (d * 2 ^ e) + d * 2 ^ e := by ring
        omega
      have h3 : 2 * q + 1 = 4 * 2 ^ p - 1 := by
        have : (4 * 2 ^ p - 1) * (d * 2 ^ e) ≤ (2 * q + 1) * (d * 2 ^ e) := by omega
        have := Nat.le_of_mul_le_mul_right this hK
        omega
      have h4 : q % 2 = 0 := by
        apply heven
        have h5 : (2 * n : Int) = (2 * q + 1) * (d * 2 ^ e : Nat) := by exact_mod_cast h2
        have h6 : (0 : Int) ≤ (n : Int) - q * (d * 2 ^ e : Nat) := by
          have : (0 : Int) < (d * 2 ^ e : Nat) := by exact_mod_cast hK
          linarith
        rw [abs_of_nonneg h6]
        linarith
      omega
  · constructor
    · intro _
      have h1 : d * 2 ^ (p + e) ≤ n := by omega
      have h2 : d * 2 ^ (p + (E + 1)) ≤ d * 2 ^ (p + e) := Nat.mul_le_mul_left _ (Nat.pow_le_pow_right (by norm_num) (by omega))
      have h3 : d * 2 ^ (p + (E + 1)) = 2 * 2 ^ p * (d * 2 ^ E) := by rw [pow_add, pow_succ]; ring
      have h4 : (4 * 2 ^ p - 1) * (d * 2 ^ E) ≤ 4 * 2 ^ p * (d * 2 ^ E) := Nat.mul_le_mul_right _ (by omega)
      have h5 : 4 * 2 ^ p * (d * 2 ^ E) = 2 * (2 * 2 ^ p * (d * 2 ^ E)) := by ring
      omega
    · intro _
      have : (E + 1) * 2 ^ p ≤ e * 2 ^ p := Nat.mul_le_mul_right _ hgt
      rw [Nat.add_mul] at this ⊢
      omega

/-- The rounded quotient is the nearest. -/
theorem round_near (F : Format) (n d e q : Nat) (hd : 0 < d) (h : IsRound F.p n d e q) (c : Nat) (t : Bool) (k f : Nat)
    (hc : F.read c = .fin t k f) :
    |(n : Int) - d * (q * 2 ^ e)| ≤ |(n : Int) - d * (k * 2 ^ f)| ∧
      (|(n : Int) - d * (q * 2 ^ e)| = |(n : Int) - d * (k * 2 ^ f)| → k * 2 ^ f ≠ q * 2 ^ e → q % 2 = 0) := by
  obtain ⟨_, _, hbig, hnear, heven⟩ := h
  have hK : (0 : Int) < d * 2 ^ e := by positivity
  have hdi : (0 : Int) < d := by exact_mod_cast hd
  have e1 : (d : Int) * (q * 2 ^ e) = q * (d * 2 ^ e) := by ring
  rw [e1]
  have hgrid : (2 : Int) ^ (F.p + e) ≤ k * 2 ^ f ∨ e = 0 → ∃ z : Int, (k : Int) * 2 ^ f = z * 2 ^ e := by
    rintro (hge | rfl)
    · have hu : (F.read c).units = some (if t then -((k : Int) * 2 ^ f) else (k : Int) * 2 ^ f) := by rw [hc]; rfl
      have hnn : (0 : Int) ≤ (k : Int) * 2 ^ f := by positivity
      obtain ⟨z, hz⟩ := units_grid F c _ hu e (by
        split
        · rw [abs_neg, abs_of_nonneg hnn]; exact hge
        · rw [abs_of_nonneg hnn]; exact hge)
      cases t
      · exact ⟨z, hz⟩
      · exact ⟨-z, by simp only [if_true] at hz; rw [neg_mul, ← hz, neg_neg]⟩
    · exact ⟨k * 2 ^ f, by rw [pow_zero, mul_one]⟩
  by_cases hcase : (2 : Int) ^ (F.p + e) ≤ k * 2 ^ f ∨ e = 0
  · obtain ⟨z, hz⟩ := hgrid hcase
    have e2 : (d : Int) * (k * 2 ^ f) = z * (d * 2 ^ e) := by rw [hz]; ring
    rw [e2]
    obtain ⟨h1, h2⟩ := round_nearest n (d * 2 ^ e) q z hK hnear (fun h => by have := heven h; omega)
    refine ⟨h1, fun heq hne => ?_⟩
    have := h2 heq (fun hzq => hne (by rw [hzq] at hz; exact_mod_cast hz))
    omega
  · have hc' := not_or.1 hcase
    have hb : d * 2 ^ (F.p + e) ≤ n := by omega
    have hbi : (2 : Int) ^ F.p * (d * 2 ^ e) ≤ n := by
      have : ((d * 2 ^ (F.p + e) : Nat) : Int) ≤ n := by exact_mod_cast hb
      calc (2 : Int) ^ F.p * (d * 2 ^ e) = ((d * 2 ^ (F.p + e) : Nat) : Int) := by push_cast; rw [pow_add]; ring
        _ ≤ _ := this
    obtain ⟨h1, _⟩ := round_nearest n (d * 2 ^ e) q (2 ^ F.p) hK hnear (fun h => by have := heven h; omega)
    rw [abs_of_nonneg (a := (n : Int) - 2 ^ F.p * (d * 2 ^ e)) (by linarith)] at h1
    have hlt : (d : Int) * (k * 2 ^ f) < 2 ^ F.p * (d * 2 ^ e) := by
      have h2 : (k : Int) * 2 ^ f < 2 ^ (F.p + e) := by omega
      calc (d : Int) * (k * 2 ^ f) < d * 2 ^ (F.p + e) := by nlinarith
        _ = _ := by rw [pow_add]; ring
    have h3 : (n : Int) - 2 ^ F.p * (d * 2 ^ e) < |(n : Int) - d * (k * 2 ^ f)| := lt_of_lt_of_le (by linarith) (le_abs_self _)
    exact ⟨by linarith, fun heq => by exfalso; linarith⟩

/-- `roundRat` rounds. -/
theorem roundRat_rounds (F : Fmt) (hp : 1 ≤ F.p) (hw : 4 ≤ 2 ^ F.w) (s : Bool) (n d : Nat) (hd : 0 < d) :
    Rounds (fmt F) s n d ((if s then 2 ^ (F.p + F.w) else 0) + F.roundRat n d) := by
  have h := isRound F.p n d hd
  have ho := overflow_iff F.p F.w n d _ _ hw hd h
  rw [roundRat_eq]
  unfold Rounds
  split
  · rename_i hc
    rw [Nat.min_eq_right (ho.2 hc)]
    have := read_mk (fmt F) s (2 ^ F.w - 1) 0 (by show 2 ^ F.w - 1 < 2 ^ F.w; omega) (Nat.two_pow_pos _)
    rw [Nat.add_zero] at this
    simpa using this
  · rename_i hc
    have hlt : qexp F.p n d * 2 ^ F.p + qsig F.p n d < (2 ^ F.w - 1) * 2 ^ F.p := Nat.lt_of_not_le (fun h' => hc (ho.1 h'))
    rw [Nat.min_eq_left hlt.le]
    obtain ⟨m, f, hr, hv⟩ := read_value (fmt F) s (qexp F.p n d) (qsig F.p n d) h.le h.ge hlt
    refine ⟨m, f, hr, fun c t k f' hc' => ?_⟩
    have hvi : (m : Int) * 2 ^ f = qsig F.p n d * 2 ^ qexp F.p n d := by exact_mod_cast hv
    rw [hvi, hv]
    obtain ⟨h1, h2⟩ := round_near (fmt F) n d _ _ hd h c t k f' hc'
    refine ⟨h1, fun a b => ?_⟩
    have hev := h2 a b
    have hpe : 2 ^ F.p = 2 * 2 ^ (F.p - 1) := by rw [← pow_succ']; congr 1; omega
    have e1 : (if s then 2 ^ (F.p + F.w) else 0) % 2 = 0 := by
      split
      · rw [pow_add, hpe, Nat.mul_assoc]; omega
      · rfl
    have e2 : qexp F.p n d * 2 ^ F.p % 2 = 0 := by rw [hpe, Nat.mul_left_comm]; omega
    omega

/-- `div` divides. -/
theorem div_quotient (F : Fmt) (hp : 1 ≤ F.p) (hw2 : 2 ≤ F.w) (a b : Nat) : Quotient (fmt F) a b (F.div a b) := by
  have hw : 4 ≤ 2 ^ F.w := by
    calc 4 = 2 ^ 2 := rfl
      _ ≤ 2 ^ F.w := Nat.pow_le_pow_right (by norm_num) hw2
  have hp0 : 0 < 2 ^ F.p := Nat.two_pow_pos _
  have hinf : ∀ s : Bool, (fmt F).read ((if s then 2 ^ (F.p + F.w) else 0) + (2 ^ F.w - 1) * 2 ^ F.p) = .inf s := by
    intro s
    have := read_mk (fmt F) s (2 ^ F.w - 1) 0 (by show 2 ^ F.w - 1 < 2 ^ F.w; omega) hp0
    rw [Nat.add_zero] at this
    simpa using this
  have hzero : ∀ s : Bool, (fmt F).read (if s then 2 ^ (F.p + F.w) else 0) = .fin s 0 0 := by
    intro s
    have := read_mk (fmt F) s 0 0 (by show 0 < 2 ^ F.w; omega) hp0
    rw [Nat.add_zero, Nat.zero_mul, Nat.add_zero] at this
    rw [this, if_neg (by show ¬ 0 = 2 ^ F.w - 1; omega)]
    simp
  have hnan : (fmt F).read ((2 ^ F.w - 1) * 2 ^ F.p + 2 ^ (F.p - 1)) = .nan := by
    have hlt : 2 ^ (F.p - 1) < 2 ^ F.p := Nat.pow_lt_pow_right (by norm_num) (by omega)
    have hne : 2 ^ (F.p - 1) ≠ 0 := (Nat.two_pow_pos _).ne'
    have := read_mk (fmt F) false (2 ^ F.w - 1) (2 ^ (F.p - 1)) (by show 2 ^ F.w - 1 < 2 ^ F.w; omega) hlt
    rw [if_pos rfl, if_neg hne] at this
    simpa using this
  have hone : 2 ^ (F.bias - 1 + F.p) = (fmt F).one := by
    unfold Format.one Fmt.bias
    rfl
  unfold Quotient
  rw [read_parts, read_parts]
  unfold Fmt.div
  simp only
  by_cases ha : F.isNan a
  · simp only [ha, if_true, Bool.true_or]; exact hnan
  · simp only [ha, Bool.false_eq_true, if_false, Bool.false_or]
    by_cases hb : F.isNan b
    · simp only [hb, if_true]
      split <;> first | exact hnan | simp_all
    · simp only [hb, Bool.false_eq_true, if_false]
      by_cases hai : F.isInf a
      · simp only [hai, if_true]
        by_cases hbi : F.isInf b
        · simp only [hbi, if_true]; exact hnan
        · simp only [hbi, Bool.false_eq_true, if_false]; exact hinf _
      · simp only [hai, Bool.false_eq_true, if_false]
        by_cases hbi : F.isInf b
        · simp only [hbi, if_true]; exact hzero _
        · simp only [hbi, Bool.false_eq_true, if_false]
          by_cases hb0 : F.sig b = 0
          · simp only [hb0, if_true]
            by_cases ha0 : F.sig a = 0
            · simp only [ha0, if_true]; exact hnan
            · simp only [ha0, if_false]; exact hinf _
          · simp only [hb0, if_false]
            rw [hone]
            exact roundRat_rounds F hp hw _ _ _ (Nat.mul_pos (by omega) (Nat.two_pow_pos _))

/-- Larger quotients are not rounded to smaller numbers. -/
theorem round_mono (p n₁ d₁ n₂ d₂ : Nat) (h₁ : 0 < d₁) (h₂ : 0 < d₂) (h : n₁ * d₂ ≤ n₂ * d₁) :
    qsig p n₁ d₁ * 2 ^ qexp p n₁ d₁ ≤ qsig p n₂ d₂ * 2 ^ qexp p n₂ d₂ ∧ qexp p n₁ d₁ ≤ qexp p n₂ d₂ := by
  have hdiv : n₁ / d₁ ≤ n₂ / d₂ := by
    rw [Nat.le_div_iff_mul_le h₂]
    have h3 : n₁ / d₁ * d₂ * d₁ ≤ n₂ * d₁ :=
      calc n₁ / d₁ * d₂ * d₁ = n₁ / d₁ * d₁ * d₂ := by ring
        _ ≤ n₁ * d₂ := Nat.mul_le_mul_right _ (Nat.div_mul_le_self _ _)
        _ ≤ _ := h
    exact Nat.le_of_mul_le_mul_right h3 h₁
  have he : qexp p n₁ d₁ ≤ qexp p n₂ d₂ := by
    unfold qexp
    have : (n₁ / d₁).log2 ≤ (n₂ / d₂).log2 := by
      rcases Nat.eq_zero_or_pos (n₁ / d₁) with h0 | h0
      · rw [h0]; simp
      · rw [Nat.le_log2 (by omega)]
        exact le_trans (Nat.log2_self_le (by omega)) hdiv
    omega
  refine ⟨?_, he⟩
  have r₁ := isRound p n₁ d₁ h₁
  have r₂ := isRound p n₂ d₂ h₂
  generalize qexp p n₁ d₁ = e₁ at *
  generalize qexp p n₂ d₂ = e₂ at *
  generalize qsig p n₁ d₁ = q₁ at *
  generalize qsig p n₂ d₂ = q₂ at *
  rcases Nat.lt_or_ge e₁ e₂ with hlt | hge
  · have h1 : 2 ^ (p + 1) * 2 ^ e₁ ≤ 2 ^ p * 2 ^ e₂ := by
      rw [← pow_add, ← pow_add]
      exact Nat.pow_le_pow_right (by norm_num) (by omega)
    have h2 : 2 ^ p ≤ q₂ := by
      rcases r₂.ge with h | h
      · omega
      · exact h
    calc q₁ * 2 ^ e₁ ≤ 2 ^ (p + 1) * 2 ^ e₁ := Nat.mul_le_mul_right _ r₁.le
      _ ≤ 2 ^ p * 2 ^ e₂ := h1
      _ ≤ _ := Nat.mul_le_mul_right _ h2
  · obtain rfl : e₁ = e₂ := by omega
    refine Nat.mul_le_mul_right _ ?_
    by_contra hc
    have hc' : q₂ + 1 ≤ q₁ := by omega
    have n1 := r₁.near
    have n2 := r₂.near
    have v1 := r₁.even
    have v2 := r₂.even
    have D₁ : (0 : Int) < d₁ := by exact_mod_cast h₁
    have D₂ : (0 : Int) < d₂ := by exact_mod_cast h₂
    have T : (0 : Int) < 2 ^ e₁ := by positivity
    have hi : (n₁ : Int) * d₂ ≤ n₂ * d₁ := by exact_mod_cast h
    have hci : (q₂ : Int) + 1 ≤ q₁ := by exact_mod_cast hc'
    -- bounds
    have b1 : 2 * (q₁ : Int) * (d₁ * 2 ^ e₁) - d₁ * 2 ^ e₁ ≤ 2 * n₁ := by
      have := neg_le_abs ((n₁ : Int) - q₁ * (d₁ * 2 ^ e₁)); linarith
    have b2 : 2 * (n₂ : Int) ≤ 2 * q₂ * (d₂ * 2 ^ e₁) + d₂ * 2 ^ e₁ := by
      have := le_abs_self ((n₂ : Int) - q₂ * (d₂ * 2 ^ e₁)); linarith
    have c1 : (2 * (q₁ : Int) * (d₁ * 2 ^ e₁) - d₁ * 2 ^ e₁) * d₂ ≤ 2 * n₁ * d₂ := mul_le_mul_of_nonneg_right b1 D₂.le
    have c2 : 2 * (n₂ : Int) * d₁ ≤ (2 * q₂ * (d₂ * 2 ^ e₁) + d₂ * 2 ^ e₁) * d₁ := mul_le_mul_of_nonneg_right b2 D₁.le
    have hpos : (0 : Int) < d₁ * d₂ * 2 ^ e₁ := by positivity
    have c3 : (2 * (q₁ : Int) - 1) * (d₁ * d₂ * 2 ^ e₁) ≤ (2 * q₂ + 1) * (d₁ * d₂ * 2 ^ e₁) := by nlinarith
    have c4 : 2 * (q₁ : Int) - 1 ≤ 2 * q₂ + 1 := le_of_mul_le_mul_right c3 hpos
    have hq : (q₁ : Int) = q₂ + 1 := by omega
    -- both are halfway
    have t1 : 2 * (n₁ : Int) * d₂ = (2 * (q₁ : Int) * (d₁ * 2 ^ e₁) - d₁ * 2 ^ e₁) * d₂ := by
      apply le_antisymm _ c1
      calc 2 * (n₁ : Int) * d₂ ≤ 2 * (n₂ : Int) * d₁ := by linarith
        _ ≤ _ := c2
        _ = _ := by rw [hq]; ring
    have t2 : 2 * (n₂ : Int) * d₁ = (2 * q₂ * (d₂ * 2 ^ e₁) + d₂ * 2 ^ e₁) * d₁ := by
      apply le_antisymm c2
      calc (2 * (q₂ : Int) * (d₂ * 2 ^ e₁) + d₂ * 2 ^ e₁) * d₁ = (2 * (q₁ : Int) * (d₁ * 2 ^ e₁) - d₁ * 2 ^ e₁) * d₂ := by rw [hq]; ring
        _ = 2 * (n₁ : Int) * d₂ := t1.symm
        _ ≤ _ := by linarith
    have u1 := mul_right_cancel₀ D₂.ne' t1
    have u2 := mul_right_cancel₀ D₁.ne' t2
    have w1 := v1 (by
      have : (n₁ : Int) - q₁ * (d₁ * 2 ^ e₁) ≤ 0 := by nlinarith
      rw [abs_of_nonpos this]; linarith)
    have w2 := v2 (by
      have : 0 ≤ (n₂ : Int) - q₂ * (d₂ * 2 ^ e₁) := by nlinarith
      rw [abs_of_nonneg this]; linarith)
    omega

/-- Quotients that are rounded to the same number are close. -/
theorem round_close (p n₁ d₁ n₂ d₂ : Nat) (h₁ : 0 < d₁) (h₂ : 0 < d₂) (h : n₁ * d₂ ≤ n₂ * d₁)
    (heq : qsig p n₁ d₁ * 2 ^ qexp p n₁ d₁ = qsig p n₂ d₂ * 2 ^ qexp p n₂ d₂) (hbig : d₂ * 2 ^ p ≤ n₂) :
    (n₂ * d₁ - n₁ * d₂) * 2 ^ p ≤ n₂ * d₁ := by
  have he := (round_mono p n₁ d₁ n₂ d₂ h₁ h₂ h).2
  have r₁ := isRound p n₁ d₁ h₁
  have r₂ := isRound p n₂ d₂ h₂
  have hb : d₂ * 2 ^ (p + qexp p n₂ d₂) ≤ n₂ := by
    rcases r₂.big with h0 | h0
    · rw [h0]; exact hbig
    · exact h0
  generalize qexp p n₁ d₁ = e₁ at *
  generalize qexp p n₂ d₂ = e₂ at *
  generalize qsig p n₁ d₁ = q₁ at *
  generalize qsig p n₂ d₂ = q₂ at *
  have n1 := r₁.near
  have n2 := r₂.near
  have D₁ : (0 : Int) < d₁ := by exact_mod_cast h₁
  have D₂ : (0 : Int) < d₂ := by exact_mod_cast h₂
  have heqi : (q₁ : Int) * 2 ^ e₁ = q₂ * 2 ^ e₂ := by exact_mod_cast heq
  have hpw : (2 : Int) ^ e₁ ≤ 2 ^ e₂ := pow_le_pow_right₀ (by norm_num) he
  have b1 : 2 * ((q₁ : Int) * 2 ^ e₁) * d₁ - d₁ * 2 ^ e₁ ≤ 2 * n₁ := by
    have := neg_le_abs ((n₁ : Int) - q₁ * (d₁ * 2 ^ e₁)); linarith
  have b2 : 2 * (n₂ : Int) ≤ 2 * (q₂ * 2 ^ e₂) * d₂ + d₂ * 2 ^ e₂ := by
    have := le_abs_self ((n₂ : Int) - q₂ * (d₂ * 2 ^ e₂)); linarith
  rw [heqi] at b1
  have c1 : (2 * ((q₂ : Int) * 2 ^ e₂) * d₁ - d₁ * 2 ^ e₁) * d₂ ≤ 2 * n₁ * d₂ := mul_le_mul_of_nonneg_right b1 D₂.le
  have c2 : 2 * (n₂ : Int) * d₁ ≤ (2 * (q₂ * 2 ^ e₂) * d₂ + d₂ * 2 ^ e₂) * d₁ := mul_le_mul_of_nonneg_right b2 D₁.le
  have c0 : (d₁ : Int) * d₂ * 2 ^ e₁ ≤ d₁ * d₂ * 2 ^ e₂ := mul_le_mul_of_nonneg_left hpw (by positivity)
  have c3 : (n₂ : Int) * d₁ - n₁ * d₂ ≤ d₁ * d₂ * 2 ^ e₂ := by nlinarith
  have hbi : (d₂ : Int) * (2 ^ p * 2 ^ e₂) ≤ n₂ := by rw [← pow_add]; exact_mod_cast hb
  have hP : (0 : Int) < 2 ^ p := by positivity
  have c4 : ((n₂ : Int) * d₁ - n₁ * d₂) * 2 ^ p ≤ n₂ * d₁ :=
    calc ((n₂ : Int) * d₁ - n₁ * d₂) * 2 ^ p ≤ d₁ * d₂ * 2 ^ e₂ * 2 ^ p := mul_le_mul_of_nonneg_right c3 hP.le
      _ = d₂ * (2 ^ p * 2 ^ e₂) * d₁ := by ring
      _ ≤ _ := mul_le_mul_of_nonneg_right hbi D₁.le
  have hcast : ((n₂ * d₁ - n₁ * d₂ : Nat) : Int) = (n₂ : Int) * d₁ - n₁ * d₂ := by rw [Nat.cast_sub h]; push_cast; rfl
  rw [← hcast] at c4
  exact_mod_cast c4

end Verif.Float
