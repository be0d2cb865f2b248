import Verif.Lemmas.Json5Peg
import Verif.Props.Number
/-!
# Numbers in the grammar
-/
namespace Verif.Json5
open Number (DecInt Lit Body Fractional signed denotes exponent IsDigit IsHexDigit signText Exp expText)

/-- the characters that may follow a token -/
def FollowChar (c : Char) : Prop := White c ∨ c = '/' ∨ c = ',' ∨ c = ']' ∨ c = '}' ∨ c = ':'

def Follow (r : List Char) : Prop := ∀ c, r.head? = some c → FollowChar c

theorem FollowChar.nat {c : Char} (h : FollowChar c) :
    White c ∨ c.toNat = 47 ∨ c.toNat = 44 ∨ c.toNat = 93 ∨ c.toNat = 125 ∨ c.toNat = 58 := by
  unfold FollowChar at h
  simp only [ceq c] at h
  exact h

theorem FollowChar.not_digit {c : Char} (h : FollowChar c) : asciiDigit c = false := by
  rw [← Bool.not_eq_true, digit_iff]
  have := h.nat
  unfold White at this
  unfold IsDigit
  omega

theorem FollowChar.not_hex {c : Char} (h : FollowChar c) : asciiHex c = false := by
  rw [← Bool.not_eq_true, hex_iff]
  have := h.nat
  unfold White at this
  unfold IsHexDigit IsDigit
  omega

theorem FollowChar.ne {c : Char} (h : FollowChar c) (d : Char)
    (hd : ¬ (White d ∨ d.toNat = 47 ∨ d.toNat = 44 ∨ d.toNat = 93 ∨ d.toNat = 125 ∨ d.toNat = 58)) : c ≠ d := by
  rintro rfl
  exact hd h.nat

theorem Follow.ne {r : List Char} (h : Follow r) (d : Char)
    (hd : ¬ (White d ∨ d.toNat = 47 ∨ d.toNat = 44 ∨ d.toNat = 93 ∨ d.toNat = 125 ∨ d.toNat = 58)) : r.head? ≠ some d :=
  fun h' => (h d h').ne d hd rfl

theorem nw (d : Char) (h : d.toNat < 9 ∨ (13 < d.toNat ∧ d.toNat < 32) ∨ (32 < d.toNat ∧ d.toNat < 128))
    (h' : d.toNat ≠ 47 ∧ d.toNat ≠ 44 ∧ d.toNat ≠ 93 ∧ d.toNat ≠ 125 ∧ d.toNat ≠ 58) :
    ¬ (White d ∨ d.toNat = 47 ∨ d.toNat = 44 ∨ d.toNat = 93 ∨ d.toNat = 125 ∨ d.toNat = 58) := by
  unfold White
  omega

/-- the parser fails when the first character is none of the class -/
theorem one_head {p : Char → Bool} {s : List Char} (h : ∀ c, s.head? = some c → p c = false) : one p s = none := by
  cases s with
  | nil => rfl
  | cons c s => exact one_none (h c rfl)

theorem isE {c : Char} : (c == 'e' || c == 'E') = true ↔ c = 'e' ∨ c = 'E' := by simp
theorem isX {c : Char} : (c == 'x' || c == 'X') = true ↔ c = 'x' ∨ c = 'X' := by simp
theorem isSign {c : Char} : (c == '+' || c == '-') = true ↔ c = '+' ∨ c = '-' := by simp

theorem head_digit {t r : List Char} (h0 : t ≠ []) (h : ∀ x ∈ t, IsDigit x) {c} (hc : (t ++ r).head? = some c) : IsDigit c := by
  obtain ⟨d, t', rfl⟩ := List.exists_cons_of_ne_nil h0
  simp at hc
  subst hc
  exact h d (by simp)

theorem decInt_ne {i} (h : DecInt i) : i ≠ [] := by
  rcases h with rfl | ⟨c, r, rfl, -⟩ <;> simp

theorem decInt_digits {i} (h : DecInt i) : ∀ x ∈ i, IsDigit x := by
  rcases h with rfl | ⟨c, r, rfl, h1, -, h2⟩
  · intro x hx
    simp at hx
    subst hx
    decide
  · intro x hx
    rcases List.mem_cons.1 hx with rfl | hx
    · exact h1
    · exact h2 x hx

theorem digit_ne {c d : Char} (h : IsDigit c) (hd : ¬ (48 ≤ d.toNat ∧ d.toNat ≤ 57)) : c ≠ d := by
  rintro rfl
  exact hd h

/-! ## The parser takes every literal -/

theorem sign_app {s : Option Bool} {r : List Char} (h : ∀ c, r.head? = some c → c ≠ '+' ∧ c ≠ '-') :
    opt (one fun c => c == '+' || c == '-') (signText s ++ r) = some ([], r) := by
  cases s with
  | none =>
    apply opt_none
    apply one_head
    intro c hc
    have := h c hc
    simp [this.1, this.2]
  | some b => cases b <;> exact opt_some (one_cons rfl)

theorem decimalInteger_app {i r : List Char} (h : DecInt i) (hr : ∀ c, r.head? = some c → asciiDigit c = false) :
    decimalInteger (i ++ r) = some ([], r) := by
  rcases h with rfl | ⟨c, ds, rfl, h1, h2, h3⟩
  · exact alt_left (lit_app ['0'] r)
  · unfold decimalInteger
    rw [alt_right]
    · exact seq_some (x := []) (y := []) (one_cons ((nonzero_iff c).2 ⟨h1, h2⟩))
        (star_one_app (fun x hx => (digit_iff x).2 (h3 x hx)) hr)
    · apply lit_head
      simpa using h2

theorem exponent_app {e : Exp} {r : List Char} (h : e.Wf) (hr : ∀ c, r.head? = some c → asciiDigit c = false) :
    exponentPart (e.text ++ r) = some ([], r) := by
  unfold exponentPart Exp.text
  refine seq_some (x := []) (y := []) (r := signText e.sign ++ e.digits ++ r) (one_cons ?_) ?_
  · cases e.big <;> rfl
  · rw [List.append_assoc]
    refine seq_some (x := []) (y := []) (sign_app ?_) (plus_one_app h.1 (fun x hx => (digit_iff x).2 (h.2 x hx)) hr)
    intro c hc
    have := head_digit h.1 h.2 hc
    exact ⟨digit_ne this (by decide), digit_ne this (by decide)⟩

theorem optExponent_app {e : Option Exp} {r : List Char} (h : ∀ y, e = some y → y.Wf) (hr : Follow r) :
    opt exponentPart (expText e ++ r) = some ([], r) := by
  cases e with
  | none =>
    apply opt_none
    apply seq_none
    apply one_head
    intro c hc
    have := hr c hc
    rw [← Bool.not_eq_true, isE]
    rintro (rfl | rfl)
    · exact this.ne 'e' (nw _ (by decide) (by decide)) rfl
    · exact this.ne 'E' (nw _ (by decide) (by decide)) rfl
  | some e => exact opt_some (exponent_app (h e rfl) fun c hc => (hr c hc).not_digit)

theorem hexInteger_none {s : List Char} (h : ∀ s', s = '0' :: s' → ∀ c, s'.head? = some c → c ≠ 'x' ∧ c ≠ 'X') :
    hexInteger s = none := by
  unfold hexInteger
  by_cases h0 : s.head? = some '0'
  · cases s with
    | nil => cases h0
    | cons c s =>
      simp at h0
      subst h0
      refine seq_none' (lit_app ['0'] s) (seq_none (one_head ?_))
      intro c hc
      have := h s rfl c hc
      simp [this.1, this.2]
  · exact seq_none (lit_head h0)

/-- after a whole number there is no `x` -/
theorem hexInteger_dec {i r : List Char} (h : DecInt i) (hr : ∀ c, r.head? = some c → c ≠ 'x' ∧ c ≠ 'X') : hexInteger (i ++ r) = none := by
  apply hexInteger_none
  intro s' hs c hc
  rcases h with rfl | ⟨d, ds, rfl, h1, h2, h3⟩
  · simp at hs
    subst hs
    exact hr c hc
  · simp at hs
    exact absurd hs.1 h2

theorem dot_dec {i r : List Char} (h : DecInt i) : lit ['.'] (i ++ r) = none := by
  apply lit_head
  intro h'
  have := head_digit (decInt_ne h) (decInt_digits h) h'
  exact absurd this (by decide)

theorem exp_head {e : Exp} {r : List Char} {c} (h : (e.text ++ r).head? = some c) : c = 'e' ∨ c = 'E' := by
  unfold Exp.text at h
  cases hb : e.big <;> simp [hb] at h
  · exact .inl h.symm
  · exact .inr h.symm

theorem numeric_app {b : Body} {r : List Char} (h : b.Wf) (h1 : b ≠ .infinity) (h2 : b ≠ .nan) (hr : Follow r) :
    numeric (b.text ++ r) = some ([], r) := by
  have hx : ∀ c, r.head? = some c → c ≠ 'x' ∧ c ≠ 'X' := fun c hc =>
    ⟨(hr c hc).ne _ (nw _ (by decide) (by decide)), (hr c hc).ne _ (nw _ (by decide) (by decide))⟩
  have hd : ∀ c, r.head? = some c → asciiDigit c = false := fun c hc => (hr c hc).not_digit
  unfold numeric
  cases b with
  | hex big ds =>
    apply alt_left
    refine seq_some (x := []) (y := []) (r := (if big then 'X' else 'x') :: (ds ++ r)) (lit_app ['0'] _) ?_
    refine seq_some (x := []) (y := []) (one_cons (by cases big <;> rfl)) ?_
    exact plus_one_app h.1 (fun x hx' => (hex_iff x).2 (h.2 x hx')) fun c hc => (hr c hc).not_hex
  | int i =>
    change DecInt i at h
    change alt hexInteger (alt decimal (alt (lit "Infinity".toList) (lit "NaN".toList))) (i ++ r) = some ([], r)
    have he : opt exponentPart r = some ([], r) := optExponent_app (e := none) (by simp) hr
    rw [alt_right (hexInteger_dec h hx)]
    apply alt_left
    unfold decimal
    rw [alt_right, alt_right]
    · exact seq_some (x := []) (y := []) (decimalInteger_app h hd) he
    · exact seq_none (dot_dec h)
    · exact seq_none' (decimalInteger_app h hd) (seq_none (lit_head (hr.ne _ (nw _ (by decide) (by decide)))))
  | intExp i e =>
    have ht : (Body.intExp i e).text ++ r = i ++ (e.text ++ r) := List.append_assoc i e.text r
    rw [ht]
    have he : opt exponentPart (e.text ++ r) = some ([], r) := optExponent_app (e := some e) (fun y hy => by cases hy; exact h.2) hr
    have hd' : ∀ c, (e.text ++ r).head? = some c → asciiDigit c = false := by
      intro c hc
      rcases exp_head hc with rfl | rfl <;> decide
    rw [alt_right (hexInteger_dec h.1 fun c hc => by rcases exp_head hc with rfl | rfl <;> decide)]
    apply alt_left
    unfold decimal
    rw [alt_right, alt_right]
    · exact seq_some (x := []) (y := []) (decimalInteger_app h.1 hd') he
    · exact seq_none (dot_dec h.1)
    · refine seq_none' (decimalInteger_app h.1 hd') (seq_none (lit_head ?_))
      intro h'
      rcases exp_head h' with h' | h' <;> cases h'
  | frac i f e =>
    have ht : (Body.frac i f e).text ++ r = i ++ '.' :: (f ++ (expText e ++ r)) := by
      show (i ++ '.' :: (f ++ expText e)) ++ r = _
      simp
    rw [ht]
    rw [alt_right (hexInteger_dec h.1 fun c hc => by simp at hc; subst hc; decide)]
    apply alt_left
    unfold decimal
    apply alt_left
    refine seq_some (x := []) (y := []) (decimalInteger_app h.1 fun c hc => by simp at hc; subst hc; decide) ?_
    refine seq_some (x := []) (y := []) (lit_app ['.'] _) ?_
    refine seq_some (x := []) (y := []) (star_one_app (fun x hx' => (digit_iff x).2 (h.2.1 x hx')) ?_) (optExponent_app h.2.2 hr)
    intro c hc
    cases e with
    | none => exact hd c hc
    | some e => rcases exp_head hc with rfl | rfl <;> decide
  | dot f e =>
    have ht : (Body.dot f e).text ++ r = '.' :: (f ++ (expText e ++ r)) := by
      show ('.' :: (f ++ expText e)) ++ r = _
      simp
    rw [ht]
    rw [alt_right (hexInteger_none fun s' hs => by simp at hs)]
    apply alt_left
    unfold decimal
    rw [alt_right]
    · apply alt_left
      refine seq_some (x := []) (y := []) (lit_app ['.'] _) ?_
      refine seq_some (x := []) (y := []) (plus_one_app h.1 (fun x hx' => (digit_iff x).2 (h.2.1 x hx')) ?_) (optExponent_app h.2.2 hr)
      intro c hc
      cases e with
      | none => exact hd c hc
      | some e => rcases exp_head hc with rfl | rfl <;> decide
    · refine seq_none (alt_none (lit_head (by simp)) (seq_none (one_none (by decide))))
  | infinity => exact absurd rfl h1
  | nan => exact absurd rfl h2

/-- the first character of a number -/
theorem body_head {b : Body} (h : b.Wf) (h1 : b ≠ .infinity) (h2 : b ≠ .nan) : ∃ c t, b.text = c :: t ∧ (IsDigit c ∨ c = '.') := by
  have hi : ∀ {i t : List Char}, DecInt i → ∃ c t', i ++ t = c :: t' ∧ (IsDigit c ∨ c = '.') := by
    intro i t h
    obtain ⟨d, i', rfl⟩ := List.exists_cons_of_ne_nil (decInt_ne h)
    exact ⟨d, i' ++ t, rfl, .inl (decInt_digits h d (by simp))⟩
  cases b with
  | hex big ds => exact ⟨'0', _, rfl, .inl (by decide)⟩
  | int i =>
    obtain ⟨c, t, ht, hc⟩ := hi (t := []) h
    rw [List.append_nil] at ht
    exact ⟨c, t, ht, hc⟩
  | intExp i e => exact hi h.1
  | frac i f e => exact hi h.1
  | dot f e => exact ⟨'.', _, rfl, .inr rfl⟩
  | infinity => exact absurd rfl h1
  | nan => exact absurd rfl h2

theorem number_app {l : Lit} {r : List Char} (h : l.Wf) (h1 : l.body ≠ .infinity) (h2 : l.body ≠ .nan) (hr : Follow r) :
    numberP (l.text ++ r) = some ([.mk .number l.text []], r) := by
  apply atomic_some (x := [])
  unfold Lit.text
  rw [List.append_assoc]
  refine seq_some (x := []) (y := []) (sign_app ?_) (numeric_app h h1 h2 hr)
  intro c hc
  obtain ⟨d, t, ht, hd⟩ := body_head h h1 h2
  rw [ht] at hc
  simp at hc
  subst hc
  rcases hd with hd | rfl
  · exact ⟨digit_ne hd (by decide), digit_ne hd (by decide)⟩
  · decide

/-! ## What it takes is a literal -/

theorem sign_inv {s x r} (h : opt (one fun c => c == '+' || c == '-') s = some (x, r)) :
    x = [] ∧ ∃ b, s = signText b ++ r := by
  rcases opt_inv h with h | ⟨-, rfl, rfl⟩
  · obtain ⟨rfl, c, hc, rfl⟩ := one_inv h
    rcases isSign.1 hc with rfl | rfl
    · exact ⟨rfl, some true, rfl⟩
    · exact ⟨rfl, some false, rfl⟩
  · exact ⟨rfl, none, rfl⟩

theorem decimalInteger_inv {s x r} (h : decimalInteger s = some (x, r)) : x = [] ∧ ∃ i, DecInt i ∧ s = i ++ r := by
  rcases alt_inv h with h | ⟨-, h⟩
  · obtain ⟨rfl, rfl⟩ := lit_inv h
    exact ⟨rfl, _, .inl rfl, rfl⟩
  · obtain ⟨x, r1, y, h1, h2, rfl⟩ := seq_inv h
    obtain ⟨rfl, c, hc, rfl⟩ := one_inv h1
    obtain ⟨rfl, t, rfl, ht, -⟩ := star_one_inv h2
    rw [nonzero_iff] at hc
    exact ⟨rfl, c :: t, .inr ⟨c, t, rfl, hc.1, hc.2, fun x hx => (digit_iff x).1 (ht x hx)⟩, rfl⟩

theorem exponent_inv {s x r} (h : exponentPart s = some (x, r)) : x = [] ∧ ∃ e : Exp, e.Wf ∧ s = e.text ++ r := by
  obtain ⟨x, r1, y, h1, h2, rfl⟩ := seq_inv h
  obtain ⟨rfl, c, hc, rfl⟩ := one_inv h1
  obtain ⟨x, r2, y, h3, h4, rfl⟩ := seq_inv h2
  obtain ⟨rfl, b, rfl⟩ := sign_inv h3
  obtain ⟨rfl, t, h0, rfl, ht, -⟩ := plus_one_inv h4
  have hw : ∀ big, Exp.Wf ⟨big, b, t⟩ := fun _ => ⟨h0, fun x hx => (digit_iff x).1 (ht x hx)⟩
  rcases isE.1 hc with rfl | rfl
  · exact ⟨rfl, ⟨false, b, t⟩, hw _, by simp [Exp.text]⟩
  · exact ⟨rfl, ⟨true, b, t⟩, hw _, by simp [Exp.text]⟩

theorem optExponent_inv {s x r} (h : opt exponentPart s = some (x, r)) :
    x = [] ∧ ∃ e : Option Exp, (∀ y, e = some y → y.Wf) ∧ s = expText e ++ r := by
  rcases opt_inv h with h | ⟨-, rfl, rfl⟩
  · obtain ⟨rfl, e, he, rfl⟩ := exponent_inv h
    exact ⟨rfl, some e, fun y hy => by cases hy; exact he, rfl⟩
  · exact ⟨rfl, none, by simp, rfl⟩

theorem numeric_inv {s x r} (h : numeric s = some (x, r)) : x = [] ∧ ∃ b : Body, b.Wf ∧ s = b.text ++ r := by
  rcases alt_inv h with h | ⟨-, h⟩
  · obtain ⟨x, r1, y, h1, h2, rfl⟩ := seq_inv h
    obtain ⟨rfl, rfl⟩ := lit_inv h1
    obtain ⟨x, r2, y, h3, h4, rfl⟩ := seq_inv h2
    obtain ⟨rfl, c, hc, rfl⟩ := one_inv h3
    obtain ⟨rfl, t, h0, rfl, ht, -⟩ := plus_one_inv h4
    have hw : ∀ big, Body.Wf (.hex big t) := fun _ => ⟨h0, fun x hx => (hex_iff x).1 (ht x hx)⟩
    rcases isX.1 hc with rfl | rfl
    · exact ⟨rfl, .hex false t, hw _, rfl⟩
    · exact ⟨rfl, .hex true t, hw _, rfl⟩
  · rcases alt_inv h with h | ⟨-, h⟩
    · rcases alt_inv h with h | ⟨-, h⟩
      · obtain ⟨x, r1, y, h1, h2, rfl⟩ := seq_inv h
        obtain ⟨rfl, i, hi, rfl⟩ := decimalInteger_inv h1
        obtain ⟨x, r2, y, h3, h4, rfl⟩ := seq_inv h2
        obtain ⟨rfl, rfl⟩ := lit_inv h3
        obtain ⟨x, r3, y, h5, h6, rfl⟩ := seq_inv h4
        obtain ⟨rfl, t, rfl, ht, -⟩ := star_one_inv h5
        obtain ⟨rfl, e, he, rfl⟩ := optExponent_inv h6
        have hw : Body.Wf (.frac i t e) := ⟨hi, fun x hx => (digit_iff x).1 (ht x hx), he⟩
        refine ⟨rfl, .frac i t e, hw, ?_⟩
        show _ = (i ++ '.' :: (t ++ expText e)) ++ r
        simp
      · rcases alt_inv h with h | ⟨-, h⟩
        · obtain ⟨x, r1, y, h1, h2, rfl⟩ := seq_inv h
          obtain ⟨rfl, rfl⟩ := lit_inv h1
          obtain ⟨x, r2, y, h3, h4, rfl⟩ := seq_inv h2
          obtain ⟨rfl, t, h0, rfl, ht, -⟩ := plus_one_inv h3
          obtain ⟨rfl, e, he, rfl⟩ := optExponent_inv h4
          refine ⟨rfl, .dot t e, ⟨h0, fun x hx => (digit_iff x).1 (ht x hx), he⟩, ?_⟩
          show _ = ('.' :: (t ++ expText e)) ++ r
          simp
        · obtain ⟨x, r1, y, h1, h2, rfl⟩ := seq_inv h
          obtain ⟨rfl, i, hi, rfl⟩ := decimalInteger_inv h1
          obtain ⟨rfl, e, he, rfl⟩ := optExponent_inv h2
          cases e with
          | none => exact ⟨rfl, .int i, hi, rfl⟩
          | some e => exact ⟨rfl, .intExp i e, ⟨hi, he e rfl⟩, (List.append_assoc i e.text r).symm⟩
    · rcases alt_inv h with h | ⟨-, h⟩
      · obtain ⟨rfl, rfl⟩ := lit_inv h
        exact ⟨rfl, .infinity, trivial, rfl⟩
      · obtain ⟨rfl, rfl⟩ := lit_inv h
        exact ⟨rfl, .nan, trivial, rfl⟩

theorem number_inv {s z r} (h : numberP s = some (z, r)) :
    ∃ l : Lit, l.Wf ∧ s = l.text ++ r ∧ z = [.mk .number l.text []] := by
  obtain ⟨x, h1, hz⟩ := atomic_inv h
  obtain ⟨x, r1, y, h2, h3, rfl⟩ := seq_inv h1
  obtain ⟨rfl, b, rfl⟩ := sign_inv h2
  obtain ⟨rfl, body, hb, rfl⟩ := numeric_inv h3
  have ht : signText b ++ (body.text ++ r) = Lit.text ⟨b, body⟩ ++ r := by simp [Lit.text]
  exact ⟨⟨b, body⟩, hb, ht, hz _ ht⟩

end Verif.Json5
