import Verif.Model.Number
import Verif.Spec.Number
/-! # Numbers in the source (C24) -/
namespace Verif.Number

/-! ## Digits -/

instance (c : Char) : Decidable (IsDigit c) := inferInstanceAs (Decidable (_ ∧ _))
instance (c : Char) : Decidable (IsHexDigit c) := inferInstanceAs (Decidable (_ ∨ _))

theorem char_le_iff (a b : Char) : a ≤ b ↔ a.toNat ≤ b.toNat := by rw [Char.le_def, UInt32.le_iff_toNat_le]; rfl

theorem digit_dec {c : Char} (h : IsDigit c) : digit 10 c = some (value c) := by
  obtain ⟨h1, h2⟩ := h
  unfold digit
  simp only [char_le_iff]
  rw [show ('0' : Char).toNat = 48 from rfl, show ('9' : Char).toNat = 57 from rfl, if_pos ⟨h1, h2⟩]
  simp only
  unfold value
  rw [if_pos h2, if_pos (by omega)]

theorem digit_hex {c : Char} (h : IsHexDigit c) : digit 16 c = some (value c) := by
  unfold digit
  simp only [char_le_iff]
  rw [show ('0' : Char).toNat = 48 from rfl, show ('9' : Char).toNat = 57 from rfl, show ('a' : Char).toNat = 97 from rfl,
    show ('z' : Char).toNat = 122 from rfl, show ('A' : Char).toNat = 65 from rfl, show ('Z' : Char).toNat = 90 from rfl]
  unfold value
  rcases h with ⟨h1, h2⟩ | ⟨h1, h2⟩ | ⟨h1, h2⟩
  · rw [if_pos ⟨h1, h2⟩, if_pos h2]; simp only; rw [if_pos (by omega)]
  · rw [if_neg (by omega), if_pos (by omega), if_neg (by omega), if_neg (by omega)]; simp only; rw [if_pos (by omega)]
    congr 1; omega
  · rw [if_neg (by omega), if_neg (by omega), if_pos (by omega), if_neg (by omega), if_pos (by omega)]; simp only; rw [if_pos (by omega)]
    congr 1; omega

theorem digits_eq {base : Nat} {s : List Char} (h : ∀ c ∈ s, digit base c = some (value c)) (acc : Nat) :
    digits base acc s = some (acc * base ^ s.length + denotes base s) := by
  induction s generalizing acc with
  | nil => simp [digits, denotes]
  | cons c r ih =>
    unfold digits
    rw [h c List.mem_cons_self]
    simp only
    rw [ih fun x hx => h x (List.mem_cons_of_mem _ hx)]
    congr 1
    unfold denotes
    rw [List.reverse_cons, List.map_append, Nat.ofDigits_append, List.map_cons, List.map_nil, Nat.ofDigits_singleton]
    simp only [List.length_map, List.length_reverse, List.length_cons, Nat.pow_succ]
    rw [Nat.add_mul, Nat.mul_assoc, Nat.mul_comm base, Nat.mul_comm (value c)]
    omega

theorem magnitude_eq {base : Nat} {s : List Char} (hs : s ≠ []) (h : ∀ c ∈ s, digit base c = some (value c)) :
    magnitude base s = some (denotes base s) := by
  unfold magnitude
  rw [if_neg hs, digits_eq h, Nat.zero_mul, Nat.zero_add]

theorem decInt_digits {s : List Char} (h : DecInt s) : s ≠ [] ∧ ∀ c ∈ s, IsDigit c := by
  rcases h with rfl | ⟨c, r, rfl, hc, _, hr⟩
  · refine ⟨by simp, ?_⟩
    intro c hc
    rw [List.mem_singleton.1 hc]
    decide
  · refine ⟨by simp, ?_⟩
    intro x hx
    rcases List.mem_cons.1 hx with rfl | hx
    · exact hc
    · exact hr x hx

/-! ## The characters of a literal -/

/-- the characters of decimals -/
def Plain (c : Char) : Prop := IsDigit c ∨ c = '+' ∨ c = '-' ∨ c = '.' ∨ c = 'e' ∨ c = 'E'

instance (c : Char) : Decidable (Plain c) := inferInstanceAs (Decidable (_ ∨ _))

theorem signText_plain {s : Option Bool} : ∀ c ∈ signText s, Plain c := by
  intro c hc
  cases s with
  | none => cases hc
  | some b => cases b <;> rw [List.mem_singleton.1 hc] <;> decide

theorem exp_plain {e : Exp} (h : e.Wf) : ∀ c ∈ e.text, Plain c := by
  intro c hc
  unfold Exp.text at hc
  rcases List.mem_cons.1 hc with rfl | hc
  · cases e.big <;> decide
  · rcases List.mem_append.1 hc with hc | hc
    · exact signText_plain c hc
    · exact .inl (h.2 c hc)

theorem expText_plain {e : Option Exp} (h : ∀ y, e = some y → y.Wf) : ∀ c ∈ expText e, Plain c := by
  cases e with
  | none => intro c hc; cases hc
  | some e => exact exp_plain (h e rfl)

/-- decimals -/
def Body.Decimal : Body → Prop
  | .hex _ _ => False
  | .infinity => False
  | .nan => False
  | _ => True

theorem body_plain {b : Body} (hd : b.Decimal) (h : b.Wf) : ∀ c ∈ b.text, Plain c := by
  intro c hc
  cases b with
  | hex _ _ => exact hd.elim
  | infinity => exact hd.elim
  | nan => exact hd.elim
  | int i => exact .inl ((decInt_digits h).2 c hc)
  | intExp i e =>
    rcases List.mem_append.1 hc with hc | hc
    · exact .inl ((decInt_digits h.1).2 c hc)
    · exact exp_plain h.2 c hc
  | frac i f e =>
    rcases List.mem_append.1 hc with hc | hc
    · exact .inl ((decInt_digits h.1).2 c hc)
    · rcases List.mem_cons.1 hc with rfl | hc
      · decide
      · rcases List.mem_append.1 hc with hc | hc
        · exact .inl (h.2.1 c hc)
        · exact expText_plain h.2.2 c hc
  | dot f e =>
    rcases List.mem_cons.1 hc with rfl | hc
    · decide
    · rcases List.mem_append.1 hc with hc | hc
      · exact .inl (h.2.1 c hc)
      · exact expText_plain h.2.2 c hc

theorem lit_plain {l : Lit} (hd : l.body.Decimal) (h : l.Wf) : ∀ c ∈ l.text, Plain c := by
  intro c hc
  rcases List.mem_append.1 hc with hc | hc
  · exact signText_plain c hc
  · exact body_plain hd h c hc

theorem isHexLiteral_mem {s : List Char} (h : isHexLiteral s = true) : 'x' ∈ s ∨ 'X' ∈ s := by
  unfold isHexLiteral at h
  simp only [Bool.and_eq_true, Bool.or_eq_true, decide_eq_true_eq] at h
  rcases h.2 with h | h
  · exact .inl (List.mem_of_mem_take (by rw [h]; simp : 'x' ∈ s.take 2))
  · exact .inr (List.mem_of_mem_take (by rw [h]; simp : 'X' ∈ s.take 2))

theorem plain_not_hex {s : List Char} (h : ∀ c ∈ s, Plain c) : isHexLiteral s = false := by
  by_cases hh : isHexLiteral s = true
  · rcases isHexLiteral_mem hh with hx | hx
    · exact absurd (h _ hx) (by decide)
    · exact absurd (h _ hx) (by decide)
  · simpa using hh

theorem signed_not_hex {b : Bool} {s : List Char} : isHexLiteral (signText (some b) ++ s) = false := by
  unfold isHexLiteral
  cases b <;> simp [signText]

theorem contains_false {s : List Char} {c : Char} (h : c ∉ s) : s.contains c = false := by simpa using h
theorem contains_true {s : List Char} {c : Char} (h : c ∈ s) : s.contains c = true := by simpa using h

/-! ## The cases -/

/-- the fitting integers -/
def InI64 (i : Int) : Prop := -(2 ^ 63) ≤ i ∧ i < 2 ^ 63

theorem digit_head {c : Char} (h : IsDigit c) : c ≠ '-' ∧ c ≠ '+' :=
  ⟨fun e => absurd (e ▸ h) (by decide), fun e => absurd (e ▸ h) (by decide)⟩

theorem parseI64_plain {c : Char} {r : List Char} (h1 : c ≠ '-') (h2 : c ≠ '+') :
    parseI64 (c :: r) = match magnitude 10 (c :: r) with
      | some n => if n < 2 ^ 63 then some (n : Int) else none
      | none => none := by
  unfold parseI64
  split
  · rename_i h; cases h; exact absurd rfl h1
  · rename_i h; cases h; exact absurd rfl h2
  · rfl

theorem parseI64_int {s : Option Bool} {i : List Char} (h : DecInt i) :
    (InI64 (signed s (denotes 10 i)) → parseI64 (signText s ++ i) = some (signed s (denotes 10 i))) ∧
    (¬ InI64 (signed s (denotes 10 i)) → parseI64 (signText s ++ i) = none) := by
  obtain ⟨hne, hd⟩ := decInt_digits h
  have hm := magnitude_eq hne fun c hc => digit_dec (hd c hc)
  generalize denotes 10 i = n at *
  unfold InI64
  cases s with
  | none =>
    rw [show signText none ++ i = i from rfl]
    simp only [signed]
    cases i with
    | nil => exact absurd rfl hne
    | cons c r =>
      obtain ⟨a, b⟩ := digit_head (hd c List.mem_cons_self)
      rw [parseI64_plain a b, hm]
      simp only
      constructor
      · intro h; rw [if_pos (by omega)]
      · intro h; rw [if_neg (by omega)]
  | some b =>
    cases b with
    | true =>
      rw [show signText (some true) ++ i = '+' :: i from rfl]
      simp only [signed, parseI64, hm]
      constructor
      · intro h; rw [if_pos (by omega)]
      · intro h; rw [if_neg (by omega)]
    | false =>
      rw [show signText (some false) ++ i = '-' :: i from rfl]
      simp only [signed, parseI64, hm]
      constructor
      · intro h; rw [if_pos (by omega)]
      · intro h; rw [if_neg (by omega)]

theorem parseHex_hex {ds : List Char} (hne : ds ≠ []) (hd : ∀ x ∈ ds, IsHexDigit x) :
    parseHex ds = if denotes 16 ds < 2 ^ 32 then some (denotes 16 ds) else none := by
  have hm := magnitude_eq hne fun c hc => digit_hex (hd c hc)
  unfold parseHex
  split
  · exact absurd (hd _ List.mem_cons_self) (by decide)
  · rw [hm]

theorem hexLit_text (big : Bool) {ds : List Char} (hne : ds ≠ []) :
    isHexLiteral ('0' :: (if big then 'X' else 'x') :: ds) = true := by
  unfold isHexLiteral
  cases ds with
  | nil => exact absurd rfl hne
  | cons c r => cases big <;> simp

variable (pf : List Char → Option UInt64) (fromU32 : Nat → UInt64)

/-- **C24, hexadecimal literals without a sign**: the integer if it has at most 32 bits. -/
theorem C24_hex (big : Bool) (ds : List Char) (h : Body.Wf (.hex big ds)) :
    readNumber pf fromU32 (Lit.text ⟨none, .hex big ds⟩) = if denotes 16 ds < 2 ^ 32 then .ok (.int (denotes 16 ds)) else .err := by
  have ht : Lit.text ⟨none, .hex big ds⟩ = '0' :: (if big then 'X' else 'x') :: ds := rfl
  rw [ht]
  have hx := hexLit_text big h.1
  have hdot : List.contains ('0' :: (if big then 'X' else 'x') :: ds) '.' = false := by
    apply contains_false
    intro hm
    rcases List.mem_cons.1 hm with e | hm
    · exact absurd e (by decide)
    · rcases List.mem_cons.1 hm with e | hm
      · cases big <;> exact absurd e (by decide)
      · exact absurd (h.2 _ hm) (by decide)
  unfold readNumber isInt
  rw [hx, hdot, if_pos (by rfl)]
  unfold parseInteger
  rw [if_pos hx, show List.drop 2 ('0' :: (if big then 'X' else 'x') :: ds) = ds from rfl, parseHex_hex h.1 h.2]
  by_cases hl : denotes 16 ds < 2 ^ 32
  · rw [if_pos hl, if_pos hl]; rfl
  · rw [if_neg hl, if_neg hl]; rfl

/-- **C24, decimal integers**: the integer if it has at most 64 bits. -/
theorem C24_int (s : Option Bool) (i : List Char) (h : DecInt i) :
    (InI64 (signed s (denotes 10 i)) →
      readNumber pf fromU32 (Lit.text ⟨s, .int i⟩) = .ok (.int (signed s (denotes 10 i)))) ∧
    (¬ InI64 (signed s (denotes 10 i)) → readNumber pf fromU32 (Lit.text ⟨s, .int i⟩) = .err) := by
  have hp : ∀ c ∈ Lit.text ⟨s, .int i⟩, Plain c := lit_plain (l := ⟨s, .int i⟩) trivial h
  have hno : ∀ c ∈ Lit.text ⟨s, .int i⟩, IsDigit c ∨ c = '+' ∨ c = '-' := by
    intro c hc
    rcases List.mem_append.1 hc with hc | hc
    · cases s with
      | none => cases hc
      | some b => cases b <;> rw [List.mem_singleton.1 hc] <;> decide
    · exact .inl ((decInt_digits h).2 c hc)
  have hint : isInt (Lit.text ⟨s, .int i⟩) = true := by
    unfold isInt
    rw [contains_false fun hm => absurd (hno _ hm) (by decide), contains_false fun hm => absurd (hno _ hm) (by decide),
      contains_false fun hm => absurd (hno _ hm) (by decide)]
    simp
  unfold readNumber
  rw [if_pos hint]
  unfold parseInteger
  rw [if_neg (by rw [plain_not_hex hp]; decide)]
  rw [show Lit.text ⟨s, .int i⟩ = signText s ++ i from rfl]
  obtain ⟨h1, h2⟩ := parseI64_int (s := s) h
  constructor
  · intro hi; rw [h1 hi]; rfl
  · intro hi; rw [h2 hi]; rfl

theorem expText_cases (e : Option Exp) (h : ∀ y, e = some y → y.Wf) : RustExp (expText e) := by
  cases e with
  | none => exact .none
  | some e => exact .some (by cases e.big <;> simp) (h e rfl).1 (h e rfl).2

theorem fractional_rust {l : Lit} (hf : Fractional l) (h : l.Wf) : RustFloat l.text := by
  cases hf with
  | @intExp s i e => exact .int (decInt_digits h.1).1 (decInt_digits h.1).2 (expText_cases (some e) fun y hy => by cases hy; exact h.2)
  | @frac s i f e => exact .frac (.inl (decInt_digits h.1).1) (decInt_digits h.1).2 h.2.1 (expText_cases e h.2.2)
  | @dot s f e => exact .frac (i := []) (.inr h.1) (fun _ hc => nomatch hc) h.2.1 (expText_cases e h.2.2)

theorem fractional_decimal {l : Lit} (hf : Fractional l) : l.body.Decimal := by cases hf <;> trivial

theorem fractional_not_int {l : Lit} (hf : Fractional l) (h : l.Wf) : isInt l.text = false := by
  have hx := plain_not_hex (lit_plain (fractional_decimal hf) h)
  have hm : '.' ∈ l.text ∨ 'e' ∈ l.text ∨ 'E' ∈ l.text := by
    cases hf with
    | @intExp s i e =>
      right
      unfold Lit.text Body.text Exp.text
      cases hb : e.big <;> simp [hb]
    | frac => exact .inl (List.mem_append_right _ (List.mem_append_right _ List.mem_cons_self))
    | dot => exact .inl (List.mem_append_right _ List.mem_cons_self)
  unfold isInt
  rw [hx]
  rcases hm with hm | hm | hm
  · rw [contains_true hm]; rfl
  · rw [contains_true hm]; simp
  · rw [contains_true hm]; simp

theorem plain_not_word {s : List Char} (h : ∀ c ∈ s, Plain c) (w : List Char) (hw : 'N' ∈ w ∨ 'I' ∈ w) : s ≠ w := by
  rintro rfl
  rcases hw with hw | hw
  · exact absurd (h _ hw) (by decide)
  · exact absurd (h _ hw) (by decide)

/-- **C24, decimals with a fraction or an exponent**: the float that the standard library reads, unless it is infinite (`C24_finite`). -/
theorem C24_fractional (hpf : ∀ s, RustFloat s → (pf s).isSome) (l : Lit) (hf : Fractional l) (h : l.Wf) :
    ∃ b, pf l.text = some b ∧ readNumber pf fromU32 l.text = if isFinite b then .ok (.float b) else .err := by
  have hp := lit_plain (fractional_decimal hf) h
  obtain ⟨b, hb⟩ := Option.isSome_iff_exists.1 (hpf _ (fractional_rust hf h))
  refine ⟨b, hb, ?_⟩
  unfold readNumber
  rw [if_neg (by rw [fractional_not_int hf h]; decide)]
  unfold parseNumber
  rw [if_neg (plain_not_word hp _ (.inr (by decide))), if_neg (plain_not_word hp _ (.inr (by decide))),
    if_neg (fun e => e.elim (plain_not_word hp _ (.inl (by decide))) (plain_not_word hp _ (.inl (by decide)))),
    if_neg (by rw [plain_not_hex hp]; decide), hb]
  simp only
  by_cases hfin : isFinite b = true
  · rw [if_pos hfin, if_pos hfin]; rfl
  · rw [if_neg hfin, if_neg hfin]; rfl

theorem rustExp_no_x {e : List Char} (h : RustExp e) : 'x' ∉ e ∧ 'X' ∉ e := by
  have : ∀ c ∈ e, Plain c := by
    cases h with
    | none => intro c hc; cases hc
    | some hc _ hd =>
      intro x hx
      rcases List.mem_cons.1 hx with rfl | hx
      · rcases hc with rfl | rfl <;> decide
      · rcases List.mem_append.1 hx with hx | hx
        · exact signText_plain x hx
        · exact .inl (hd x hx)
  exact ⟨fun hx => absurd (this _ hx) (by decide), fun hx => absurd (this _ hx) (by decide)⟩

theorem word_no_x {w : List Char} (h : RustWord w) : 'x' ∉ w ∧ 'X' ∉ w := by
  have key : ∀ c, c = 'x' ∨ c = 'X' → c ∉ w := by
    intro c hc hm
    have hl : Char.toLower c = 'x' := by rcases hc with rfl | rfl <;> decide
    have := List.mem_map_of_mem (f := Char.toLower) hm
    rw [hl] at this
    rcases h with h | h | h <;> rw [h] at this <;> exact absurd this (by decide)
  exact ⟨key _ (.inl rfl), key _ (.inr rfl)⟩

theorem rustFloat_no_x {s : List Char} (h : RustFloat s) : 'x' ∉ s ∧ 'X' ∉ s := by
  have hs : ∀ (s : Option Bool), 'x' ∉ signText s ∧ 'X' ∉ signText s := fun s =>
    ⟨fun hx => absurd (signText_plain _ hx) (by decide), fun hx => absurd (signText_plain _ hx) (by decide)⟩
  have hd : ∀ (i : List Char), (∀ x ∈ i, IsDigit x) → 'x' ∉ i ∧ 'X' ∉ i := fun i hi =>
    ⟨fun hx => absurd (hi _ hx) (by decide), fun hx => absurd (hi _ hx) (by decide)⟩
  cases h with
  | @word s w hw => simp [hs s, word_no_x hw]
  | @int s i e _ hi he => simp [hs s, hd i hi, rustExp_no_x he]
  | @frac s i f e _ hi hf he => simp [hs s, hd i hi, hd f hf, rustExp_no_x he]

theorem hex_not_word {s : Option Bool} {big : Bool} {ds : List Char} (h : Body.Wf (.hex big ds)) (w : List Char)
    (hw : 'N' ∈ w ∨ 'I' ∈ w) : Lit.text ⟨s, .hex big ds⟩ ≠ w := by
  have key : ∀ c ∈ Lit.text ⟨s, .hex big ds⟩, Plain c ∨ IsHexDigit c ∨ c = 'x' ∨ c = 'X' := by
    intro c hc
    rcases List.mem_append.1 hc with hc | hc
    · exact .inl (signText_plain c hc)
    · rcases List.mem_cons.1 hc with rfl | hc
      · decide
      · rcases List.mem_cons.1 hc with rfl | hc
        · cases big <;> decide
        · exact .inr (.inl (h.2 c hc))
  intro e
  rw [e] at key
  rcases hw with hw | hw
  · exact absurd (key _ hw) (by decide)
  · exact absurd (key _ hw) (by decide)

/-- **C24, hexadecimal literals with a sign** are refused. -/
theorem C24_signed_hex (hpf : ∀ s, (pf s).isSome → RustFloat s) (b big : Bool) (ds : List Char) (h : Body.Wf (.hex big ds)) :
    readNumber pf fromU32 (Lit.text ⟨some b, .hex big ds⟩) = .err := by
  have hnx : isHexLiteral (Lit.text ⟨some b, .hex big ds⟩) = false := signed_not_hex
  unfold readNumber
  by_cases hi : isInt (Lit.text ⟨some b, .hex big ds⟩) = true
  · rw [if_pos hi]
    unfold parseInteger
    rw [if_neg (by rw [hnx]; decide)]
    have : parseI64 (Lit.text ⟨some b, .hex big ds⟩) = none := by
      cases b <;> cases big <;> rfl
    rw [this]; rfl
  · rw [if_neg hi]
    unfold parseNumber
    have hp : pf (Lit.text ⟨some b, .hex big ds⟩) = none := by
      cases hb : pf (Lit.text ⟨some b, .hex big ds⟩) with
      | none => rfl
      | some x =>
        obtain ⟨h1, h2⟩ := rustFloat_no_x (hpf _ (by rw [hb]; rfl))
        exfalso
        cases big
        · exact h1 (List.mem_append_right _ (List.mem_cons_of_mem _ List.mem_cons_self))
        · exact h2 (List.mem_append_right _ (List.mem_cons_of_mem _ List.mem_cons_self))
    rw [if_neg (hex_not_word h _ (.inr (by decide))), if_neg (hex_not_word h _ (.inr (by decide))),
      if_neg (fun e => e.elim (hex_not_word h _ (.inl (by decide))) (hex_not_word h _ (.inl (by decide)))),
      if_neg (by rw [hnx]; decide), hp]
    rfl

/-- **C24, `Infinity` and `NaN`** are refused, with or without a sign. -/
theorem C24_words (s : Option Bool) (b : Body) (hb : b = .infinity ∨ b = .nan) : readNumber pf fromU32 (Lit.text ⟨s, b⟩) = .err := by
  rcases hb with rfl | rfl
  · cases s with
    | none => rfl
    | some x => cases x <;> rfl
  · cases s with
    | none => rfl
    | some x => cases x <;> rfl

/-! ## The property -/

theorem lit_cases (l : Lit) : (∃ s big ds, l = ⟨s, .hex big ds⟩) ∨ (∃ s i, l = ⟨s, .int i⟩) ∨ Fractional l ∨
    (l.body = .infinity ∨ l.body = .nan) := by
  obtain ⟨s, b⟩ := l
  cases b with
  | hex big ds => exact .inl ⟨s, big, ds, rfl⟩
  | int i => exact .inr (.inl ⟨s, i, rfl⟩)
  | intExp i e => exact .inr (.inr (.inl .intExp))
  | frac i f e => exact .inr (.inr (.inl .frac))
  | dot f e => exact .inr (.inr (.inl .dot))
  | infinity => exact .inr (.inr (.inr (.inl rfl)))
  | nan => exact .inr (.inr (.inr (.inr rfl)))

/-- **C24, the kind.** A literal that is read as an integer is written without fraction and exponent and denotes that integer; a literal
that is read as a float has a fraction or an exponent, and the value that the standard library gives to its text. -/
theorem C24_kind (hpf : ∀ s, (pf s).isSome ↔ RustFloat s) (l : Lit) (h : l.Wf) :
    (∀ i, readNumber pf fromU32 l.text = .ok (.int i) → Integer l i) ∧
    (∀ b, readNumber pf fromU32 l.text = .ok (.float b) → Fractional l ∧ pf l.text = some b) ∧
    readNumber pf fromU32 l.text ≠ .panic := by
  rcases lit_cases l with ⟨s, big, ds, rfl⟩ | ⟨s, i, rfl⟩ | hf | hw
  · cases s with
    | none =>
      rw [C24_hex pf fromU32 big ds h]
      by_cases hl : denotes 16 ds < 2 ^ 32
      · rw [if_pos hl]
        refine ⟨?_, (fun b hb => by cases hb), (fun hb => by cases hb)⟩
        intro i hi
        cases hi
        exact .hex
      · rw [if_neg hl]
        exact ⟨(fun b hb => by cases hb), (fun b hb => by cases hb), (fun hb => by cases hb)⟩
    | some b =>
      rw [C24_signed_hex pf fromU32 (fun s hs => (hpf s).1 hs) b big ds h]
      exact ⟨(fun b hb => by cases hb), (fun b hb => by cases hb), (fun hb => by cases hb)⟩
  · obtain ⟨h1, h2⟩ := C24_int pf fromU32 s i h
    by_cases hi : InI64 (signed s (denotes 10 i))
    · rw [h1 hi]
      refine ⟨?_, (fun b hb => by cases hb), (fun hb => by cases hb)⟩
      intro j hj
      cases hj
      exact .dec
    · rw [h2 hi]
      exact ⟨(fun b hb => by cases hb), (fun b hb => by cases hb), (fun hb => by cases hb)⟩
  · obtain ⟨b, hb, hr⟩ := C24_fractional pf fromU32 (fun s hs => (hpf s).2 hs) l hf h
    rw [hr]
    by_cases hfin : isFinite b = true
    · rw [if_pos hfin]
      refine ⟨(fun b hb => by cases hb), ?_, (fun hb => by cases hb)⟩
      intro x hx
      cases hx
      exact ⟨hf, hb⟩
    · rw [if_neg hfin]
      exact ⟨(fun b hb => by cases hb), (fun b hb => by cases hb), (fun hb => by cases hb)⟩
  · obtain ⟨s, b⟩ := l
    rw [C24_words pf fromU32 s b hw]
    exact ⟨(fun b hb => by cases hb), (fun b hb => by cases hb), (fun hb => by cases hb)⟩

theorem isFinite_iff (b : UInt64) : isFinite b = true ↔ exponent b ≠ 2047 := by
  have key : b &&& 0x7ff0000000000000 = 0x7ff0000000000000 ↔ exponent b = 2047 := by
    rw [← UInt64.toNat_inj, UInt64.toNat_and]
    rw [show (0x7ff0000000000000 : UInt64).toNat = (2 ^ 11 - 1) <<< 52 from rfl]
    unfold exponent
    rw [← Nat.shiftRight_eq_div_pow, ← Nat.and_two_pow_sub_one_eq_mod]
    have e : b.toNat &&& (2 ^ 11 - 1) <<< 52 = (b.toNat >>> 52 &&& (2 ^ 11 - 1)) <<< 52 := by
      apply Nat.eq_of_testBit_eq
      intro i
      simp only [Nat.testBit_and, Nat.testBit_shiftLeft, Nat.testBit_shiftRight]
      by_cases h : 52 ≤ i
      · rw [show 52 + (i - 52) = i by omega]; simp [h]
      · simp [h]
    rw [e, Nat.shiftLeft_eq, Nat.shiftLeft_eq]
    constructor
    · intro h; exact Nat.eq_of_mul_eq_mul_right (by decide) h
    · intro h; rw [h]; rfl
  unfold isFinite
  rw [decide_eq_true_iff]
  exact not_congr key

/-- Only finite floats are read. -/
theorem C24_finite (hpf : ∀ s, (pf s).isSome ↔ RustFloat s) (l : Lit) (h : l.Wf) (b : UInt64)
    (hr : readNumber pf fromU32 l.text = .ok (.float b)) : exponent b ≠ 2047 := by
  obtain ⟨hf, hb⟩ := (C24_kind pf fromU32 hpf l h).2.1 b hr
  obtain ⟨b', hb', hr'⟩ := C24_fractional pf fromU32 (fun s hs => (hpf s).2 hs) l hf h
  rw [hb] at hb'
  cases hb'
  rw [← isFinite_iff]
  by_cases hfin : isFinite b = true
  · exact hfin
  · rw [hr', if_neg hfin] at hr; cases hr

/-- **C24, no failure because of the kind.** Decimal integers of 64 bits are read as integers, decimals with a fraction or an exponent
whose value is finite are read as floats.

Partial: hexadecimal literals only without a sign and up to 32 bits; not `Infinity` and `NaN`. See the negations. -/
theorem C24_reads_partial (hpf : ∀ s, RustFloat s → (pf s).isSome) (l : Lit) (h : l.Wf) :
    (∀ s i, l = ⟨s, .int i⟩ → InI64 (signed s (denotes 10 i)) → readNumber pf fromU32 l.text = .ok (.int (signed s (denotes 10 i)))) ∧
    (∀ big ds, l = ⟨none, .hex big ds⟩ → denotes 16 ds < 2 ^ 32 → readNumber pf fromU32 l.text = .ok (.int (denotes 16 ds))) ∧
    (Fractional l → ∀ b, pf l.text = some b → exponent b ≠ 2047 → readNumber pf fromU32 l.text = .ok (.float b)) := by
  refine ⟨?_, ?_, ?_⟩
  · rintro s i rfl hi
    exact (C24_int pf fromU32 s i h).1 hi
  · rintro big ds rfl hl
    rw [C24_hex pf fromU32 big ds h, if_pos hl]
  · intro hf b hb hfin
    obtain ⟨b', hb', hr⟩ := C24_fractional pf fromU32 hpf l hf h
    rw [hb] at hb'
    cases hb'
    rw [hr, if_pos ((isFinite_iff b).2 hfin)]

/-- **C24 is false for `Infinity` and `NaN`**: they are accepted by the grammar, and `parse_number` has cases for them, but they are taken
for integers, because they contain neither a point nor an `e`. -/
theorem C24_negation_infinity : Lit.Wf ⟨none, .infinity⟩ ∧ readNumber pf fromU32 "Infinity".toList = .err ∧
    parseNumber pf fromU32 "Infinity".toList = .ok 0x7ff0000000000000 := ⟨trivial, rfl, rfl⟩

theorem C24_negation_nan : Lit.Wf ⟨some false, .nan⟩ ∧ readNumber pf fromU32 "-NaN".toList = .err ∧
    parseNumber pf fromU32 "-NaN".toList = .ok 0x7ff8000000000000 := ⟨trivial, rfl, rfl⟩

/-- **C24 is false for hexadecimal integers with a sign.** -/
theorem C24_negation_signed_hex : ∃ l i, l.Wf ∧ Integer l i ∧ InI64 i ∧ l.text = "-0x10".toList ∧ readNumber pf fromU32 l.text = .err :=
  ⟨⟨some false, .hex false ['1', '0']⟩, -16, ⟨by decide, by decide⟩, .hex, ⟨by decide, by decide⟩, rfl, rfl⟩

/-- **C24 is false for hexadecimal integers of more than 32 bits.** -/
theorem C24_negation_long_hex : ∃ l i, l.Wf ∧ Integer l i ∧ InI64 i ∧ l.text = "0x100000000".toList ∧
    readNumber pf fromU32 l.text = .err :=
  ⟨⟨none, .hex false "100000000".toList⟩, 4294967296, ⟨by decide, by decide⟩, .hex, ⟨by decide, by decide⟩, rfl, rfl⟩

/-- the literal `-12` -/
example : Lit.Wf ⟨some false, .int ['1', '2']⟩ ∧ readNumber pf fromU32 "-12".toList = .ok (.int (-12)) :=
  ⟨.inr ⟨'1', ['2'], rfl, by decide, by decide, by decide⟩, rfl⟩
/-- the literal `.5E-3` -/
example : Lit.Wf ⟨none, .dot ['5'] (some ⟨true, some false, ['3']⟩)⟩ ∧
    Lit.text ⟨none, .dot ['5'] (some ⟨true, some false, ['3']⟩)⟩ = ".5E-3".toList ∧ Fractional ⟨none, .dot ['5'] (some ⟨true, some false, ['3']⟩)⟩ :=
  ⟨⟨by decide, by decide, fun y hy => by cases hy; exact ⟨by decide, by decide⟩⟩, rfl, .dot⟩
/-- there is a reader of floats that meets the law -/
example : ∃ pf : List Char → Option UInt64, ∀ s, (pf s).isSome ↔ RustFloat s := by
  classical
  exact ⟨fun s => if RustFloat s then some 0 else none, fun s => by by_cases h : RustFloat s <;> simp [h]⟩

end Verif.Number
