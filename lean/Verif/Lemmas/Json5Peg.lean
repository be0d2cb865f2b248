import Verif.Spec.Json5
/-!
# The operators of the grammar, characters, white space and comments
-/
namespace Verif.Json5
open Number (IsDigit IsHexDigit)

/-! ## Characters -/

theorem ceq (c d : Char) : c = d ↔ c.toNat = d.toNat := ⟨congrArg _, fun h => Char.ext (UInt32.toNat_inj.1 h)⟩

theorem cle (c d : Char) : c ≤ d ↔ c.toNat ≤ d.toNat := Iff.rfl

theorem lineTerm_iff (c : Char) : lineTerm c = true ↔ LineTerm c := by
  simp only [lineTerm, LineTerm, Bool.or_eq_true, beq_iff_eq, ceq c]
  exact ⟨fun h => by rcases h with ((h | h) | h) | h <;> [left; (right; left); (right; right; left); (right; right; right)] <;> exact h,
    fun h => by rcases h with h | h | h | h <;> [(left; left; left); (left; left; right); (left; right); right] <;> exact h⟩

theorem white_iff (c : Char) : whitespaceChar c = true ↔ White c := by
  simp only [whitespaceChar, lineTerm, spaceSep, White, Bool.or_eq_true, Bool.and_eq_true, decide_eq_true_eq, beq_iff_eq, ceq c, cle]
  have e1 : ('\t').toNat = 9 := rfl
  have e2 : ('\x0b').toNat = 11 := rfl
  have e3 : ('\x0c').toNat = 12 := rfl
  have e4 : (' ').toNat = 32 := rfl
  have e5 : ('\u00a0').toNat = 0xa0 := rfl
  have e6 : ('\ufeff').toNat = 0xfeff := rfl
  have e7 : ('\u1680').toNat = 0x1680 := rfl
  have e8 : ('\u2000').toNat = 0x2000 := rfl
  have e9 : ('\u200a').toNat = 0x200a := rfl
  have e10 : ('\u202f').toNat = 0x202f := rfl
  have e11 : ('\u205f').toNat = 0x205f := rfl
  have e12 : ('\u3000').toNat = 0x3000 := rfl
  have e13 : ('\n').toNat = 10 := rfl
  have e14 : ('\r').toNat = 13 := rfl
  have e15 : ('\u2028').toNat = 0x2028 := rfl
  have e16 : ('\u2029').toNat = 0x2029 := rfl
  rw [e1, e2, e3, e4, e5, e6, e7, e8, e9, e10, e11, e12, e13, e14, e15, e16]
  omega

theorem digit_iff (c : Char) : asciiDigit c = true ↔ IsDigit c := by
  simp only [asciiDigit, IsDigit, Bool.and_eq_true, decide_eq_true_eq, cle]
  exact Iff.rfl

theorem nonzero_iff (c : Char) : asciiNonzero c = true ↔ IsDigit c ∧ c ≠ '0' := by
  simp only [asciiNonzero, IsDigit, Bool.and_eq_true, decide_eq_true_eq, cle, ne_eq, ceq c]
  have e1 : ('1').toNat = 49 := rfl
  have e2 : ('9').toNat = 57 := rfl
  have e3 : ('0').toNat = 48 := rfl
  rw [e1, e2, e3]
  omega

theorem hex_iff (c : Char) : asciiHex c = true ↔ IsHexDigit c := by
  simp only [asciiHex, IsHexDigit, Bool.or_eq_true, Bool.and_eq_true, decide_eq_true_eq, cle, digit_iff, or_assoc]
  exact Iff.rfl

theorem LineTerm.white {c : Char} (h : LineTerm c) : White c := by
  unfold LineTerm at h
  unfold White
  omega

/-! ## The operators -/

/-- the parser takes at least one character -/
def Prog (a : P) : Prop := ∀ s x r, a s = some (x, r) → r.length < s.length

theorem lit_app (t r : List Char) : lit t (t ++ r) = some ([], r) := by
  simp [lit, List.isPrefixOf_iff_prefix]

theorem lit_inv {t s x r} (h : lit t s = some (x, r)) : x = [] ∧ s = t ++ r := by
  unfold lit at h
  split at h
  · rename_i hp
    rw [List.isPrefixOf_iff_prefix] at hp
    obtain ⟨u, rfl⟩ := hp
    simp at h
    exact ⟨h.1, by rw [h.2]⟩
  · cases h

theorem lit_none {t s : List Char} (h : ¬ t <+: s) : lit t s = none := by
  unfold lit
  rw [if_neg]
  rw [List.isPrefixOf_iff_prefix]
  exact h

theorem lit_head {c : Char} {t s} (h : s.head? ≠ some c) : lit (c :: t) s = none := by
  apply lit_none
  rintro ⟨u, rfl⟩
  exact h rfl

theorem one_cons {p : Char → Bool} {c s} (h : p c = true) : one p (c :: s) = some ([], s) := by simp [one, h]

theorem one_none {p : Char → Bool} {c s} (h : p c = false) : one p (c :: s) = none := by simp [one, h]

theorem one_inv {p : Char → Bool} {s x r} (h : one p s = some (x, r)) : x = [] ∧ ∃ c, p c = true ∧ s = c :: r := by
  cases s with
  | nil => cases h
  | cons c s =>
    simp only [one] at h
    split at h
    · cases h
      exact ⟨rfl, c, by assumption, rfl⟩
    · cases h

theorem seq_some {a b : P} {s x r y r'} (h : a s = some (x, r)) (h' : b r = some (y, r')) : seq a b s = some (x ++ y, r') := by
  simp [seq, h, h']

theorem seq_none {a b : P} {s} (h : a s = none) : seq a b s = none := by simp [seq, h]

theorem seq_none' {a b : P} {s x r} (h : a s = some (x, r)) (h' : b r = none) : seq a b s = none := by simp [seq, h, h']

theorem seq_inv {a b : P} {s z r'} (h : seq a b s = some (z, r')) :
    ∃ x r y, a s = some (x, r) ∧ b r = some (y, r') ∧ z = x ++ y := by
  unfold seq at h
  split at h
  · cases h
  · rename_i x r ha
    split at h
    · cases h
    · rename_i y r' hb
      cases h
      exact ⟨x, r, y, ha, hb, rfl⟩

theorem alt_left {a b : P} {s x} (h : a s = some x) : alt a b s = some x := by simp [alt, h]

theorem alt_right {a b : P} {s} (h : a s = none) : alt a b s = b s := by simp [alt, h]

theorem alt_none {a b : P} {s} (h : a s = none) (h' : b s = none) : alt a b s = none := by simp [alt, h, h']

theorem alt_inv {a b : P} {s x} (h : alt a b s = some x) : a s = some x ∨ (a s = none ∧ b s = some x) := by
  unfold alt at h
  split at h
  · rename_i h'
    exact .inl (h'.trans h)
  · rename_i h'
    exact .inr ⟨h', h⟩

theorem opt_some {a : P} {s x} (h : a s = some x) : opt a s = some x := by simp [opt, h]

theorem opt_none {a : P} {s} (h : a s = none) : opt a s = some ([], s) := by simp [opt, h]

theorem opt_inv {a : P} {s x r} (h : opt a s = some (x, r)) : a s = some (x, r) ∨ (a s = none ∧ x = [] ∧ r = s) := by
  unfold opt at h
  split at h
  · rename_i h'
    exact .inl (h'.trans h)
  · rename_i h'
    cases h
    exact .inr ⟨h', rfl, rfl⟩

theorem notP_some {a : P} {s} (h : a s = none) : notP a s = some ([], s) := by simp [notP, h]

theorem notP_none {a : P} {s x} (h : a s = some x) : notP a s = none := by simp [notP, h]

theorem notP_inv {a : P} {s x r} (h : notP a s = some (x, r)) : a s = none ∧ x = [] ∧ r = s := by
  unfold notP at h
  split at h
  · cases h
  · cases h
    exact ⟨by assumption, rfl, rfl⟩

theorem andP_inv {a : P} {s x r} (h : andP a s = some (x, r)) : (a s).isSome ∧ x = [] ∧ r = s := by
  unfold andP at h
  split at h
  · rename_i h'
    cases h
    exact ⟨by simp [h'], rfl, rfl⟩
  · cases h

theorem andP_some {a : P} {s x} (h : a s = some x) : andP a s = some ([], s) := by simp [andP, h]

theorem andP_none {a : P} {s} (h : a s = none) : andP a s = none := by simp [andP, h]

theorem rule_some {n : Rule} {a : P} {t r x} (h : a (t ++ r) = some (x, r)) : rule n a (t ++ r) = some ([.mk n t x], r) := by
  simp [rule, h]

theorem rule_none {n : Rule} {a : P} {s} (h : a s = none) : rule n a s = none := by simp [rule, h]

theorem rule_inv {n : Rule} {a : P} {s z r} (h : rule n a s = some (z, r)) :
    ∃ x, a s = some (x, r) ∧ ∀ t, s = t ++ r → z = [.mk n t x] := by
  unfold rule at h
  split at h
  · cases h
  · rename_i x r' h'
    cases h
    refine ⟨x, h', ?_⟩
    rintro t rfl
    simp

theorem atomic_some {n : Rule} {a : P} {t r x} (h : a (t ++ r) = some (x, r)) : atomic n a (t ++ r) = some ([.mk n t []], r) := by
  simp [atomic, h]

theorem atomic_none {n : Rule} {a : P} {s} (h : a s = none) : atomic n a s = none := by simp [atomic, h]

theorem atomic_inv {n : Rule} {a : P} {s z r} (h : atomic n a s = some (z, r)) :
    ∃ x, a s = some (x, r) ∧ ∀ t, s = t ++ r → z = [.mk n t []] := by
  unfold atomic at h
  split at h
  · cases h
  · rename_i x r' h'
    cases h
    refine ⟨x, h', ?_⟩
    rintro t rfl
    simp

/-! ### Repetition -/

theorem starN_enough {a : P} (ha : Prog a) : ∀ (n m : Nat) (s : List Char), s.length ≤ n → s.length ≤ m → starN a n s = starN a m s
  | 0, 0, _, _, _ => rfl
  | 0, m + 1, s, h, _ => by
    have hs : s = [] := List.eq_nil_of_length_eq_zero (by omega)
    subst hs
    simp only [starN]
    split
    · rfl
    · rename_i x r h'
      exact absurd (ha _ _ _ h') (by simp)
  | n + 1, 0, s, _, h => by
    have hs : s = [] := List.eq_nil_of_length_eq_zero (by omega)
    subst hs
    simp only [starN]
    split
    · rfl
    · rename_i x r h'
      exact absurd (ha _ _ _ h') (by simp)
  | n + 1, m + 1, s, h, h' => by
    simp only [starN]
    split
    · rfl
    · rename_i x r hr
      have := ha _ _ _ hr
      rw [starN_enough ha n m r (by omega) (by omega)]

theorem star_none {a : P} {s} (h : a s = none) : star a s = some ([], s) := by
  unfold star
  cases hl : s.length with
  | zero => rfl
  | succ n => simp [starN, h]

theorem star_some {a : P} (ha : Prog a) {s x r y r'} (h : a s = some (x, r)) (h' : star a r = some (y, r')) :
    star a s = some (x ++ y, r') := by
  have hp := ha _ _ _ h
  unfold star at *
  obtain ⟨n, hn⟩ : ∃ n, s.length = n + 1 := ⟨s.length - 1, by omega⟩
  rw [hn]
  simp only [starN, h]
  rw [starN_enough ha n r.length r (by omega) (by omega), h']

/-- A repetition ends, and where it ends the parser fails. -/
theorem star_total {a : P} (ha : Prog a) (s : List Char) : ∃ x r, star a s = some (x, r) ∧ a r = none := by
  induction hn : s.length using Nat.strong_induction_on generalizing s with
  | _ n ih =>
    cases h : a s with
    | none => exact ⟨[], s, star_none h, h⟩
    | some p =>
      obtain ⟨x, r⟩ := p
      obtain ⟨y, r', hy, hr⟩ := ih r.length (by have := ha _ _ _ h; omega) r rfl
      exact ⟨x ++ y, r', star_some ha h hy, hr⟩

/-- induction along a repetition -/
theorem star_ind {a : P} (ha : Prog a) {M : List Char → List Pair → List Char → Prop}
    (nil : ∀ s, a s = none → M s [] s)
    (cons : ∀ s x r y r', a s = some (x, r) → star a r = some (y, r') → M r y r' → M s (x ++ y) r') :
    ∀ s x r, star a s = some (x, r) → M s x r := by
  intro s
  induction hn : s.length using Nat.strong_induction_on generalizing s with
  | _ n ih =>
    intro z r' h
    cases ha' : a s with
    | none =>
      rw [star_none ha'] at h
      cases h
      exact nil s ha'
    | some p =>
      obtain ⟨x, r⟩ := p
      obtain ⟨y, r'', hy, _⟩ := star_total ha r
      rw [star_some ha ha' hy] at h
      cases h
      exact cons s x r y _ ha' hy (ih r.length (by have := ha _ _ _ ha'; omega) r rfl _ _ hy)

theorem one_prog (p : Char → Bool) : Prog (one p) := by
  intro s x r h
  obtain ⟨-, c, -, rfl⟩ := one_inv h
  simp

theorem star_one (p : Char → Bool) (s : List Char) : star (one p) s = some ([], s.dropWhile p) := by
  induction s with
  | nil => exact star_none rfl
  | cons c s ih =>
    cases h : p c with
    | true =>
      rw [star_some (one_prog p) (one_cons h) ih]
      simp [h]
    | false =>
      rw [star_none (one_none h)]
      simp [h]

theorem star_one_app {p : Char → Bool} {t r : List Char} (ht : ∀ c ∈ t, p c = true) (hr : ∀ c, r.head? = some c → p c = false) :
    star (one p) (t ++ r) = some ([], r) := by
  rw [star_one]
  have : (t ++ r).dropWhile p = r := by
    induction t with
    | nil =>
      cases r with
      | nil => rfl
      | cons c r => simp [hr c rfl]
    | cons c t ih =>
      rw [List.cons_append, List.dropWhile_cons, if_pos (ht c (by simp))]
      exact ih fun x hx => ht x (by simp [hx])
  rw [this]

theorem star_one_inv {p : Char → Bool} {s x r} (h : star (one p) s = some (x, r)) :
    x = [] ∧ ∃ t, s = t ++ r ∧ (∀ c ∈ t, p c = true) ∧ ∀ c, r.head? = some c → p c = false := by
  rw [star_one] at h
  cases h
  refine ⟨rfl, s.takeWhile p, (List.takeWhile_append_dropWhile).symm, fun c hc => (List.all_eq_true.1 (List.all_takeWhile (l := s) (p := p))) c hc, ?_⟩
  intro c hc
  have := List.head?_dropWhile_not p s
  rw [hc] at this
  simpa using this

theorem plus_one_app {p : Char → Bool} {t r : List Char} (h0 : t ≠ []) (ht : ∀ c ∈ t, p c = true)
    (hr : ∀ c, r.head? = some c → p c = false) : plus (one p) (t ++ r) = some ([], r) := by
  obtain ⟨c, t', rfl⟩ := List.exists_cons_of_ne_nil h0
  exact seq_some (one_cons (ht c (by simp))) (star_one_app (fun x hx => ht x (by simp [hx])) hr)

theorem plus_one_inv {p : Char → Bool} {s x r} (h : plus (one p) s = some (x, r)) :
    x = [] ∧ ∃ t, t ≠ [] ∧ s = t ++ r ∧ (∀ c ∈ t, p c = true) ∧ ∀ c, r.head? = some c → p c = false := by
  obtain ⟨x, r1, y, h1, h2, rfl⟩ := seq_inv h
  obtain ⟨rfl, c, hc, rfl⟩ := one_inv h1
  obtain ⟨rfl, t, rfl, ht, hr⟩ := star_one_inv h2
  refine ⟨rfl, c :: t, by simp, rfl, ?_, hr⟩
  intro d hd
  rcases List.mem_cons.1 hd with rfl | hd
  · exact hc
  · exact ht d hd

theorem plus_one_none {p : Char → Bool} {s} (h : ∀ c, s.head? = some c → p c = false) : plus (one p) s = none := by
  cases s with
  | nil => exact seq_none rfl
  | cons c s => exact seq_none (one_none (h c rfl))

/-! ## Comments and white space -/

theorem any_inv {s x r} (h : any s = some (x, r)) : x = [] ∧ ∃ c, s = c :: r := by
  obtain ⟨h1, c, -, h2⟩ := one_inv h
  exact ⟨h1, c, h2⟩

theorem notAny_prog (a : P) : Prog (seq (notP a) any) := by
  intro s x r h
  obtain ⟨x, r1, y, h1, h2, rfl⟩ := seq_inv h
  obtain ⟨-, -, rfl⟩ := notP_inv h1
  obtain ⟨-, c, rfl⟩ := any_inv h2
  simp

/-- the body of a comment in a block -/
theorem blockBody_app : ∀ (b r : List Char), ¬ ['*', '/'] <:+: b →
    star (seq (notP (lit ['*', '/'])) any) (b ++ '*' :: '/' :: r) = some ([], '*' :: '/' :: r)
  | [], r, _ => star_none (seq_none (notP_none (lit_app ['*', '/'] r)))
  | c :: b, r, h => by
    have h1 : ¬ ['*', '/'] <:+: b := fun h' => h (h'.trans ⟨[c], [], by simp⟩)
    refine star_some (x := []) (y := []) (notAny_prog _) (r := b ++ '*' :: '/' :: r) ?_ (blockBody_app b r h1)
    refine seq_some (x := []) (y := []) (notP_some (lit_none ?_)) rfl
    rintro ⟨u, hu⟩
    cases b with
    | nil =>
      simp at hu
    | cons d b =>
      simp at hu
      obtain ⟨rfl, rfl, -⟩ := hu
      exact h ⟨[], b, rfl⟩

theorem blockBody_inv : ∀ s x r, star (seq (notP (lit ['*', '/'])) any) s = some (x, r) →
    x = [] ∧ ∃ b, s = b ++ r ∧ ∀ b1 b2, b = b1 ++ b2 → b2 ≠ [] → ¬ ['*', '/'] <+: b2 ++ r := by
  refine star_ind (notAny_prog _) ?_ ?_
  · intro s _
    refine ⟨rfl, [], rfl, ?_⟩
    rintro b1 b2 hb h0
    simp at hb
    exact absurd hb.2 h0
  · rintro s x r y r' h - ⟨rfl, b, rfl, hb⟩
    obtain ⟨x, r1, y, h1, h2, rfl⟩ := seq_inv h
    obtain ⟨h3, rfl, rfl⟩ := notP_inv h1
    obtain ⟨rfl, c, rfl⟩ := any_inv h2
    refine ⟨rfl, c :: b, rfl, ?_⟩
    intro b1 b2 he h0
    cases b1 with
    | nil =>
      simp at he
      subst he
      rintro ⟨u, hu⟩
      rw [← List.cons_append, ← hu, lit_app] at h3
      cases h3
    | cons d b1 =>
      simp at he
      exact hb b1 b2 he.2 h0

theorem lineBody_app (b r : List Char) (h : ∀ x ∈ b, ¬ LineTerm x) (hr : ∀ c, r.head? = some c → LineTerm c) :
    star (seq (notP (one lineTerm)) any) (b ++ r) = some ([], r) := by
  induction b with
  | nil =>
    apply star_none
    cases r with
    | nil => rfl
    | cons c r => exact seq_none (notP_none (one_cons ((lineTerm_iff c).2 (hr c rfl))))
  | cons c b ih =>
    refine star_some (x := []) (y := []) (notAny_prog _) (r := b ++ r) ?_ (ih fun x hx => h x (by simp [hx]))
    refine seq_some (x := []) (y := []) (notP_some (one_none ?_)) rfl
    rw [← Bool.not_eq_true, lineTerm_iff]
    exact h c (by simp)

theorem lineBody_inv : ∀ s x r, star (seq (notP (one lineTerm)) any) s = some (x, r) →
    x = [] ∧ ∃ b, s = b ++ r ∧ (∀ x ∈ b, ¬ LineTerm x) ∧ ∀ c, r.head? = some c → LineTerm c := by
  refine star_ind (notAny_prog _) ?_ ?_
  · intro s h
    refine ⟨rfl, [], rfl, by simp, ?_⟩
    intro c hc
    cases s with
    | nil => cases hc
    | cons d s =>
      simp at hc
      subst hc
      rw [← lineTerm_iff]
      by_contra hn
      rw [Bool.not_eq_true] at hn
      rw [seq_some (notP_some (one_none hn)) (rfl : any (d :: s) = some ([], s))] at h
      cases h
  · rintro s x r y r' h - ⟨rfl, b, rfl, hb, hr⟩
    obtain ⟨x, r1, y, h1, h2, rfl⟩ := seq_inv h
    obtain ⟨h3, rfl, rfl⟩ := notP_inv h1
    obtain ⟨rfl, c, rfl⟩ := any_inv h2
    refine ⟨rfl, c :: b, rfl, ?_, hr⟩
    intro d hd
    rcases List.mem_cons.1 hd with rfl | hd
    · rw [← lineTerm_iff]
      intro hn
      rw [one_cons hn] at h3
      cases h3
    · exact hb d hd

theorem comment_block (b r : List Char) (h : ¬ ['*', '/'] <:+: b) :
    comment ('/' :: '*' :: (b ++ '*' :: '/' :: r)) = some ([], r) :=
  alt_left (seq_some (x := []) (y := []) (lit_app ['/', '*'] _) (seq_some (x := []) (y := []) (blockBody_app b r h) (lit_app ['*', '/'] r)))

theorem comment_line (b r : List Char) (h : ∀ x ∈ b, ¬ LineTerm x) (hr : ∀ c, r.head? = some c → LineTerm c) :
    comment ('/' :: '/' :: (b ++ r)) = some ([], r) := by
  unfold comment
  rw [alt_right]
  · exact seq_some (x := []) (y := []) (lit_app ['/', '/'] _) (lineBody_app b r h hr)
  · apply seq_none
    apply lit_none
    rintro ⟨u, hu⟩
    simp at hu

theorem comment_inv {s x r} (h : comment s = some (x, r)) :
    x = [] ∧ ((∃ b, s = '/' :: '*' :: (b ++ '*' :: '/' :: r) ∧ ¬ ['*', '/'] <:+: b) ∨
      ∃ b, s = '/' :: '/' :: (b ++ r) ∧ (∀ x ∈ b, ¬ LineTerm x) ∧ ∀ c, r.head? = some c → LineTerm c) := by
  rcases alt_inv h with h | ⟨-, h⟩
  · obtain ⟨x, r1, y, h1, h2, rfl⟩ := seq_inv h
    obtain ⟨rfl, rfl⟩ := lit_inv h1
    obtain ⟨x, r2, y, h3, h4, rfl⟩ := seq_inv h2
    obtain ⟨rfl, b, rfl, hb⟩ := blockBody_inv _ _ _ h3
    obtain ⟨rfl, rfl⟩ := lit_inv h4
    refine ⟨rfl, .inl ⟨b, rfl, ?_⟩⟩
    rintro ⟨b1, b2, rfl⟩
    exact hb b1 ('*' :: '/' :: b2) (by simp) (by simp) ⟨b2 ++ '*' :: '/' :: r, by simp⟩
  · obtain ⟨x, r1, y, h1, h2, rfl⟩ := seq_inv h
    obtain ⟨rfl, rfl⟩ := lit_inv h1
    obtain ⟨rfl, b, rfl, hb, hr⟩ := lineBody_inv _ _ _ h2
    exact ⟨rfl, .inr ⟨b, rfl, hb, hr⟩⟩

theorem commentWhite_prog : Prog (seq comment (star (one whitespaceChar))) := by
  intro s x r h
  obtain ⟨x, r1, y, h1, h2, rfl⟩ := seq_inv h
  obtain ⟨-, t, rfl, -⟩ := star_one_inv h2
  obtain ⟨-, ⟨b, rfl, -⟩ | ⟨b, rfl, -⟩⟩ := comment_inv h1
  · simp; omega
  · simp; omega

theorem slash_not_white : whitespaceChar '/' = false := by decide

theorem skip_white {c s} (h : White c) : skip (c :: s) = skip s := by
  unfold skip
  have : star (one whitespaceChar) (c :: s) = star (one whitespaceChar) s := by
    rw [star_one, star_one, List.dropWhile_cons, if_pos ((white_iff c).2 h)]
  simp only [seq, this]

theorem skip_comment {s r} (h : comment s = some ([], r)) : skip s = skip r := by
  have hs : s.head? = some '/' := by
    obtain ⟨-, ⟨b, rfl, -⟩ | ⟨b, rfl, -⟩⟩ := comment_inv h <;> rfl
  have h1 : star (one whitespaceChar) s = some ([], s) := by
    apply star_none
    cases s with
    | nil => rfl
    | cons c s =>
      simp at hs
      subst hs
      exact one_none slash_not_white
  obtain ⟨y, r', h2, -⟩ := star_total commentWhite_prog (r.dropWhile whitespaceChar)
  have h3 := star_some commentWhite_prog (seq_some h (star_one _ r)) h2
  unfold skip
  rw [seq_some h1 h3, seq_some (star_one _ r) h2]
  rfl

/-- nothing is skipped here -/
def Stop (r : List Char) : Prop := (∀ c, r.head? = some c → ¬ White c) ∧ comment r = none

theorem skip_stop {s} (h : Stop s) : skip s = some ([], s) := by
  unfold skip
  have h1 : star (one whitespaceChar) s = some ([], s) := by
    apply star_none
    cases s with
    | nil => rfl
    | cons c s =>
      apply one_none
      rw [← Bool.not_eq_true, white_iff]
      exact h.1 c rfl
  exact seq_some (x := []) (y := []) h1 (star_none (seq_none h.2))

theorem skip_total (s : List Char) :
    ∃ g r, s = g ++ r ∧ skip s = some ([], r) ∧ (Gap g ∨ (r = [] ∧ GapEnd g)) ∧ Stop r := by
  induction hn : s.length using Nat.strong_induction_on generalizing s with
  | _ n ih =>
    by_cases hw : ∃ c, s.head? = some c ∧ White c
    · obtain ⟨c, hc, hw⟩ := hw
      cases s with
      | nil => cases hc
      | cons d s =>
        simp at hc
        subst hc
        obtain ⟨g, r, rfl, h1, h2, h3⟩ := ih s.length (by simp at hn; omega) s rfl
        refine ⟨d :: g, r, rfl, (skip_white hw).trans h1, ?_, h3⟩
        rcases h2 with h2 | ⟨rfl, h2⟩
        · exact .inl (.white hw h2)
        · refine .inr ⟨rfl, ?_⟩
          cases h2 with
          | gap h2 => exact .gap (.white hw h2)
          | line h2 hb => exact .line (.white hw h2) hb
    · cases hc : comment s with
      | none =>
        have : Stop s := ⟨fun c h1 h2 => hw ⟨c, h1, h2⟩, hc⟩
        exact ⟨[], s, rfl, skip_stop this, .inl .nil, this⟩
      | some p =>
        obtain ⟨x, r⟩ := p
        obtain ⟨rfl, ⟨b, rfl, hb⟩ | ⟨b, rfl, hb, hr⟩⟩ := comment_inv hc
        · obtain ⟨g, r, rfl, h1, h2, h3⟩ := ih r.length (by simp at hn; omega) r rfl
          refine ⟨'/' :: '*' :: (b ++ '*' :: '/' :: g), r, by simp, (skip_comment hc).trans h1, ?_, h3⟩
          rcases h2 with h2 | ⟨rfl, h2⟩
          · exact .inl (.block hb h2)
          · refine .inr ⟨rfl, ?_⟩
            cases h2 with
            | gap h2 => exact .gap (.block hb h2)
            | line h2 hb' =>
              have := GapEnd.line (Gap.block hb h2) hb'
              simpa using this
        · cases r with
          | nil =>
            refine ⟨'/' :: '/' :: b, [], by simp, (skip_comment hc).trans (skip_stop ⟨by simp, rfl⟩), .inr ⟨rfl, ?_⟩, by simp, rfl⟩
            exact GapEnd.line .nil hb
          | cons c r =>
            have hl := hr c rfl
            obtain ⟨g, r, rfl, h1, h2, h3⟩ := ih r.length (by simp at hn; omega) r rfl
            refine ⟨'/' :: '/' :: (b ++ c :: g), r, by simp, (skip_comment hc).trans ((skip_white hl.white).trans h1), ?_, h3⟩
            rcases h2 with h2 | ⟨rfl, h2⟩
            · exact .inl (.line hb hl h2)
            · refine .inr ⟨rfl, ?_⟩
              cases h2 with
              | gap h2 => exact .gap (.line hb hl h2)
              | line h2 hb' =>
                have := GapEnd.line (Gap.line hb hl h2) hb'
                simpa using this

theorem skip_gap {g r} (hg : Gap g) : skip (g ++ r) = skip r := by
  induction hg with
  | nil => rfl
  | white hc _ ih => exact (skip_white hc).trans ih
  | @block b g hb _ ih =>
    have := skip_comment (comment_block b (g ++ r) hb)
    simp only [List.cons_append, List.append_assoc] at this ⊢
    exact this.trans ih
  | @line b c g hb hc _ ih =>
    have := skip_comment (comment_line b (c :: (g ++ r)) hb (by simpa using hc))
    simp only [List.cons_append, List.append_assoc] at this ⊢
    exact this.trans ((skip_white hc.white).trans ih)

theorem skip_gapEnd {g} (hg : GapEnd g) : skip g = some ([], []) := by
  cases hg with
  | gap h =>
    have := skip_gap (r := []) h
    rw [List.append_nil] at this
    exact this.trans (skip_stop ⟨by simp, rfl⟩)
  | @line g b h hb =>
    refine (skip_gap h).trans ?_
    have := skip_comment (comment_line b [] hb (by simp))
    rw [List.append_nil] at this
    exact this.trans (skip_stop ⟨by simp, rfl⟩)

theorem Gap.append {g g'} (h : Gap g) (h' : Gap g') : Gap (g ++ g') := by
  induction h with
  | nil => exact h'
  | white hc _ ih => exact .white hc ih
  | block hb _ ih =>
    simp only [List.cons_append, List.append_assoc]
    exact .block hb ih
  | line hb hc _ ih =>
    simp only [List.cons_append, List.append_assoc]
    exact .line hb hc ih

end Verif.Json5
