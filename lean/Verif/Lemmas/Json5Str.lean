import Verif.Lemmas.Json5Num
/-!
# Strings and names in the grammar
-/
namespace Verif.Json5
open Number (denotes IsDigit IsHexDigit)

theorem res_map_id {α : Type} (r : Res α) : r.map (fun x => x) = r := by cases r <;> rfl
theorem res_map_map {α β γ : Type} (r : Res α) (f : α → β) (g : β → γ) : (r.map f).map g = r.map fun x => g (f x) := by cases r <;> rfl

/-- what `parse_string` makes of pairs in front of others -/
def Den (ps : List Pair) (o : Option (List Char)) : Prop :=
  ∀ rest, parseString (ps ++ rest) = match o with
    | none => .err
    | some x => (parseString rest).map (x ++ ·)

theorem Den.nil : Den [] (some []) := by
  intro rest
  exact (res_map_id _).symm

theorem Den.append {ps o qs p} (h : Den ps o) (h' : Den qs p) : Den (ps ++ qs) (o.bind fun x => p.map fun y => x ++ y) := by
  intro rest
  rw [List.append_assoc, h]
  cases o with
  | none => rfl
  | some x =>
    simp only [Option.bind_some]
    rw [h']
    cases p with
    | none => rfl
    | some y =>
      simp only [Option.map_some, res_map_map, List.append_assoc]

/-- what `parse_string` makes of the pairs of a string -/
def strRes (o : Option (List Char)) : Res (List Char) :=
  match o with
  | none => .err
  | some x => .ok x

theorem Den.res {ps o} (h : Den ps o) : parseString ps = strRes o := by
  have := h []
  rw [List.append_nil] at this
  rw [this]
  cases o with
  | none => rfl
  | some x => simp [strRes, parseString, Res.map]

theorem hex_lt (a b : Char) (ha : IsHexDigit a) (hb : IsHexDigit b) : denotes 16 [a, b] < 256 := by
  have h : ∀ c, IsHexDigit c → Number.value c < 16 := by
    intro c hc
    unfold IsHexDigit IsDigit at hc
    unfold Number.value
    split
    · omega
    · split <;> omega
  have := h a ha
  have := h b hb
  simp [denotes, Nat.ofDigits]
  omega

theorem hex4_lt (a b c d : Char) (ha : IsHexDigit a) (hb : IsHexDigit b) (hc : IsHexDigit c) (hd : IsHexDigit d) :
    denotes 16 [a, b, c, d] < 65536 := by
  have h : ∀ c, IsHexDigit c → Number.value c < 16 := by
    intro c hc
    unfold IsHexDigit IsDigit at hc
    unfold Number.value
    split
    · omega
    · split <;> omega
  have := h a ha
  have := h b hb
  have := h c hc
  have := h d hd
  simp [denotes, Nat.ofDigits]
  omega

theorem Den.number {r : Rule} {t i} (hr : r = .hexEscape ∨ r = .unicodeEscape) (h0 : t ≠ []) (h : ∀ x ∈ t, IsHexDigit x)
    (hl : denotes 16 t < 65536) : Den [.mk r t i] (scalar (denotes 16 t)) := by
  intro rest
  have hp := Number.parseHex_hex h0 h
  rw [if_pos (by omega)] at hp
  have hc : scalar (denotes 16 t) = (charFromU32 (denotes 16 t)).map fun c => [c] := by
    unfold scalar charFromU32
    by_cases hs : 0xd800 ≤ denotes 16 t ∧ denotes 16 t ≤ 0xdfff
    · rw [if_pos hs, if_neg (by omega)]
      rfl
    · rw [if_neg hs, if_pos (by omega)]
      rfl
  rw [hc]
  rcases hr with rfl | rfl <;>
  · simp only [List.cons_append, List.nil_append, parseString, hp]
    cases charFromU32 (denotes 16 t) <;> rfl

/-! ## Single characters -/

theorem bslash_not_lineTerm : ¬ LineTerm '\\' := by unfold LineTerm; decide

theorem charLiteral_app {c : Char} {r : List Char} (h1 : c ≠ '\\') (h2 : ¬ LineTerm c) :
    charLiteral (c :: r) = some ([.mk .charLiteral [c] []], r) := by
  refine atomic_some (t := [c]) (x := []) ?_
  refine seq_some (x := []) (y := []) (notP_some (alt_none (lit_head (by simpa using h1)) (one_none ?_))) rfl
  rw [← Bool.not_eq_true, lineTerm_iff]
  exact h2

theorem charLiteral_inv {s z r} (h : charLiteral s = some (z, r)) :
    ∃ c, s = c :: r ∧ c ≠ '\\' ∧ ¬ LineTerm c ∧ z = [.mk .charLiteral [c] []] := by
  obtain ⟨x, h1, hz⟩ := atomic_inv h
  obtain ⟨x, r1, y, h2, h3, rfl⟩ := seq_inv h1
  obtain ⟨h4, rfl, rfl⟩ := notP_inv h2
  obtain ⟨rfl, c, rfl⟩ := any_inv h3
  refine ⟨c, rfl, ?_, ?_, hz [c] rfl⟩
  · rintro rfl
    rw [alt_left (show lit ['\\'] ('\\' :: r) = _ from lit_app ['\\'] r)] at h4
    cases h4
  · intro hl
    by_cases hb : c = '\\'
    · subst hb
      exact bslash_not_lineTerm hl
    · rw [alt_right (lit_head (by simpa using hb)), one_cons ((lineTerm_iff c).2 hl)] at h4
      cases h4

theorem hexEscape_app {a b : Char} {r} (ha : IsHexDigit a) (hb : IsHexDigit b) :
    hexEscape (a :: b :: r) = some ([.mk .hexEscape [a, b] []], r) :=
  atomic_some (t := [a, b]) (x := []) (seq_some (x := []) (y := []) (one_cons ((hex_iff a).2 ha)) (one_cons ((hex_iff b).2 hb)))

theorem hexEscape_inv {s z r} (h : hexEscape s = some (z, r)) :
    ∃ a b, IsHexDigit a ∧ IsHexDigit b ∧ s = a :: b :: r ∧ z = [.mk .hexEscape [a, b] []] := by
  obtain ⟨x, h1, hz⟩ := atomic_inv h
  obtain ⟨x, r1, y, h2, h3, rfl⟩ := seq_inv h1
  obtain ⟨rfl, a, ha, rfl⟩ := one_inv h2
  obtain ⟨rfl, b, hb, rfl⟩ := one_inv h3
  exact ⟨a, b, (hex_iff a).1 ha, (hex_iff b).1 hb, rfl, hz [a, b] rfl⟩

theorem unicodeEscape_app {a b c d : Char} {r} (ha : IsHexDigit a) (hb : IsHexDigit b) (hc : IsHexDigit c) (hd : IsHexDigit d) :
    unicodeEscape (a :: b :: c :: d :: r) = some ([.mk .unicodeEscape [a, b, c, d] []], r) :=
  atomic_some (t := [a, b, c, d]) (x := []) (seq_some (x := []) (y := []) (one_cons ((hex_iff a).2 ha))
    (seq_some (x := []) (y := []) (one_cons ((hex_iff b).2 hb))
      (seq_some (x := []) (y := []) (one_cons ((hex_iff c).2 hc)) (one_cons ((hex_iff d).2 hd)))))

theorem unicodeEscape_inv {s z r} (h : unicodeEscape s = some (z, r)) :
    ∃ a b c d, IsHexDigit a ∧ IsHexDigit b ∧ IsHexDigit c ∧ IsHexDigit d ∧ s = a :: b :: c :: d :: r ∧
      z = [.mk .unicodeEscape [a, b, c, d] []] := by
  obtain ⟨x, h1, hz⟩ := atomic_inv h
  obtain ⟨x, r1, y, h2, h3, rfl⟩ := seq_inv h1
  obtain ⟨rfl, a, ha, rfl⟩ := one_inv h2
  obtain ⟨x, r2, y, h4, h5, rfl⟩ := seq_inv h3
  obtain ⟨rfl, b, hb, rfl⟩ := one_inv h4
  obtain ⟨x, r3, y, h6, h7, rfl⟩ := seq_inv h5
  obtain ⟨rfl, c, hc, rfl⟩ := one_inv h6
  obtain ⟨rfl, d, hd, rfl⟩ := one_inv h7
  exact ⟨a, b, c, d, (hex_iff a).1 ha, (hex_iff b).1 hb, (hex_iff c).1 hc, (hex_iff d).1 hd, rfl, hz [a, b, c, d] rfl⟩

/-! ## Escapes -/

theorem singleEscape_iff (c : Char) : singleEscape c = true ↔
    c = '\'' ∨ c = '"' ∨ c = '\\' ∨ c = 'b' ∨ c = 'f' ∨ c = 'n' ∨ c = 'r' ∨ c = 't' ∨ c = 'v' := by
  simp only [singleEscape, Bool.or_eq_true, beq_iff_eq, or_assoc]

theorem escapeChar_iff (c : Char) : escapeChar c = true ↔ singleEscape c = true ∨ IsDigit c ∨ c = 'x' ∨ c = 'u' := by
  simp only [escapeChar, Bool.or_eq_true, beq_iff_eq, or_assoc, digit_iff]

theorem nonEscape_app {c : Char} {r} (h1 : escapeChar c = false) (h2 : ¬ LineTerm c) : nonEscape (c :: r) = some ([], r) := by
  refine seq_some (x := []) (y := []) (notP_some (alt_none (one_none h1) (one_none ?_))) rfl
  rw [← Bool.not_eq_true, lineTerm_iff]
  exact h2

theorem nonEscape_inv {s x r} (h : nonEscape s = some (x, r)) : ∃ c, s = c :: r ∧ escapeChar c = false ∧ ¬ LineTerm c := by
  obtain ⟨x, r1, y, h2, h3, rfl⟩ := seq_inv h
  obtain ⟨h4, rfl, rfl⟩ := notP_inv h2
  obtain ⟨rfl, c, rfl⟩ := any_inv h3
  refine ⟨c, rfl, ?_, ?_⟩
  · rw [← Bool.not_eq_true]
    intro he
    rw [alt_left (one_cons he)] at h4
    cases h4
  · intro hl
    cases he : escapeChar c with
    | true =>
      rw [alt_left (one_cons he)] at h4
      cases h4
    | false =>
      rw [alt_right (one_none he), one_cons ((lineTerm_iff c).2 hl)] at h4
      cases h4

theorem charEscape_app {c : Char} {r} (h : singleEscape c = true ∨ (escapeChar c = false ∧ ¬ LineTerm c)) :
    charEscape (c :: r) = some ([.mk .charEscape [c] []], r) := by
  refine atomic_some (t := [c]) (x := []) ?_
  rcases h with h | ⟨h1, h2⟩
  · exact alt_left (one_cons h)
  · have : singleEscape c = false := by
      rw [← Bool.not_eq_true]
      intro h
      rw [← Bool.not_eq_true, escapeChar_iff] at h1
      exact h1 (.inl h)
    rw [List.singleton_append, alt_right (one_none this)]
    exact nonEscape_app h1 h2

theorem charEscape_inv {s z r} (h : charEscape s = some (z, r)) :
    ∃ c, s = c :: r ∧ z = [.mk .charEscape [c] []] ∧ (singleEscape c = true ∨ (escapeChar c = false ∧ ¬ LineTerm c)) := by
  obtain ⟨x, h1, hz⟩ := atomic_inv h
  rcases alt_inv h1 with h1 | ⟨-, h1⟩
  · obtain ⟨-, c, hc, rfl⟩ := one_inv h1
    exact ⟨c, rfl, hz [c] rfl, .inl hc⟩
  · obtain ⟨c, rfl, hc⟩ := nonEscape_inv h1
    exact ⟨c, rfl, hz [c] rfl, .inr hc⟩

theorem charEscape_none {c : Char} {r} (h1 : singleEscape c = false) (h2 : escapeChar c = true ∨ LineTerm c) :
    charEscape (c :: r) = none := by
  refine atomic_none (alt_none (one_none h1) (seq_none ?_))
  cases he : escapeChar c with
  | true => exact notP_none (alt_left (one_cons he))
  | false =>
    rcases h2 with h2 | h2
    · rw [he] at h2
      cases h2
    · refine notP_none (x := ([], r)) ?_
      rw [alt_right (one_none he), one_cons ((lineTerm_iff c).2 h2)]

/-- the escapes of the grammar are the escapes -/
theorem escape_iff (c : Char) : (singleEscape c = true ∨ (escapeChar c = false ∧ ¬ LineTerm c)) ↔
    ∃ d, Escape c d ∧ parseCharEscape [c] = [d] := by
  constructor
  · intro h
    by_cases hb : c = 'b'
    · subst hb; exact ⟨_, .b, rfl⟩
    by_cases hf : c = 'f'
    · subst hf; exact ⟨_, .f, rfl⟩
    by_cases hn : c = 'n'
    · subst hn; exact ⟨_, .n, rfl⟩
    by_cases hr : c = 'r'
    · subst hr; exact ⟨_, .r, rfl⟩
    by_cases ht : c = 't'
    · subst ht; exact ⟨_, .t, rfl⟩
    by_cases hv : c = 'v'
    · subst hv; exact ⟨_, .v, rfl⟩
    refine ⟨c, ?_, by simp [parseCharEscape, hb, hf, hn, hr, ht, hv]⟩
    rcases h with h | ⟨h1, h2⟩
    · rw [singleEscape_iff] at h
      have h' : c = '\'' ∨ c = '"' ∨ c = '\\' := by
        rcases h with h | h | h | h | h | h | h | h | h
        · exact .inl h
        · exact .inr (.inl h)
        · exact .inr (.inr h)
        all_goals exact absurd h (by assumption)
      rcases h' with rfl | rfl | rfl <;> exact .self (by decide) (by decide) (by unfold LineTerm; decide)
    · rw [← Bool.not_eq_true, escapeChar_iff] at h1
      refine .self ?_ ?_ h2
      · have hx : c ≠ 'x' := fun h => h1 (.inr (.inr (.inl h)))
        have hu : c ≠ 'u' := fun h => h1 (.inr (.inr (.inr h)))
        simp [hb, hf, hn, hr, ht, hv, hx, hu]
      · exact fun h => h1 (.inr (.inl h))
  · rintro ⟨d, h, -⟩
    cases h with
    | b => exact .inl rfl
    | f => exact .inl rfl
    | n => exact .inl rfl
    | r => exact .inl rfl
    | t => exact .inl rfl
    | v => exact .inl rfl
    | self h1 h2 h3 =>
      cases hs : singleEscape c with
      | true => exact .inl rfl
      | false =>
        refine .inr ⟨?_, h3⟩
        rw [← Bool.not_eq_true, escapeChar_iff, hs]
        simp at h1
        rintro (h | h | h | h)
        · cases h
        · exact h2 h
        · exact h1.2.2.2.2.2.2.1 h
        · exact h1.2.2.2.2.2.2.2 h

theorem Escape.unique {c d e : Char} (h : Escape c d) (h' : parseCharEscape [c] = [e]) : d = e := by
  cases h with
  | b => exact List.head_eq_of_cons_eq h'
  | f => exact List.head_eq_of_cons_eq h'
  | n => exact List.head_eq_of_cons_eq h'
  | r => exact List.head_eq_of_cons_eq h'
  | t => exact List.head_eq_of_cons_eq h'
  | v => exact List.head_eq_of_cons_eq h'
  | self h1 h2 h3 =>
    simp at h1
    simpa [parseCharEscape, h1] using h'

theorem lineTermSeq_inv {s x r} (h : lineTermSeq s = some (x, r)) :
    x = [] ∧ (s = Char.ofNat 13 :: Char.ofNat 10 :: r ∨ ∃ c, LineTerm c ∧ s = c :: r) := by
  rcases alt_inv h with h | ⟨-, h⟩
  · obtain ⟨x, r1, y, h1, h2, rfl⟩ := seq_inv h
    obtain ⟨rfl, rfl⟩ := lit_inv h1
    obtain ⟨rfl, rfl⟩ := lit_inv h2
    exact ⟨rfl, .inl rfl⟩
  · obtain ⟨rfl, c, hc, rfl⟩ := one_inv h
    exact ⟨rfl, .inr ⟨c, (lineTerm_iff c).1 hc, rfl⟩⟩

/-! ## Parts of a string -/

theorem quoteChar_inv {q : Char} {s ps r} (h : quoteChar q s = some (ps, r)) :
    ∃ t o, s = t ++ r ∧ t ≠ [] ∧ Piece q t o ∧ Den ps o := by
  rcases alt_inv h with h | ⟨-, h⟩
  · obtain ⟨x, r1, y, h1, h2, rfl⟩ := seq_inv h
    obtain ⟨rfl, rfl⟩ := lit_inv h1
    rcases alt_inv h2 with h2 | ⟨-, h2⟩
    · obtain ⟨c, rfl, rfl, hc⟩ := charEscape_inv h2
      obtain ⟨d, hd, hp⟩ := (escape_iff c).1 hc
      refine ⟨['\\', c], _, rfl, by simp, .escape hd, ?_⟩
      intro rest
      simp only [List.nil_append, List.cons_append, parseString, hp]
    rcases alt_inv h2 with h2 | ⟨-, h2⟩
    · obtain ⟨x, h3, hz⟩ := atomic_inv h2
      obtain ⟨rfl, rfl⟩ := lit_inv h3
      rw [hz ['0'] rfl]
      refine ⟨['\\', '0'], _, rfl, by simp, .nul, ?_⟩
      intro rest
      rfl
    rcases alt_inv h2 with h2 | ⟨-, h2⟩
    · obtain ⟨x, r1, y, h1, h3, rfl⟩ := seq_inv h2
      obtain ⟨rfl, rfl⟩ := lit_inv h1
      obtain ⟨a, b, ha, hb, rfl, rfl⟩ := hexEscape_inv h3
      refine ⟨['\\', 'x', a, b], _, rfl, by simp, .hex ha hb, ?_⟩
      exact Den.number (.inl rfl) (by simp) (by simp [ha, hb]) (by have := hex_lt a b ha hb; omega)
    · obtain ⟨x, r1, y, h1, h3, rfl⟩ := seq_inv h2
      obtain ⟨rfl, rfl⟩ := lit_inv h1
      obtain ⟨a, b, c, d, ha, hb, hc, hd, rfl, rfl⟩ := unicodeEscape_inv h3
      refine ⟨['\\', 'u', a, b, c, d], _, rfl, by simp, .unicode ha hb hc hd, ?_⟩
      exact Den.number (.inr rfl) (by simp) (by simp [ha, hb, hc, hd]) (hex4_lt a b c d ha hb hc hd)
  · rcases alt_inv h with h | ⟨-, h⟩
    · obtain ⟨x, r1, y, h1, h2, rfl⟩ := seq_inv h
      obtain ⟨rfl, rfl⟩ := lit_inv h1
      obtain ⟨rfl, rfl | ⟨c, hc, rfl⟩⟩ := lineTermSeq_inv h2
      · exact ⟨['\\', Char.ofNat 13, Char.ofNat 10], _, rfl, by simp, .crlf, .nil⟩
      · exact ⟨['\\', c], _, rfl, by simp, .cont hc, .nil⟩
    · obtain ⟨x, r1, y, h1, h2, rfl⟩ := seq_inv h
      obtain ⟨h3, rfl, rfl⟩ := notP_inv h1
      obtain ⟨c, rfl, hc, hl, rfl⟩ := charLiteral_inv h2
      refine ⟨[c], _, rfl, by simp, .plain ?_ hc hl, ?_⟩
      · rintro rfl
        rw [show lit [c] (c :: r) = _ from lit_app [c] r] at h3
        cases h3
      · intro rest
        rfl

theorem quoteChar_prog (q : Char) : Prog (quoteChar q) := by
  intro s x r h
  obtain ⟨t, o, rfl, h0, -, -⟩ := quoteChar_inv h
  have := List.length_pos_iff.2 h0
  simp
  omega

theorem quoteChar_app {q : Char} {t o} (h : Piece q t o) :
    ∃ ps, Den ps o ∧ ∀ r, r.head? ≠ some '\n' → quoteChar q (t ++ r) = some (ps, r) := by
  cases h with
  | @plain c h1 h2 h3 =>
    refine ⟨[.mk .charLiteral [c] []], fun rest => rfl, ?_⟩
    intro r _
    unfold quoteChar
    have hb : (([c] ++ r).head? : Option Char) ≠ some '\\' := by simpa using h2
    rw [alt_right (seq_none (lit_head hb)), alt_right (a := lineContinuation) (seq_none (lit_head hb))]
    exact seq_some (x := []) (notP_some (lit_head (by simpa using h1))) (charLiteral_app h2 h3)
  | @escape c d h =>
    obtain ⟨e, he, hp⟩ := (escape_iff c).1 ((escape_iff c).2 (by
      rcases (escape_iff c).1 (by
        cases h with
        | b => exact .inl rfl
        | f => exact .inl rfl
        | n => exact .inl rfl
        | r => exact .inl rfl
        | t => exact .inl rfl
        | v => exact .inl rfl
        | self h1 h2 h3 =>
          exact (escape_iff c).2 ⟨c, .self h1 h2 h3, by simp at h1; simp [parseCharEscape, h1]⟩) with ⟨e, he, hp⟩
      exact ⟨e, he, hp⟩))
    have hde := h.unique hp
    subst hde
    refine ⟨[.mk .charEscape [c] []], ?_, ?_⟩
    · intro rest
      simp only [List.nil_append, List.cons_append, parseString, hp]
    · intro r _
      exact alt_left (seq_some (x := []) (lit_app ['\\'] _) (alt_left (charEscape_app ((escape_iff c).2 ⟨d, h, hp⟩))))
  | nul =>
    refine ⟨[.mk .nulEscape ['0'] []], fun rest => rfl, ?_⟩
    intro r _
    refine alt_left (seq_some (x := []) (lit_app ['\\'] _) ?_)
    unfold escapeSequence
    rw [alt_right (charEscape_none (by decide) (.inl (by decide)))]
    exact alt_left (atomic_some (t := ['0']) (lit_app ['0'] r))
  | @hex a b ha hb =>
    refine ⟨[.mk .hexEscape [a, b] []], Den.number (.inl rfl) (by simp) (by simp [ha, hb]) (by have := hex_lt a b ha hb; omega), ?_⟩
    intro r _
    refine alt_left (seq_some (x := []) (lit_app ['\\'] _) ?_)
    unfold escapeSequence
    rw [alt_right (charEscape_none (by decide) (.inl (by decide))), alt_right (a := nulEscape) (atomic_none (lit_head (by simp)))]
    exact alt_left (seq_some (x := []) (lit_app ['x'] _) (hexEscape_app ha hb))
  | @unicode a b c d ha hb hc hd =>
    refine ⟨[.mk .unicodeEscape [a, b, c, d] []],
      Den.number (.inr rfl) (by simp) (by simp [ha, hb, hc, hd]) (hex4_lt a b c d ha hb hc hd), ?_⟩
    intro r _
    refine alt_left (seq_some (x := []) (lit_app ['\\'] _) ?_)
    unfold escapeSequence
    rw [alt_right (charEscape_none (by decide) (.inl (by decide))), alt_right (a := nulEscape) (atomic_none (lit_head (by simp))),
      alt_right (seq_none (lit_head (by simp)))]
    exact seq_some (x := []) (lit_app ['u'] _) (unicodeEscape_app ha hb hc hd)
  | crlf =>
    refine ⟨[], .nil, ?_⟩
    intro r _
    unfold quoteChar
    rw [alt_right]
    · refine alt_left (seq_some (x := []) (y := []) (lit_app ['\\'] _) ?_)
      exact alt_left (seq_some (x := []) (y := []) (lit_app ['\r'] _) (lit_app ['\n'] r))
    · refine seq_none' (lit_app ['\\'] _) ?_
      exact alt_none (charEscape_none (by decide) (.inr (.inr (.inl rfl)))) (alt_none (atomic_none (lit_head (by simp)))
        (alt_none (seq_none (lit_head (by simp))) (seq_none (lit_head (by simp)))))
  | @cont c hc =>
    refine ⟨[], .nil, ?_⟩
    intro r hr
    unfold quoteChar
    have hne : ∀ d, ¬ LineTerm d → c ≠ d := by
      rintro d hd rfl
      exact hd hc
    rw [alt_right]
    · refine alt_left (seq_some (x := []) (y := []) (lit_app ['\\'] _) ?_)
      unfold lineTermSeq
      rw [alt_right]
      · exact one_cons ((lineTerm_iff c).2 hc)
      · by_cases h13 : c = '\r'
        · subst h13
          exact seq_none' (lit_app ['\r'] r) (lit_head hr)
        · exact seq_none (lit_head (by simpa using h13))
    · refine seq_none' (lit_app ['\\'] _) ?_
      have hs : singleEscape c = false := by
        rw [← Bool.not_eq_true, singleEscape_iff]
        unfold LineTerm at hc
        rintro (rfl | rfl | rfl | rfl | rfl | rfl | rfl | rfl | rfl) <;> revert hc <;> decide
      have h0 : c ≠ '0' := hne _ (by unfold LineTerm; decide)
      have hx : c ≠ 'x' := hne _ (by unfold LineTerm; decide)
      have hu : c ≠ 'u' := hne _ (by unfold LineTerm; decide)
      exact alt_none (charEscape_none hs (.inr hc)) (alt_none (atomic_none (lit_head (by simpa using h0)))
        (alt_none (seq_none (lit_head (by simpa using hx))) (seq_none (lit_head (by simpa using hu)))))

/-! ## Strings -/

theorem quoteChars_inv (q : Char) : ∀ s ps r, star (quoteChar q) s = some (ps, r) → ∃ t o, s = t ++ r ∧ StrText q t o ∧ Den ps o := by
  refine star_ind (quoteChar_prog q) ?_ ?_
  · intro s _
    exact ⟨[], _, rfl, .nil, .nil⟩
  · rintro s x r y r' h - ⟨t', o', rfl, ht', hd'⟩
    obtain ⟨t, o, rfl, -, hp, hd⟩ := quoteChar_inv h
    exact ⟨t ++ t', _, by simp, .cons hp ht', hd.append hd'⟩

theorem piece_head {q : Char} {t o} (h : Piece q t o) : ∃ c t', t = c :: t' ∧ ¬ LineTerm c := by
  have hb := bslash_not_lineTerm
  cases h with
  | plain h1 h2 h3 => exact ⟨_, _, rfl, h3⟩
  | _ => exact ⟨_, _, rfl, hb⟩

theorem strText_head {q : Char} {t o} (h : StrText q t o) (hq : ¬ LineTerm q) (r : List Char) : (t ++ q :: r).head? ≠ some '\n' := by
  cases h with
  | nil =>
    rintro h
    simp at h
    subst h
    exact hq (.inl rfl)
  | cons hp _ =>
    obtain ⟨c, t', rfl, hc⟩ := piece_head hp
    intro h
    simp at h
    subst h
    exact hc (.inl rfl)

theorem quoteChars_app {q : Char} (hq : Quote q) {t o} (h : StrText q t o) :
    ∃ ps, Den ps o ∧ ∀ r, star (quoteChar q) (t ++ q :: r) = some (ps, q :: r) := by
  have hl : ¬ LineTerm q := by rcases hq with rfl | rfl <;> unfold LineTerm <;> decide
  have hb : q ≠ '\\' := by rcases hq with rfl | rfl <;> decide
  induction h with
  | nil =>
    refine ⟨[], .nil, ?_⟩
    intro r
    apply star_none
    have hh : ((q :: r).head? : Option Char) ≠ some '\\' := by simpa using hb
    exact alt_none (seq_none (lit_head hh)) (alt_none (seq_none (lit_head hh)) (seq_none (notP_none (lit_app [q] r))))
  | cons hp ht ih =>
    obtain ⟨ps, hd, hps⟩ := ih
    obtain ⟨ps', hd', hps'⟩ := quoteChar_app hp
    refine ⟨ps' ++ ps, hd'.append hd, ?_⟩
    intro r
    rw [List.append_assoc]
    exact star_some (quoteChar_prog q) (hps' _ (strText_head ht hl r)) (hps r)

theorem string_inv {s z r} (h : stringP s = some (z, r)) :
    ∃ q t o i, Quote q ∧ StrText q t o ∧ Den i o ∧ s = (q :: (t ++ [q])) ++ r ∧ z = [.mk .string (q :: (t ++ [q])) i] := by
  obtain ⟨x, h1, hz⟩ := rule_inv h
  have key : ∀ q, Quote q → seq (lit [q]) (seq (star (quoteChar q)) (lit [q])) s = some (x, r) →
      ∃ q t o i, Quote q ∧ StrText q t o ∧ Den i o ∧ s = (q :: (t ++ [q])) ++ r ∧ z = [.mk .string (q :: (t ++ [q])) i] := by
    intro q hq h
    obtain ⟨x', r1, y, h5, h2, rfl⟩ := seq_inv h
    obtain ⟨rfl, rfl⟩ := lit_inv h5
    obtain ⟨x, r2, y, h3, h4, rfl⟩ := seq_inv h2
    obtain ⟨t, o, rfl, ht, hd⟩ := quoteChars_inv q _ _ _ h3
    obtain ⟨rfl, rfl⟩ := lit_inv h4
    have hs : [q] ++ (t ++ ([q] ++ r)) = (q :: (t ++ [q])) ++ r := by simp
    refine ⟨q, t, o, x, hq, ht, hd, hs, ?_⟩
    rw [hz _ hs]
    simp
  rcases alt_inv h1 with h1 | ⟨-, h1⟩
  · exact key '"' (.inl rfl) h1
  · exact key '\'' (.inr rfl) h1

theorem string_app {q : Char} (hq : Quote q) {t o} (h : StrText q t o) :
    ∃ i, Den i o ∧ ∀ r, stringP (q :: (t ++ q :: r)) = some ([.mk .string (q :: (t ++ [q])) i], r) := by
  obtain ⟨ps, hd, hps⟩ := quoteChars_app hq h
  refine ⟨ps, hd, ?_⟩
  intro r
  have hs : q :: (t ++ q :: r) = (q :: (t ++ [q])) ++ r := by simp
  have hone : seq (lit [q]) (seq (star (quoteChar q)) (lit [q])) (q :: (t ++ q :: r)) = some (ps, r) := by
    have := seq_some (x := []) (lit_app [q] (t ++ q :: r)) (seq_some (y := []) (hps r) (lit_app [q] r))
    simpa using this
  rw [hs] at hone ⊢
  apply rule_some
  rcases hq with rfl | rfl
  · exact alt_left hone
  · rw [alt_right (seq_none (lit_head (by simp)))]
    exact hone

theorem string_none {s : List Char} (h1 : s.head? ≠ some '"') (h2 : s.head? ≠ some '\'') : stringP s = none :=
  rule_none (alt_none (seq_none (lit_head h1)) (seq_none (lit_head h2)))

/-! ## Names -/

section
variable {u : Uni}

theorem alphanum_lt {c : Char} (h : c.isAlphanum = true) :
    (48 ≤ c.toNat ∧ c.toNat ≤ 57) ∨ (65 ≤ c.toNat ∧ c.toNat ≤ 90) ∨ (97 ≤ c.toNat ∧ c.toNat ≤ 122) := by
  simp only [Char.isAlphanum, Char.isAlpha, Char.isUpper, Char.isLower, Char.isDigit, Bool.or_eq_true, Bool.and_eq_true,
    decide_eq_true_eq, ge_iff_le, UInt32.le_iff_toNat_le] at h
  have e1 : ('0').val.toNat = 48 := rfl
  have e2 : ('9').val.toNat = 57 := rfl
  have e3 : ('a').val.toNat = 97 := rfl
  have e4 : ('z').val.toNat = 122 := rfl
  have e5 : ('A').val.toNat = 65 := rfl
  have e6 : ('Z').val.toNat = 90 := rfl
  have e : c.val.toNat = c.toNat := rfl
  omega

/-- the characters of names that are below 128 -/
theorem Uni.Sound.ascii (hu : u.Sound) {c : Char} (h : u.letter c = true ∨ u.mark c = true) (hc : c.toNat < 128) :
    (48 ≤ c.toNat ∧ c.toNat ≤ 57) ∨ (65 ≤ c.toNat ∧ c.toNat ≤ 90) ∨ (97 ≤ c.toNat ∧ c.toNat ≤ 122) ∨ c.toNat = 95 ∨ c.toNat = 94 ∨
      c.toNat = 96 := by
  rcases (hu c h).2 hc with h | h | h | h
  · have := alphanum_lt h
    omega
  · subst h; decide
  · subst h; decide
  · subst h; decide

theorem Uni.Sound.letter_false (hu : u.Sound) {c : Char} (h : White c ∨ (c.toNat < 128 ∧ ¬ ((48 ≤ c.toNat ∧ c.toNat ≤ 57) ∨
    (65 ≤ c.toNat ∧ c.toNat ≤ 90) ∨ (97 ≤ c.toNat ∧ c.toNat ≤ 122) ∨ c.toNat = 95 ∨ c.toNat = 94 ∨ c.toNat = 96))) :
    u.letter c = false ∧ u.mark c = false := by
  constructor
  · rw [← Bool.not_eq_true]
    intro hl
    rcases h with h | h
    · exact (hu c (.inl hl)).1 h
    · exact h.2 (hu.ascii (.inl hl) h.1)
  · rw [← Bool.not_eq_true]
    intro hl
    rcases h with h | h
    · exact (hu c (.inr hl)).1 h
    · exact h.2 (hu.ascii (.inr hl) h.1)

/-- a character of a name is a plain character -/
theorem Uni.Sound.plain (hu : u.Sound) {c : Char} (h : u.letter c = true ∨ u.mark c = true) : c ≠ '\\' ∧ ¬ LineTerm c := by
  refine ⟨?_, fun hl => (hu c h).1 hl.white⟩
  rintro rfl
  have := hu.ascii h (by decide)
  revert this
  decide

theorem identStart_inv {s z r} (h : identStart u s = some (z, r)) : ∃ t, s = t ++ r ∧ t ≠ [] ∧ IdStart u t := by
  rcases alt_inv h with h | ⟨-, h⟩
  · obtain ⟨x, r1, y, h1, h2, rfl⟩ := seq_inv h
    obtain ⟨h3, rfl, rfl⟩ := andP_inv h1
    obtain ⟨c, rfl, -, -, rfl⟩ := charLiteral_inv h2
    refine ⟨[c], rfl, by simp, .letter ?_⟩
    obtain ⟨w, hw⟩ := Option.isSome_iff_exists.1 h3
    rcases alt_inv hw with hw | ⟨-, hw⟩
    · obtain ⟨-, d, hd, he⟩ := one_inv (r := w.2) (x := w.1) hw
      cases he
      exact .inl hd
    · obtain ⟨-, d, hd, he⟩ := one_inv (r := w.2) (x := w.1) hw
      cases he
      simp at hd
      exact .inr (by rcases hd with (h | h) | h <;> simp [h])
  · obtain ⟨x, r1, y, h1, h2, rfl⟩ := seq_inv h
    obtain ⟨rfl, rfl⟩ := lit_inv h1
    obtain ⟨a, b, c, d, ha, hb, hc, hd, rfl, rfl⟩ := unicodeEscape_inv h2
    exact ⟨['\\', 'u', a, b, c, d], rfl, by simp, .unicode ha hb hc hd⟩

theorem identStart_app (hu : u.Sound) {t} (h : IdStart u t) : ∃ ps, ∀ r, identStart u (t ++ r) = some (ps, r) := by
  cases h with
  | @letter c h =>
    refine ⟨[.mk .charLiteral [c] []], ?_⟩
    intro r
    have hp : c ≠ '\\' ∧ ¬ LineTerm c := by
      rcases h with h | rfl | rfl | rfl
      · exact hu.plain (.inl h)
      all_goals exact ⟨by decide, by unfold LineTerm; decide⟩
    refine alt_left (seq_some (x := []) (andP_some (x := ([], r)) ?_) (charLiteral_app hp.1 hp.2))
    cases hl : u.letter c with
    | true => exact alt_left (one_cons hl)
    | false =>
      rw [List.singleton_append, alt_right (one_none hl)]
      rw [hl] at h
      exact one_cons (by simp at h ⊢; rcases h with h | h | h <;> simp [h])
  | @unicode a b c d ha hb hc hd =>
    refine ⟨[.mk .unicodeEscape [a, b, c, d] []], ?_⟩
    intro r
    unfold identStart
    rw [alt_right]
    · exact seq_some (x := []) (lit_app ['\\', 'u'] _) (unicodeEscape_app ha hb hc hd)
    · apply seq_none
      apply andP_none
      refine alt_none (one_none (hu.letter_false (c := '\\') (.inr (by decide))).1) (one_none (by decide))

theorem identPart_inv {s z r} (h : identPart u s = some (z, r)) : ∃ t, s = t ++ r ∧ t ≠ [] ∧ IdPart u t := by
  rcases alt_inv h with h | ⟨-, h⟩
  · obtain ⟨t, h1, h2, h3⟩ := identStart_inv h
    exact ⟨t, h1, h2, .start h3⟩
  · obtain ⟨x, r1, y, h1, h2, rfl⟩ := seq_inv h
    obtain ⟨h3, rfl, rfl⟩ := andP_inv h1
    obtain ⟨c, rfl, -, -, rfl⟩ := charLiteral_inv h2
    refine ⟨[c], rfl, by simp, .mark ?_⟩
    obtain ⟨w, hw⟩ := Option.isSome_iff_exists.1 h3
    obtain ⟨-, d, hd, he⟩ := one_inv (r := w.2) (x := w.1) hw
    cases he
    simp at hd
    rcases hd with (h | h) | h
    · exact .inl h
    · subst h; exact .inr (.inl rfl)
    · subst h; exact .inr (.inr rfl)

theorem identPart_prog : Prog (identPart u) := by
  intro s x r h
  obtain ⟨t, rfl, h0, -⟩ := identPart_inv h
  have := List.length_pos_iff.2 h0
  simp
  omega

theorem identPart_app (hu : u.Sound) {t} (h : IdPart u t) : ∃ ps, ∀ r, identPart u (t ++ r) = some (ps, r) := by
  cases h with
  | start h =>
    obtain ⟨ps, hps⟩ := identStart_app hu h
    exact ⟨ps, fun r => alt_left (hps r)⟩
  | @mark c h =>
    have hp : c ≠ '\\' ∧ ¬ LineTerm c := by
      rcases h with h | h | h
      · exact hu.plain (.inr h)
      all_goals
        refine ⟨?_, ?_⟩
        · rintro rfl
          revert h
          decide
        · unfold LineTerm
          omega
    by_cases hi : IdStart u [c]
    · obtain ⟨ps, hps⟩ := identStart_app hu hi
      exact ⟨ps, fun r => alt_left (hps r)⟩
    refine ⟨[.mk .charLiteral [c] []], ?_⟩
    intro r
    have hs : identStart u ([c] ++ r) = none := by
      cases hs : identStart u ([c] ++ r) with
      | none => rfl
      | some p =>
        obtain ⟨ps, r'⟩ := p
        obtain ⟨t, ht, h0, hst⟩ := identStart_inv hs
        cases hst with
        | letter h' =>
          cases ht
          exact absurd (.letter h') hi
        | unicode _ _ _ _ =>
          cases ht
          exact absurd rfl hp.1
    unfold identPart
    rw [alt_right hs]
    refine seq_some (x := []) (andP_some (x := ([], r)) (one_cons ?_)) (charLiteral_app hp.1 hp.2)
    rcases h with h | h | h
    · simp [h]
    · have : c = '\u200c' := (ceq _ _).2 h
      simp [this]
    · have : c = '\u200d' := (ceq _ _).2 h
      simp [this]

/-- what ends a name -/
def EndChar (c : Char) : Prop := White c ∨ c = '/' ∨ c = ':' ∨ c = '!' ∨ c = '?' ∨ c = '"' ∨ c = '\'' ∨ c = '}' ∨ c = ','

theorem identStart_none (hu : u.Sound) {s : List Char} (h : ∀ c, s.head? = some c → EndChar c) : identStart u s = none := by
  cases s with
  | nil => exact alt_none (seq_none (andP_none (alt_none rfl rfl))) (seq_none (lit_head (by simp)))
  | cons c s =>
    have hc := h c rfl
    have hn : White c ∨ c.toNat = 47 ∨ c.toNat = 58 ∨ c.toNat = 33 ∨ c.toNat = 63 ∨ c.toNat = 34 ∨ c.toNat = 39 ∨ c.toNat = 125 ∨
        c.toNat = 44 := by
      unfold EndChar at hc
      simp only [ceq c] at hc
      exact hc
    have hl := hu.letter_false (c := c) (by
      rcases hn with h | h
      · exact .inl h
      · exact .inr (by omega))
    have hne : ∀ d : Char, (¬ White d ∧ d.toNat ≠ 47 ∧ d.toNat ≠ 58 ∧ d.toNat ≠ 33 ∧ d.toNat ≠ 63 ∧ d.toNat ≠ 34 ∧ d.toNat ≠ 39 ∧
        d.toNat ≠ 125 ∧ d.toNat ≠ 44) → c ≠ d := by
      rintro d ⟨h1, h2⟩ rfl
      rcases hn with h | h
      · exact h1 h
      · omega
    have hw : ∀ d : Char, (32 < d.toNat ∧ d.toNat < 128) → ¬ White d := by
      intro d hd
      unfold White
      omega
    refine alt_none (seq_none (andP_none (alt_none (one_none hl.1) (one_none ?_)))) (seq_none (lit_head ?_))
    · have h1 := hne '$' ⟨hw _ (by decide), by decide⟩
      have h2 := hne '_' ⟨hw _ (by decide), by decide⟩
      have h3 := hne '@' ⟨hw _ (by decide), by decide⟩
      simp [h1, h2, h3]
    · simpa using hne '\\' ⟨hw _ (by decide), by decide⟩

theorem identPart_none (hu : u.Sound) {s : List Char} (h : ∀ c, s.head? = some c → EndChar c) : identPart u s = none := by
  refine alt_none (identStart_none hu h) (seq_none (andP_none (one_head ?_)))
  intro c hc
  have hc' := h c hc
  have hn : White c ∨ c.toNat = 47 ∨ c.toNat = 58 ∨ c.toNat = 33 ∨ c.toNat = 63 ∨ c.toNat = 34 ∨ c.toNat = 39 ∨ c.toNat = 125 ∨
      c.toNat = 44 := by
    unfold EndChar at hc'
    simp only [ceq c] at hc'
    exact hc'
  have hl := hu.letter_false (c := c) (by
    rcases hn with h | h
    · exact .inl h
    · exact .inr (by omega))
  rw [hl.2]
  have h1 : c ≠ '\u200c' := by
    rintro rfl
    revert hn
    unfold White
    decide
  have h2 : c ≠ '\u200d' := by
    rintro rfl
    revert hn
    unfold White
    decide
  simp [h1, h2]

theorem identParts_inv : ∀ s ps r, star (identPart u) s = some (ps, r) → ∃ t, s = t ++ r ∧ IdParts u t := by
  refine star_ind identPart_prog ?_ ?_
  · intro s _
    exact ⟨[], rfl, .nil⟩
  · rintro s x r y r' h - ⟨t', rfl, ht'⟩
    obtain ⟨t, rfl, -, hp⟩ := identPart_inv h
    exact ⟨t ++ t', by simp, .cons hp ht'⟩

theorem identParts_app (hu : u.Sound) {t} (h : IdParts u t) :
    ∃ ps, ∀ r, (∀ c, r.head? = some c → EndChar c) → star (identPart u) (t ++ r) = some (ps, r) := by
  induction h with
  | nil => exact ⟨[], fun r hr => star_none (identPart_none hu hr)⟩
  | cons hp _ ih =>
    obtain ⟨ps, hps⟩ := ih
    obtain ⟨ps', hps'⟩ := identPart_app hu hp
    refine ⟨ps' ++ ps, ?_⟩
    intro r hr
    rw [List.append_assoc]
    exact star_some identPart_prog (hps' _) (hps r hr)

/-- what follows a key -/
def FollowKey (r : List Char) : Prop := ∀ c, r.head? = some c → White c ∨ c = '/' ∨ c = ':'

theorem FollowKey.ends {r} (h : FollowKey r) : ∀ c, r.head? = some c → EndChar c := by
  intro c hc
  rcases h c hc with h | h | h
  · exact .inl h
  · exact .inr (.inl h)
  · exact .inr (.inr (.inl h))

theorem FollowKey.ne {r} (h : FollowKey r) {d : Char} (hd : 32 < d.toNat ∧ d.toNat < 128 ∧ d.toNat ≠ 47 ∧ d.toNat ≠ 58) :
    r.head? ≠ some d := by
  intro h'
  rcases h d h' with h | rfl | rfl
  · unfold White at h
    omega
  · exact hd.2.2.1 rfl
  · exact hd.2.2.2 rfl

theorem identifier_app (hu : u.Sound) {t r} (a b : Bool) (ht : IdStart u t) (hr : IdParts u r) :
    ∃ i, ∀ rest, FollowKey rest → identifierP u ((t ++ (r ++ ((if a then ['!'] else []) ++ if b then ['?'] else []))) ++ rest) =
      some ([.mk .identifier (t ++ (r ++ ((if a then ['!'] else []) ++ if b then ['?'] else []))) i], rest) := by
  obtain ⟨p1, h1⟩ := identStart_app hu ht
  obtain ⟨p2, h2⟩ := identParts_app hu hr
  refine ⟨p1 ++ (p2 ++ ([] ++ [])), ?_⟩
  intro rest hf
  have he : ∀ c, ((if a then ['!'] else []) ++ ((if b then ['?'] else []) ++ rest)).head? = some c → EndChar c := by
    intro c hc
    cases a <;> cases b <;> simp at hc
    · exact hf.ends c hc
    · subst hc; simp [EndChar]
    · subst hc; simp [EndChar]
    · subst hc; simp [EndChar]
  have h3 : opt (lit ['!']) ((if a then ['!'] else []) ++ ((if b then ['?'] else []) ++ rest)) =
      some ([], (if b then ['?'] else []) ++ rest) := by
    cases a with
    | true => exact opt_some (lit_app ['!'] _)
    | false =>
      apply opt_none
      apply lit_head
      cases b with
      | true => simp
      | false => exact hf.ne (by decide)
  have h4 : opt (lit ['?']) ((if b then ['?'] else []) ++ rest) = some ([], rest) := by
    cases b with
    | true => exact opt_some (lit_app ['?'] _)
    | false => exact opt_none (lit_head (hf.ne (by decide)))
  have e : (t ++ (r ++ ((if a then ['!'] else []) ++ if b then ['?'] else []))) ++ rest =
      t ++ (r ++ ((if a then ['!'] else []) ++ ((if b then ['?'] else []) ++ rest))) := by simp
  have h5 := seq_some (h1 _) (seq_some (h2 _ he) (seq_some h3 h4))
  rw [← e] at h5
  exact rule_some h5

theorem identifier_inv {s z r} (h : identifierP u s = some (z, r)) :
    ∃ t i, s = t ++ r ∧ Key u t t ∧ z = [.mk .identifier t i] := by
  obtain ⟨x, h1, hz⟩ := rule_inv h
  obtain ⟨x, r1, y, h2, h3, rfl⟩ := seq_inv h1
  obtain ⟨t1, rfl, -, ht1⟩ := identStart_inv h2
  obtain ⟨x', r2, y, h4, h5, rfl⟩ := seq_inv h3
  obtain ⟨t2, rfl, ht2⟩ := identParts_inv _ _ _ h4
  obtain ⟨x'', r3, y, h6, h7, rfl⟩ := seq_inv h5
  have ha : ∃ a : Bool, r2 = (if a then ['!'] else []) ++ r3 := by
    rcases opt_inv h6 with h | ⟨-, -, rfl⟩
    · obtain ⟨-, rfl⟩ := lit_inv h
      exact ⟨true, rfl⟩
    · exact ⟨false, rfl⟩
  have hb : ∃ b : Bool, r3 = (if b then ['?'] else []) ++ r := by
    rcases opt_inv h7 with h | ⟨-, -, rfl⟩
    · obtain ⟨-, rfl⟩ := lit_inv h
      exact ⟨true, rfl⟩
    · exact ⟨false, rfl⟩
  obtain ⟨a, rfl⟩ := ha
  obtain ⟨b, rfl⟩ := hb
  have e : t1 ++ (t2 ++ ((if a then ['!'] else []) ++ ((if b then ['?'] else []) ++ r))) =
    (t1 ++ (t2 ++ ((if a then ['!'] else []) ++ if b then ['?'] else []))) ++ r := by simp
  exact ⟨_, _, e, .ident a b ht1 ht2, hz _ e⟩

theorem key_ne {t name} (h : Key u t name) : t ≠ [] := by
  cases h with
  | ident a b h1 h2 => cases h1 <;> simp
  | string => simp

theorem key_inv {s z r} (h : keyP u s = some (z, r)) :
    ∃ t name p, s = t ++ r ∧ t ≠ [] ∧ Key u t name ∧ z = [p] ∧ keyName p = .ok name := by
  rcases alt_inv h with h | ⟨-, h⟩
  · obtain ⟨t, i, rfl, hk, rfl⟩ := identifier_inv h
    exact ⟨t, t, _, rfl, key_ne hk, hk, rfl, rfl⟩
  · obtain ⟨q, t, o, i, hq, ht, -, rfl, rfl⟩ := string_inv h
    refine ⟨_, t, _, rfl, by simp, .string hq ht, rfl, ?_⟩
    simp [keyName]

theorem key_app (hu : u.Sound) {t name} (h : Key u t name) :
    ∃ p, keyName p = .ok name ∧ ∀ rest, FollowKey rest → keyP u (t ++ rest) = some ([p], rest) := by
  cases h with
  | ident a b h1 h2 =>
    obtain ⟨i, hi⟩ := identifier_app hu a b h1 h2
    exact ⟨_, rfl, fun rest hf => alt_left (hi rest hf)⟩
  | @string q t o hq ht =>
    obtain ⟨i, -, hi⟩ := string_app hq ht
    refine ⟨.mk .string (q :: (name ++ [q])) i, by simp [keyName], ?_⟩
    intro rest _
    have e : (q :: (name ++ [q])) ++ rest = q :: (name ++ q :: rest) := by simp
    rw [e]
    unfold keyP
    rw [alt_right]
    · exact hi rest
    · refine rule_none (seq_none (identStart_none hu ?_))
      intro c hc
      simp at hc
      subst hc
      rcases hq with rfl | rfl <;> simp [EndChar]

end

end Verif.Json5
