import Verif.Lemmas.Json5Val
/-!
# The parser and the grammar agree
-/
namespace Verif.Json5
open Source (JVal)
open Number (DecInt Lit Body Fractional signed denotes exponent IsDigit IsHexDigit signText RustFloat)

variable {u : Uni} {pf : List Char → Option UInt64} {fromU32 : Nat → UInt64}

theorem arrayP_eq (value : P) : arrayP value = bracket .array '[' ']' value := rfl
theorem objectP_eq (value : P) : objectP u value = bracket .object '{' '}' (pairP u value) := rfl

theorem str_eq_cons (s : String) (c : Char) (t : List Char) (h : s.toList = c :: t) {l : List Char} (hl : l.head? ≠ some c) :
    lit s.toList l = none := by
  rw [h]
  exact lit_head hl

/-! ## Numbers -/

theorem readNumber_no_panic (s : List Char) : Number.readNumber pf fromU32 s ≠ .panic := by
  unfold Number.readNumber
  split
  · unfold Number.parseInteger
    split
    · split <;> simp [Res.map]
    · split <;> simp [Res.map]
  · unfold Number.parseNumber
    split
    · simp [Res.map]
    split
    · simp [Res.map]
    split
    · simp [Res.map]
    split
    · split <;> simp [Res.map]
    split
    · split <;> simp [Res.map]
    · simp [Res.map]

theorem readNum_no_panic (s : List Char) : readNum pf fromU32 s ≠ .panic := by
  unfold readNum
  have := readNumber_no_panic (pf := pf) (fromU32 := fromU32) s
  cases h : Number.readNumber pf fromU32 s with
  | ok x => simp [Res.map]
  | err => simp [Res.map]
  | panic => exact absurd h this

theorem readNum_value (hpf : ∀ s, (pf s).isSome ↔ RustFloat s) {l : Lit} (hl : l.Wf) {v} (h : readNum pf fromU32 l.text = .ok v) :
    Value u pf l.text v := by
  unfold readNum at h
  rcases Number.lit_cases l with ⟨s, big, ds, rfl⟩ | ⟨s, i, rfl⟩ | hf | hw
  · cases s with
    | none =>
      rw [Number.C24_hex pf fromU32 big ds hl] at h
      by_cases hd : denotes 16 ds < 2 ^ 32
      · rw [if_pos hd] at h
        cases h
        exact .hex hl.1 hl.2 hd
      · rw [if_neg hd] at h
        cases h
    | some b =>
      rw [Number.C24_signed_hex pf fromU32 (fun s hs => (hpf s).1 hs) b big ds hl] at h
      cases h
  · by_cases hd : Number.InI64 (signed s (denotes 10 i))
    · rw [(Number.C24_int pf fromU32 s i hl).1 hd] at h
      cases h
      exact .int hl hd.1 hd.2
    · rw [(Number.C24_int pf fromU32 s i hl).2 hd] at h
      cases h
  · obtain ⟨b, hb, hr⟩ := Number.C24_fractional pf fromU32 (fun s hs => (hpf s).2 hs) l hf hl
    rw [hr] at h
    by_cases hd : Number.isFinite b = true
    · rw [if_pos hd] at h
      cases h
      exact .float hf hl hb ((Number.isFinite_iff b).1 hd)
    · rw [if_neg hd] at h
      cases h
  · have : readNum pf fromU32 l.text = .err := by
      obtain ⟨s, b⟩ := l
      unfold readNum
      have hb : b = .infinity ∨ b = .nan := by simpa using hw
      rw [Number.C24_words pf fromU32 s b hb]
      rfl
    unfold readNum at this
    rw [this] at h
    cases h

/-! ## What the parser takes is in the grammar -/

/-- a pair stands for a value of the grammar, if it stands for one -/
def Good (u : Uni) (pf : List Char → Option UInt64) (fromU32 : Nat → UInt64) (t : List Char) (p : Pair) : Prop :=
  deserialize pf fromU32 p ≠ .panic ∧ ∀ v, deserialize pf fromU32 p = .ok v → Value u pf t v

/-- an element of an array -/
def GoodItem (u : Uni) (pf : List Char → Option UInt64) (fromU32 : Nat → UInt64) (t : List Char) (ps : List Pair) : Prop :=
  ∃ p, ps = [p] ∧ Good u pf fromU32 t p

/-- a member of an object -/
def GoodMember (u : Uni) (pf : List Char → Option UInt64) (fromU32 : Nat → UInt64) (t : List Char) (ps : List Pair) : Prop :=
  ∃ k p name, ps = [k, p] ∧ keyName k = .ok name ∧ deserialize pf fromU32 p ≠ .panic ∧
    ∀ v, deserialize pf fromU32 p = .ok v → Member u pf t (String.ofList name) v

theorem goodTail {t ps} (h : GTail (GoodItem u pf fromU32) ']' t ps) :
    getSeq pf fromU32 ps ≠ .panic ∧ ∀ vs, getSeq pf fromU32 ps = .ok vs → Tail u pf t vs := by
  induction h with
  | close hg =>
    refine ⟨by simp [getSeq], ?_⟩
    intro vs hv
    cases hv
    exact .close hg
  | comma hg hg' =>
    refine ⟨by simp [getSeq], ?_⟩
    intro vs hv
    cases hv
    exact .comma hg hg'
  | more hg hg' ht _ ih =>
    obtain ⟨p, rfl, h1, h2⟩ := ht
    simp only [List.cons_append, List.nil_append, getSeq]
    cases hd : deserialize pf fromU32 p with
    | panic => exact absurd hd h1
    | err => simp [Res.bind]
    | ok v =>
      simp only [Res.bind]
      rename_i qs _
      cases hq : getSeq pf fromU32 qs with
      | panic => exact absurd hq ih.1
      | err => simp [Res.map]
      | ok vs =>
        refine ⟨by simp [Res.map], ?_⟩
        intro ws hw
        cases hw
        exact .more hg hg' (h2 v hd) (ih.2 vs hq)

theorem goodMembers {t ps} (h : GTail (GoodMember u pf fromU32) '}' t ps) : ∀ acc,
    getMap pf fromU32 acc ps ≠ .panic ∧ ∀ m, getMap pf fromU32 acc ps = .ok m → (acc.map Prod.fst).Nodup →
      ∃ ms, m = acc ++ ms ∧ MTail u pf t ms ∧ (m.map Prod.fst).Nodup := by
  induction h with
  | close hg =>
    intro acc
    refine ⟨by simp [getMap], ?_⟩
    intro m hm hn
    cases hm
    exact ⟨[], by simp, .close hg, hn⟩
  | comma hg hg' =>
    intro acc
    refine ⟨by simp [getMap], ?_⟩
    intro m hm hn
    cases hm
    exact ⟨[], by simp, .comma hg hg', hn⟩
  | more hg hg' ht _ ih =>
    intro acc
    obtain ⟨k, p, name, rfl, hk, h1, h2⟩ := ht
    simp only [List.cons_append, List.nil_append, getMap, hk, Res.bind]
    cases hd : deserialize pf fromU32 p with
    | panic => exact absurd hd h1
    | err => simp
    | ok v =>
      simp only
      by_cases hc : (acc.map Prod.fst).contains (String.ofList name) = true
      · rw [if_pos hc]
        simp
      · rw [if_neg hc]
        have := ih (acc ++ [(String.ofList name, v)])
        refine ⟨this.1, ?_⟩
        intro m hm hn
        obtain ⟨ms, rfl, h3, h4⟩ := this.2 m hm (by
          rw [List.map_append, List.nodup_append]
          refine ⟨hn, by simp, ?_⟩
          rintro a ha b hb rfl
          simp only [List.map_cons, List.map_nil, List.mem_singleton] at hb
          subst hb
          exact hc (List.contains_iff_mem.2 ha))
        exact ⟨(String.ofList name, v) :: ms, by simp, .more hg hg' (h2 v hd) h3, h4⟩

theorem goodArray {t ps} (h : Bracket (GoodItem u pf fromU32) '[' ']' t ps) : Good u pf fromU32 t (.mk .array t ps) := by
  unfold Good
  simp only [deserialize]
  cases h with
  | empty hg =>
    refine ⟨by simp [getSeq, Res.map], ?_⟩
    intro v hv
    cases hv
    exact .array0 hg
  | @items g t ps r qs hg ht hr =>
    obtain ⟨p, rfl, h1, h2⟩ := ht
    obtain ⟨h3, h4⟩ := goodTail hr
    simp only [List.cons_append, List.nil_append, getSeq]
    cases hd : deserialize pf fromU32 p with
    | panic => exact absurd hd h1
    | err => simp [Res.bind, Res.map]
    | ok v =>
      simp only [Res.bind]
      cases hq : getSeq pf fromU32 qs with
      | panic => exact absurd hq h3
      | err => simp [Res.map]
      | ok vs =>
        refine ⟨by simp [Res.map], ?_⟩
        intro w hw
        cases hw
        exact .array hg (h2 v hd) (h4 vs hq)

theorem goodObject {t ps} (h : Bracket (GoodMember u pf fromU32) '{' '}' t ps) : Good u pf fromU32 t (.mk .object t ps) := by
  unfold Good
  simp only [deserialize]
  cases h with
  | empty hg =>
    refine ⟨by simp [getMap, Res.map], ?_⟩
    intro v hv
    cases hv
    exact .object0 hg
  | @items g t ps r qs hg ht hr =>
    obtain ⟨k, p, name, rfl, hk, h1, h2⟩ := ht
    simp only [List.cons_append, List.nil_append, getMap, hk, Res.bind]
    cases hd : deserialize pf fromU32 p with
    | panic => exact absurd hd h1
    | err => simp [Res.map]
    | ok v =>
      simp only [List.map_nil, List.contains_nil, Bool.false_eq_true, if_false]
      obtain ⟨h3, h4⟩ := goodMembers hr [(String.ofList name, v)]
      cases hq : getMap pf fromU32 [(String.ofList name, v)] qs with
      | panic => exact absurd hq h3
      | err => simp [Res.map]
      | ok m =>
        refine ⟨by simp [Res.map], ?_⟩
        intro w hw
        cases hw
        obtain ⟨ms, rfl, h5, h6⟩ := h4 m hq (by simp)
        exact .object hg (h2 v hd) h5 h6

theorem word_inv {n : Rule} {w s : List Char} {z r} (h : atomic n (lit w) s = some (z, r)) : s = w ++ r ∧ z = [.mk n w []] := by
  obtain ⟨x, h1, hz⟩ := atomic_inv h
  obtain ⟨-, rfl⟩ := lit_inv h1
  exact ⟨rfl, hz w rfl⟩

theorem pair_inv {value : P} (hv : ∀ s ps r, value s = some (ps, r) → ∃ t, s = t ++ r ∧ t ≠ [] ∧ GoodItem u pf fromU32 t ps) :
    ∀ s ps r, pairP u value s = some (ps, r) → ∃ t, s = t ++ r ∧ t ≠ [] ∧ GoodMember u pf fromU32 t ps := by
  intro s ps r h
  obtain ⟨x, r1, r2, y, h1, h2, h3, rfl⟩ := nseq_inv h
  obtain ⟨x', r3, r4, y, h4, h5, h6, rfl⟩ := nseq_inv h3
  obtain ⟨k, name, p, rfl, h0, hk, rfl, hn⟩ := key_inv h1
  obtain ⟨rfl, rfl⟩ := lit_inv h4
  obtain ⟨t, rfl, h0', p', rfl, hg1, hg2⟩ := hv _ _ _ h6
  obtain ⟨-, g', rfl, hg'⟩ := skip_gap_inv h5 (by simp [h0'])
  obtain ⟨-, g, rfl, hg⟩ := skip_gap_inv h2 (by simp)
  refine ⟨k ++ (g ++ ':' :: (g' ++ t)), by simp, by simp [h0], p, p', name, rfl, hn, hg1, ?_⟩
  intro v hd
  exact .mk hk hg hg' (hg2 v hd)

theorem shrinks_of {a : P} {R : List Char → List Pair → Prop}
    (h : ∀ s ps r, a s = some (ps, r) → ∃ t, s = t ++ r ∧ t ≠ [] ∧ R t ps) : Shrinks a := by
  intro s x r h1
  obtain ⟨t, rfl, -⟩ := h _ _ _ h1
  simp

theorem value_inv (hpf : ∀ s, (pf s).isSome ↔ RustFloat s) : ∀ n s ps r, valueP u n s = some (ps, r) →
    ∃ t, s = t ++ r ∧ t ≠ [] ∧ GoodItem u pf fromU32 t ps := by
  intro n
  induction n with
  | zero =>
    intro s ps r h
    cases h
  | succ n ih =>
    intro s ps r h
    unfold valueP at h
    rcases alt_inv h with h | ⟨-, h⟩
    · obtain ⟨rfl, rfl⟩ := word_inv h
      refine ⟨_, rfl, by decide, _, rfl, by simp [deserialize], ?_⟩
      intro v hv
      cases hv
      exact .null
    rcases alt_inv h with h | ⟨-, h⟩
    · obtain ⟨rfl, rfl⟩ := word_inv h
      refine ⟨_, rfl, by decide, _, rfl, by simp [deserialize], ?_⟩
      intro v hv
      cases hv
      exact .undef
    rcases alt_inv h with h | ⟨-, h⟩
    · obtain ⟨x, h1, hz⟩ := atomic_inv h
      rcases alt_inv h1 with h1 | ⟨-, h1⟩
      · obtain ⟨-, rfl⟩ := lit_inv h1
        rw [hz _ rfl]
        have e : deserialize pf fromU32 (.mk .boolean "true".toList []) = .ok (.bool true) := by
          simp only [deserialize]; rfl
        refine ⟨_, rfl, by decide, _, rfl, by rw [e]; simp, ?_⟩
        intro v hv
        rw [e] at hv
        cases hv
        exact .tru
      · obtain ⟨-, rfl⟩ := lit_inv h1
        rw [hz _ rfl]
        have e : deserialize pf fromU32 (.mk .boolean "false".toList []) = .ok (.bool false) := by
          simp only [deserialize]; rfl
        refine ⟨_, rfl, by decide, _, rfl, by rw [e]; simp, ?_⟩
        intro v hv
        rw [e] at hv
        cases hv
        exact .fls
    rcases alt_inv h with h | ⟨-, h⟩
    · obtain ⟨q, t, o, i, hq, ht, hd, rfl, rfl⟩ := string_inv h
      have e : deserialize pf fromU32 (.mk .string (q :: (t ++ [q])) i) = (strRes o).map fun s => .string (String.ofList s) := by
        simp only [deserialize, hd.res]
      refine ⟨_, rfl, by simp, _, rfl, ?_, ?_⟩
      · rw [e]
        cases o <;> simp [strRes, Res.map]
      · intro v hv
        rw [e] at hv
        cases o with
        | none => cases hv
        | some x =>
          cases hv
          exact .string hq ht
    rcases alt_inv h with h | ⟨-, h⟩
    · obtain ⟨l, hl, rfl, rfl⟩ := number_inv h
      refine ⟨_, rfl, ?_, _, rfl, ?_, ?_⟩
      · intro h0
        by_cases h1 : l.body = .infinity
        · have : l.text = signText l.sign ++ "Infinity".toList := by unfold Lit.text; rw [h1]; rfl
          rw [this] at h0
          simp at h0
        by_cases h2 : l.body = .nan
        · have : l.text = signText l.sign ++ "NaN".toList := by unfold Lit.text; rw [h2]; rfl
          rw [this] at h0
          simp at h0
        obtain ⟨c, t, hc, -⟩ := body_head hl h1 h2
        unfold Lit.text at h0
        rw [hc] at h0
        simp at h0
      · simp only [deserialize]
        exact readNum_no_panic _
      · intro v hv
        simp only [deserialize] at hv
        exact readNum_value hpf hl hv
    rcases alt_inv h with h | ⟨-, h⟩
    · have hp := pair_inv (u := u) ih
      rw [objectP_eq] at h
      obtain ⟨t, ps, rfl, h0, rfl, hb⟩ := bracket_inv (shrinks_of hp) hp h
      exact ⟨t, rfl, h0, _, rfl, goodObject hb⟩
    · rw [arrayP_eq] at h
      obtain ⟨t, ps, rfl, h0, rfl, hb⟩ := bracket_inv (shrinks_of ih) ih h
      exact ⟨t, rfl, h0, _, rfl, goodArray hb⟩

/-! ## The parser takes what is in the grammar -/

theorem lit_text_head {l : Lit} (hl : l.Wf) :
    ∃ c t, l.text = c :: t ∧ (IsDigit c ∨ c = '.' ∨ c = '+' ∨ c = '-' ∨ c = 'I' ∨ c = 'N') := by
  obtain ⟨s, b⟩ := l
  cases s with
  | some x => cases x <;> exact ⟨_, _, rfl, by simp⟩
  | none =>
    by_cases h1 : b = .infinity
    · subst h1
      exact ⟨'I', "nfinity".toList, rfl, by simp⟩
    by_cases h2 : b = .nan
    · subst h2
      exact ⟨'N', "aN".toList, rfl, by simp⟩
    obtain ⟨c, t, ht, hc⟩ := body_head hl h1 h2
    exact ⟨c, t, ht, by rcases hc with h | h <;> simp [h]⟩

theorem number_none {s : List Char} {c : Char} (hs : s.head? = some c)
    (h : ¬ (IsDigit c ∨ c = '.' ∨ c = '+' ∨ c = '-' ∨ c = 'I' ∨ c = 'N')) : numberP s = none := by
  cases hn : numberP s with
  | none => rfl
  | some p =>
    obtain ⟨z, r⟩ := p
    obtain ⟨l, hl, rfl, -⟩ := number_inv hn
    obtain ⟨d, t, ht, hd⟩ := lit_text_head hl
    rw [ht] at hs
    simp at hs
    subst hs
    exact absurd hd h

theorem null_none {s : List Char} (h : s.head? ≠ some 'n') : nullP s = none :=
  atomic_none (str_eq_cons "null" 'n' _ rfl h)
theorem undef_none {s : List Char} (h : s.head? ≠ some 'u') : undefinedP s = none :=
  atomic_none (str_eq_cons "undefined" 'u' _ rfl h)
theorem bool_none {s : List Char} (h : s.head? ≠ some 't') (h' : s.head? ≠ some 'f') : booleanP s = none :=
  atomic_none (alt_none (str_eq_cons "true" 't' _ rfl h) (str_eq_cons "false" 'f' _ rfl h'))

/-- the first characters of values -/
def VStart (c : Char) : Prop :=
  IsDigit c ∨ c = '.' ∨ c = '+' ∨ c = '-' ∨ c = 'n' ∨ c = 'u' ∨ c = 't' ∨ c = 'f' ∨ c = '"' ∨ c = '\'' ∨ c = '[' ∨ c = '{'

theorem value_head {t v} (h : Value u pf t v) : ∃ c t', t = c :: t' ∧ VStart c := by
  have hnum : ∀ {l : Lit}, l.Wf → l.body ≠ .infinity → l.body ≠ .nan → ∃ c t', l.text = c :: t' ∧ VStart c := by
    intro l hl h1 h2
    obtain ⟨s, b⟩ := l
    cases s with
    | some x => cases x <;> exact ⟨_, _, rfl, by simp [VStart]⟩
    | none =>
      obtain ⟨c, t, ht, hc⟩ := body_head hl h1 h2
      exact ⟨c, t, ht, by rcases hc with h | h <;> simp [h, VStart]⟩
  cases h with
  | null => exact ⟨'n', _, rfl, by simp [VStart]⟩
  | undef => exact ⟨'u', _, rfl, by simp [VStart]⟩
  | tru => exact ⟨'t', _, rfl, by simp [VStart]⟩
  | fls => exact ⟨'f', _, rfl, by simp [VStart]⟩
  | string hq _ => exact ⟨_, _, rfl, by rcases hq with rfl | rfl <;> simp [VStart]⟩
  | int h _ _ => exact hnum (l := ⟨_, .int _⟩) h (by simp) (by simp)
  | hex h1 h2 _ => exact hnum (l := ⟨none, .hex _ _⟩) ⟨h1, h2⟩ (by simp) (by simp)
  | float h1 h2 _ _ => exact hnum h2 (by cases h1 <;> simp) (by cases h1 <;> simp)
  | array0 _ => exact ⟨'[', _, rfl, by simp [VStart]⟩
  | array _ _ _ => exact ⟨'[', _, rfl, by simp [VStart]⟩
  | object0 _ => exact ⟨'{', _, rfl, by simp [VStart]⟩
  | object _ _ _ _ => exact ⟨'{', _, rfl, by simp [VStart]⟩

theorem vstart_ok {c : Char} (h : VStart c) : ¬ White c ∧ c ≠ '/' := by
  rcases h with h | rfl | rfl | rfl | rfl | rfl | rfl | rfl | rfl | rfl | rfl | rfl
  · refine ⟨?_, digit_ne h (by decide)⟩
    unfold IsDigit at h
    unfold White
    omega
  all_goals exact ⟨not_white (by decide), by decide⟩

theorem value_close (n : Nat) (r : List Char) : valueP u n (']' :: r) = none := by
  cases n with
  | zero => rfl
  | succ n =>
    unfold valueP
    refine alt_none (null_none (by simp)) (alt_none (undef_none (by simp)) (alt_none (bool_none (by simp) (by simp))
      (alt_none (string_none (by simp) (by simp)) (alt_none (number_none rfl (by decide)) (alt_none ?_ ?_)))))
    · exact rule_none (alt_none (nseq_none (lit_head (by simp))) (nseq_none (lit_head (by simp))))
    · exact rule_none (alt_none (nseq_none (lit_head (by simp))) (nseq_none (lit_head (by simp))))

theorem pair_close (hu : u.Sound) (value : P) (r : List Char) : pairP u value ('}' :: r) = none := by
  refine nseq_none (alt_none (rule_none (seq_none (identStart_none hu ?_))) (string_none (by simp) (by simp)))
  intro c hc
  simp at hc
  subst hc
  simp [EndChar]

theorem key_head (hu : u.Sound) {k name} (h : Key u k name) : ∃ c t, k = c :: t ∧ ¬ White c ∧ c ≠ '/' := by
  cases h with
  | ident a b h1 _ =>
    cases h1 with
    | @letter c h =>
      refine ⟨c, _, rfl, ?_⟩
      rcases h with h | rfl | rfl | rfl
      · refine ⟨(hu c (.inl h)).1, ?_⟩
        rintro rfl
        have := hu.ascii (.inl h) (by decide)
        revert this
        decide
      all_goals exact ⟨not_white (by decide), by decide⟩
    | unicode _ _ _ _ => exact ⟨'\\', _, rfl, not_white (by decide), by decide⟩
  | @string q t o hq _ => exact ⟨q, _, rfl, by rcases hq with rfl | rfl <;> exact ⟨not_white (by decide), by decide⟩⟩

theorem member_takes (hu : u.Sound) {value : P} {k name g g' t : List Char} {p : Pair} (hk : Key u k name) (hg : Gap g) (hg' : Gap g')
    (ht : Takes value t [p]) : ∃ q, keyName q = .ok name ∧ Takes (pairP u value) (k ++ (g ++ ':' :: (g' ++ t))) [q, p] := by
  obtain ⟨q, hq, hq'⟩ := key_app hu hk
  refine ⟨q, hq, ?_, ?_⟩
  · obtain ⟨c, k', rfl, hc⟩ := key_head hu hk
    exact ⟨c, _, rfl, hc⟩
  · intro rest hr
    have e : (k ++ (g ++ ':' :: (g' ++ t))) ++ rest = k ++ (g ++ ':' :: (g' ++ (t ++ rest))) := by simp
    rw [e]
    have hf : FollowKey (g ++ ':' :: (g' ++ (t ++ rest))) := by
      intro c hc
      cases g with
      | nil =>
        simp at hc
        exact .inr (.inr hc.symm)
      | cons d g =>
        rcases gap_head hg c hc with h | h
        · exact .inl h
        · exact .inr (.inl h)
    refine nseq_some (x := [q]) (y := [p]) (hq' _ hf) (skip_gap_char hg (by decide) (by decide)) ?_
    exact nseq_some (x := []) (y := [p]) (lit_app [':'] _) (skip_gap_stop hg' (ht.head rest)) (ht.2 rest hr)

/-- the values of up to `m` characters are read with `value` -/
def Reads (u : Uni) (pf : List Char → Option UInt64) (fromU32 : Nat → UInt64) (m : Nat) (value : P) : Prop :=
  ∀ t v, t.length ≤ m → Value u pf t v → ∃ p, deserialize pf fromU32 p = .ok v ∧ Takes value t [p]

theorem tail_conv {m : Nat} {value : P} (hv : Reads u pf fromU32 m value) : ∀ k r vs, r.length ≤ k → k ≤ m → Tail u pf r vs →
    ∃ ps, GTail (Takes value) ']' r ps ∧ getSeq pf fromU32 ps = .ok vs := by
  intro k
  induction k with
  | zero =>
    intro r vs hk _ h
    cases h <;> simp at hk
  | succ k ih =>
    intro r vs hk hm h
    cases h with
    | close hg => exact ⟨[], .close hg, rfl⟩
    | comma hg hg' => exact ⟨[], .comma hg hg', rfl⟩
    | @more g g' t v r vs hg hg' ht hr =>
      simp only [List.length_append, List.length_cons] at hk
      obtain ⟨p, hp, htk⟩ := hv t v (by omega) ht
      obtain ⟨ps, hps, hs⟩ := ih r vs (by omega) (by omega) hr
      exact ⟨[p] ++ ps, .more hg hg' htk hps, by simp [getSeq, hp, hs, Res.bind, Res.map]⟩

theorem mtail_conv (hu : u.Sound) {m : Nat} {value : P} (hv : Reads u pf fromU32 m value) :
    ∀ k r ms, r.length ≤ k → k ≤ m → MTail u pf r ms →
      ∃ ps, GTail (Takes (pairP u value)) '}' r ps ∧
        ∀ acc, ((acc ++ ms).map Prod.fst).Nodup → getMap pf fromU32 acc ps = .ok (acc ++ ms) := by
  intro k
  induction k with
  | zero =>
    intro r vs hk _ h
    cases h <;> simp at hk
  | succ k ih =>
    intro r vs hk hm h
    cases h with
    | close hg => exact ⟨[], .close hg, fun acc _ => by simp [getMap]⟩
    | comma hg hg' => exact ⟨[], .comma hg hg', fun acc _ => by simp [getMap]⟩
    | @more g g' t key v r ms hg hg' ht hr =>
      simp only [List.length_append, List.length_cons] at hk
      cases ht with
      | @mk k' name g1 g2 t v hk' hg1 hg2 ht =>
        simp only [List.length_append, List.length_cons] at hk
        obtain ⟨p, hp, htk⟩ := hv t v (by omega) ht
        obtain ⟨ps, hps, hs⟩ := ih r ms (by omega) (by omega) hr
        obtain ⟨q, hq, htq⟩ := member_takes hu hk' hg1 hg2 htk
        refine ⟨[q, p] ++ ps, .more hg hg' htq hps, ?_⟩
        intro acc hn
        have hc : ¬ (acc.map Prod.fst).contains (String.ofList name) = true := by
          rw [List.contains_iff_mem]
          intro hmem
          rw [List.map_append, List.nodup_append] at hn
          exact hn.2.2 _ hmem _ (by simp) rfl
        simp only [List.cons_append, List.nil_append, getMap, hq, hp, Res.bind]
        rw [if_neg hc, hs _ (by simpa using hn)]
        simp

theorem vstart_takes {n : Nat} {t v} (h : Value u pf t v) {ps} (hr : ∀ rest, Follow rest → valueP u n (t ++ rest) = some (ps, rest)) :
    Takes (valueP u n) t ps := by
  refine ⟨?_, hr⟩
  obtain ⟨c, t', rfl, hc⟩ := value_head h
  exact ⟨c, t', rfl, vstart_ok hc⟩

theorem number_takes {l : Lit} (hl : l.Wf) (h1 : l.body ≠ .infinity) (h2 : l.body ≠ .nan) {v} (h : Value u pf l.text v) (n : Nat) :
    Takes (valueP u (n + 1)) l.text [.mk .number l.text []] := by
  apply vstart_takes h
  intro rest hf
  obtain ⟨c, t, ht, hc⟩ := lit_text_head hl
  have hne : ∀ d : Char, ¬ (IsDigit d ∨ d = '.' ∨ d = '+' ∨ d = '-' ∨ d = 'I' ∨ d = 'N') → (l.text ++ rest).head? ≠ some d := by
    intro d hd h
    rw [ht] at h
    simp at h
    subst h
    exact hd hc
  unfold valueP
  rw [alt_right (null_none (hne _ (by decide))), alt_right (undef_none (hne _ (by decide))),
    alt_right (bool_none (hne _ (by decide)) (hne _ (by decide))), alt_right (string_none (hne _ (by decide)) (hne _ (by decide)))]
  exact alt_left (number_app hl h1 h2 hf)

theorem readNum_int {s i} (h : DecInt i) (h1 : -(2 ^ 63) ≤ signed s (denotes 10 i)) (h2 : signed s (denotes 10 i) < 2 ^ 63) :
    readNum pf fromU32 (Lit.text ⟨s, .int i⟩) = .ok (.int (signed s (denotes 10 i))) := by
  unfold readNum
  rw [(Number.C24_int pf fromU32 s i h).1 ⟨h1, h2⟩]
  rfl

theorem readNum_hex {big ds} (h1 : ds ≠ []) (h2 : ∀ x ∈ ds, IsHexDigit x) (h3 : denotes 16 ds < 2 ^ 32) :
    readNum pf fromU32 (Lit.text ⟨none, .hex big ds⟩) = .ok (.int (denotes 16 ds)) := by
  unfold readNum
  rw [Number.C24_hex pf fromU32 big ds ⟨h1, h2⟩, if_pos h3]
  rfl

theorem readNum_float (hpf : ∀ s, (pf s).isSome ↔ RustFloat s) {l : Lit} {b : UInt64} (h1 : Fractional l) (h2 : l.Wf) (h3 : pf l.text = some b) (h4 : exponent b ≠ 2047) :
    readNum pf fromU32 l.text = .ok (.double b.toBitVec) := by
  unfold readNum
  obtain ⟨b', hb, hr⟩ := Number.C24_fractional pf fromU32 (fun s hs => (hpf s).2 hs) l h1 h2
  rw [h3] at hb
  cases hb
  rw [hr, if_pos ((Number.isFinite_iff b).2 h4)]
  rfl

theorem object_step {n : Nat} {t rest : List Char} (ps : List Pair)
    (h : bracket .object '{' '}' (pairP u (valueP u n)) (t ++ rest) = some ([.mk .object t ps], rest)) :
    valueP u (n + 1) (t ++ rest) = some ([.mk .object t ps], rest) := by
  have hh : (t ++ rest).head? = some '{' := by
    obtain ⟨x, h1, -⟩ := rule_inv h
    rcases alt_inv h1 with h1 | ⟨-, h1⟩
    all_goals
      obtain ⟨x, r1, r2, y, h2, -⟩ := nseq_inv h1
      obtain ⟨-, h3⟩ := lit_inv h2
      rw [h3]
      rfl
  unfold valueP
  rw [alt_right (null_none (by simp [hh])), alt_right (undef_none (by simp [hh])), alt_right (bool_none (by simp [hh]) (by simp [hh])),
    alt_right (string_none (by simp [hh]) (by simp [hh])), alt_right (number_none hh (by decide))]
  exact alt_left h

theorem array_step {n : Nat} {t rest : List Char} (ps : List Pair)
    (h : bracket .array '[' ']' (valueP u n) (t ++ rest) = some ([.mk .array t ps], rest)) :
    valueP u (n + 1) (t ++ rest) = some ([.mk .array t ps], rest) := by
  have hh : (t ++ rest).head? = some '[' := by
    obtain ⟨x, h1, -⟩ := rule_inv h
    rcases alt_inv h1 with h1 | ⟨-, h1⟩
    all_goals
      obtain ⟨x, r1, r2, y, h2, -⟩ := nseq_inv h1
      obtain ⟨-, h3⟩ := lit_inv h2
      rw [h3]
      rfl
  unfold valueP
  rw [alt_right (null_none (by simp [hh])), alt_right (undef_none (by simp [hh])), alt_right (bool_none (by simp [hh]) (by simp [hh])),
    alt_right (string_none (by simp [hh]) (by simp [hh])), alt_right (number_none hh (by decide)), alt_right]
  · exact h
  · have : ∀ b, nseq (lit ['{']) b (t ++ rest) = none := fun b => nseq_none (lit_head (by simp [hh]))
    exact rule_none (alt_none (this _) (this _))

theorem reads (hu : u.Sound) (hpf : ∀ s, (pf s).isSome ↔ RustFloat s) : ∀ m, Reads u pf fromU32 m (valueP u m) := by
  intro m
  induction m with
  | zero =>
    intro t v hl h
    obtain ⟨c, t', rfl, -⟩ := value_head h
    simp at hl
  | succ m ih =>
    intro t v hl h
    have hsh : Shrinks (valueP u m) := shrinks_of (value_inv (fromU32 := fromU32) hpf m)
    have hsp : Shrinks (pairP u (valueP u m)) := shrinks_of (pair_inv (u := u) (value_inv (fromU32 := fromU32) hpf m))
    cases h with
    | null =>
      refine ⟨.mk .null "null".toList [], by simp [deserialize], vstart_takes (pf := pf) .null ?_⟩
      intro rest _
      unfold valueP
      exact alt_left (atomic_some (lit_app _ rest))
    | undef =>
      refine ⟨.mk .undefined "undefined".toList [], by simp [deserialize], vstart_takes (pf := pf) .undef ?_⟩
      intro rest _
      unfold valueP
      rw [alt_right (null_none (by simp))]
      exact alt_left (atomic_some (lit_app _ rest))
    | tru =>
      refine ⟨.mk .boolean "true".toList [], by simp only [deserialize]; rfl, vstart_takes (pf := pf) .tru ?_⟩
      intro rest _
      unfold valueP
      rw [alt_right (null_none (by simp)), alt_right (undef_none (by simp))]
      exact alt_left (atomic_some (alt_left (lit_app _ rest)))
    | fls =>
      refine ⟨.mk .boolean "false".toList [], by simp only [deserialize]; rfl, vstart_takes (pf := pf) .fls ?_⟩
      intro rest _
      unfold valueP
      rw [alt_right (null_none (by simp)), alt_right (undef_none (by simp))]
      refine alt_left (atomic_some (x := []) ?_)
      rw [alt_right (str_eq_cons "true" 't' _ rfl (by simp))]
      exact lit_app _ rest
    | @string q t x hq ht =>
      obtain ⟨i, hd, hi⟩ := string_app hq ht
      refine ⟨.mk .string (q :: (t ++ [q])) i, ?_, vstart_takes (pf := pf) (.string hq ht) ?_⟩
      · simp [deserialize, hd.res, strRes, Res.map]
      · intro rest _
        have e : (q :: (t ++ [q])) ++ rest = q :: (t ++ q :: rest) := by simp
        rw [e]
        have hne : ∀ d : Char, ¬ Quote d → (q :: (t ++ q :: rest)).head? ≠ some d := by
          intro d hd h
          simp at h
          subst h
          exact hd hq
        unfold valueP
        rw [alt_right (null_none (hne _ (by unfold Quote; decide))), alt_right (undef_none (hne _ (by unfold Quote; decide))),
          alt_right (bool_none (hne _ (by unfold Quote; decide)) (hne _ (by unfold Quote; decide)))]
        exact alt_left (hi rest)
    | @int s i h1 h2 h3 =>
      refine ⟨.mk .number (Lit.text ⟨s, .int i⟩) [], ?_, number_takes (pf := pf) (l := ⟨s, .int i⟩) h1 (by simp) (by simp) (.int h1 h2 h3) m⟩
      simp only [deserialize]
      exact readNum_int h1 h2 h3
    | @hex big ds h1 h2 h3 =>
      refine ⟨.mk .number (Lit.text ⟨none, .hex big ds⟩) [], ?_,
        number_takes (pf := pf) (l := ⟨none, .hex big ds⟩) ⟨h1, h2⟩ (by simp) (by simp) (.hex h1 h2 h3) m⟩
      simp only [deserialize]
      exact readNum_hex h1 h2 h3
    | @float l b h1 h2 h3 h4 =>
      refine ⟨.mk .number l.text [], ?_, number_takes (pf := pf) h2 (by cases h1 <;> simp) (by cases h1 <;> simp) (.float h1 h2 h3 h4) m⟩
      simp only [deserialize]
      exact readNum_float hpf h1 h2 h3 h4
    | @array0 g hg =>
      refine ⟨.mk .array ('[' :: (g ++ [']'])) [], by simp [deserialize, getSeq, Res.map], vstart_takes (pf := pf) (.array0 hg) ?_⟩
      intro rest _
      exact array_step _ (bracket_app (.inl rfl) hsh (value_close m) (.empty hg) rest)
    | @array g t v r vs hg ht hr =>
      simp only [List.length_append, List.length_cons] at hl
      obtain ⟨p, hp, htk⟩ := ih t v (by omega) ht
      obtain ⟨ps, hps, hs⟩ := tail_conv ih m r vs (by omega) (Nat.le_refl m) hr
      refine ⟨.mk .array ('[' :: (g ++ (t ++ r))) ([p] ++ ps), by simp [deserialize, getSeq, hp, hs, Res.bind, Res.map],
        vstart_takes (pf := pf) (.array hg ht hr) ?_⟩
      intro rest _
      exact array_step _ (bracket_app (.inl rfl) hsh (value_close m) (.items hg htk hps) rest)
    | @object0 g hg =>
      refine ⟨.mk .object ('{' :: (g ++ ['}'])) [], by simp [deserialize, getMap, Res.map], vstart_takes (pf := pf) (.object0 hg) ?_⟩
      intro rest _
      exact object_step _ (bracket_app (.inr rfl) hsp (pair_close hu _) (.empty hg) rest)
    | @object g t key v r ms hg hm hr hn =>
      have hval := Value.object hg hm hr hn
      simp only [List.length_append, List.length_cons] at hl
      cases hm with
      | @mk k' name g1 g2 t v hk' hg1 hg2 ht =>
        simp only [List.length_append, List.length_cons] at hl
        obtain ⟨p, hp, htk⟩ := ih t v (by omega) ht
        obtain ⟨ps, hps, hs⟩ := mtail_conv hu ih m r ms (by omega) (Nat.le_refl m) hr
        obtain ⟨q, hq, htq⟩ := member_takes hu hk' hg1 hg2 htk
        refine ⟨.mk .object ('{' :: (g ++ (k' ++ (g1 ++ ':' :: (g2 ++ t)) ++ r))) ([q, p] ++ ps), ?_, vstart_takes (pf := pf) hval ?_⟩
        · simp only [deserialize, List.cons_append, List.nil_append, getMap, hq, hp, Res.bind, List.map_nil, List.contains_nil,
            Bool.false_eq_true, if_false]
          rw [hs [(String.ofList name, v)] (by simpa using hn)]
          rfl
        · intro rest _
          exact object_step _ (bracket_app (.inr rfl) hsp (pair_close hu _) (.items hg htq hps) rest)

end Verif.Json5
