import Verif.Lemmas.Json5Str
/-!
# Lists of values, arrays and objects in the grammar
-/
namespace Verif.Json5
open Source (JVal)
open Number (DecInt Lit Body Fractional signed denotes exponent IsDigit IsHexDigit signText RustFloat)

theorem gap_head {g : List Char} (h : Gap g) : ∀ c, g.head? = some c → White c ∨ c = '/' := by
  intro c hc
  cases h with
  | nil => cases hc
  | white h _ =>
    simp at hc
    subst hc
    exact .inl h
  | block _ _ =>
    simp at hc
    exact .inr hc.symm
  | line _ _ _ =>
    simp at hc
    exact .inr hc.symm

theorem follow_gap {g r : List Char} (h : Gap g) (hr : Follow r) : Follow (g ++ r) := by
  intro c hc
  cases g with
  | nil => exact hr c hc
  | cons d g =>
    rcases gap_head h c hc with h | h
    · exact .inl h
    · exact .inr (.inl h)

theorem stop_head {s : List Char} (h : ∀ c, s.head? = some c → ¬ White c ∧ c ≠ '/') : Stop s := by
  refine ⟨fun c hc => (h c hc).1, ?_⟩
  have : s.head? ≠ some '/' := fun h' => (h _ h').2 rfl
  exact alt_none (seq_none (lit_head this)) (seq_none (lit_head this))

theorem skip_gap_stop {g r : List Char} (hg : Gap g) (hr : ∀ c, r.head? = some c → ¬ White c ∧ c ≠ '/') : skip (g ++ r) = some ([], r) :=
  (skip_gap hg).trans (skip_stop (stop_head hr))

theorem not_white {d : Char} (h : 32 < d.toNat ∧ d.toNat < 128) : ¬ White d := by
  unfold White
  omega

theorem skip_gap_char {g r : List Char} {c : Char} (hg : Gap g) (h : 32 < c.toNat ∧ c.toNat < 128) (h' : c ≠ '/') :
    skip (g ++ c :: r) = some ([], c :: r) := by
  apply skip_gap_stop hg
  intro d hd
  simp at hd
  subst hd
  exact ⟨not_white h, h'⟩

theorem skip_inv {s x r} (h : skip s = some (x, r)) :
    x = [] ∧ ∃ g, s = g ++ r ∧ (Gap g ∨ (r = [] ∧ GapEnd g)) ∧ skip r = some ([], r) := by
  obtain ⟨g, r', h1, h2, h3, h4⟩ := skip_total s
  rw [h2] at h
  cases h
  exact ⟨rfl, g, h1, h3, skip_stop h4⟩

theorem skip_gap_inv {s x r} (h : skip s = some (x, r)) (h0 : r ≠ []) : x = [] ∧ ∃ g, s = g ++ r ∧ Gap g := by
  obtain ⟨hx, g, hs, hg | ⟨h1, -⟩, -⟩ := skip_inv h
  · exact ⟨hx, g, hs, hg⟩
  · exact absurd h1 h0

theorem nseq_inv {a b : P} {s z r'} (h : nseq a b s = some (z, r')) :
    ∃ x r r1 y, a s = some (x, r) ∧ skip r = some ([], r1) ∧ b r1 = some (y, r') ∧ z = x ++ y := by
  obtain ⟨x, r, y, h1, h2, rfl⟩ := seq_inv h
  obtain ⟨x', r1, y, h3, h4, rfl⟩ := seq_inv h2
  obtain ⟨rfl, -⟩ := skip_inv h3
  exact ⟨x, r, r1, y, h1, h3, h4, rfl⟩

theorem nseq_some {a b : P} {s x r r1 y r'} (h1 : a s = some (x, r)) (h2 : skip r = some ([], r1)) (h3 : b r1 = some (y, r')) :
    nseq a b s = some (x ++ y, r') := seq_some h1 (seq_some (x := []) h2 h3)

theorem nseq_none {a b : P} {s} (h1 : a s = none) : nseq a b s = none := seq_none h1

theorem nseq_none' {a b : P} {s x r r1} (h1 : a s = some (x, r)) (h2 : skip r = some ([], r1)) (h3 : b r1 = none) :
    nseq a b s = none := seq_none' h1 (seq_none' h2 h3)

theorem skip_le {s x r} (h : skip s = some (x, r)) : r.length ≤ s.length := by
  obtain ⟨-, g, rfl, -⟩ := skip_inv h
  simp

/-! ## Lists with commas -/

/-- a comma and an item -/
def commaItem (item : P) : P := nseq (lit [',']) item

/-- the end of the list -/
def closeP (close : Char) : P := nseq (opt (lit [','])) (lit [close])

/-- what follows the first item, with the white space in front -/
def tailP (item : P) (close : Char) : P := seq (star (seq skip (commaItem item))) (seq skip (closeP close))

/-- an item takes at least one character -/
def Shrinks (a : P) : Prop := ∀ s x r, a s = some (x, r) → r.length ≤ s.length

theorem commaItem_prog {item : P} (h : Shrinks item) : Prog (seq skip (commaItem item)) := by
  intro s x r h1
  obtain ⟨x, r1, y, h2, h3, rfl⟩ := seq_inv h1
  obtain ⟨x, r2, r3, y, h4, h5, h6, rfl⟩ := nseq_inv h3
  obtain ⟨-, rfl⟩ := lit_inv h4
  have := skip_le h2
  have := skip_le h5
  have := h _ _ _ h6
  simp at *
  omega

/-- the list as the grammar has it -/
theorem list_eq {item : P} (hi : Shrinks item) (close : Char) (s : List Char) :
    seq skip (nseq (nstar (commaItem item)) (closeP close)) s = tailP item close s := by
  have hp := commaItem_prog hi
  obtain ⟨g, s1, -, hs1, -, hstop⟩ := skip_total s
  have hs1' := skip_stop hstop
  unfold tailP
  cases hx : commaItem item s1 with
  | none =>
    have h1 : star (seq skip (commaItem item)) s = some ([], s) := star_none (seq_none' hs1 hx)
    have h2 : nstar (commaItem item) s1 = some ([], s1) := opt_none (seq_none hx)
    cases hk : closeP close s1 with
    | none => rw [seq_none' hs1 (nseq_none' h2 hs1' hk), seq_none' h1 (seq_none' hs1 hk)]
    | some p =>
      obtain ⟨y, r⟩ := p
      rw [seq_some hs1 (nseq_some h2 hs1' hk), seq_some h1 (seq_some hs1 hk)]
  | some p =>
    obtain ⟨x, r⟩ := p
    obtain ⟨y, r', hy, -⟩ := star_total hp r
    have h1 : star (seq skip (commaItem item)) s = some (x ++ y, r') := by
      have := star_some hp (seq_some hs1 hx) hy
      simpa using this
    have h2 : nstar (commaItem item) s1 = some (x ++ y, r') := opt_some (seq_some hx hy)
    obtain ⟨g', r1, -, hr1, -, -⟩ := skip_total r'
    cases hk : closeP close r1 with
    | none => rw [seq_none' hs1 (nseq_none' h2 hr1 hk), seq_none' h1 (seq_none' hr1 hk)]
    | some p =>
      obtain ⟨z, r⟩ := p
      rw [seq_some hs1 (nseq_some h2 hr1 hk), seq_some h1 (seq_some hr1 hk)]
      simp

/-- what follows the first item -/
inductive GTail (R : List Char → List Pair → Prop) (close : Char) : List Char → List Pair → Prop
  | close {g} : Gap g → GTail R close (g ++ [close]) []
  | comma {g g'} : Gap g → Gap g' → GTail R close (g ++ ',' :: (g' ++ [close])) []
  | more {g g' t ps r qs} : Gap g → Gap g' → R t ps → GTail R close r qs → GTail R close (g ++ ',' :: (g' ++ (t ++ r))) (ps ++ qs)

theorem tail_inv {item : P} {R : List Char → List Pair → Prop} {close : Char} (hi : Shrinks item)
    (hR : ∀ s ps r, item s = some (ps, r) → ∃ t, s = t ++ r ∧ t ≠ [] ∧ R t ps) {s z r}
    (h : tailP item close s = some (z, r)) : ∃ t, s = t ++ r ∧ GTail R close t z := by
  obtain ⟨x, r1, y, h1, h2, rfl⟩ := seq_inv h
  revert h2
  have key : ∀ s x r1, star (seq skip (commaItem item)) s = some (x, r1) →
      ∀ y, seq skip (closeP close) r1 = some (y, r) → ∃ t, s = t ++ r ∧ GTail R close t (x ++ y) := by
    refine star_ind (commaItem_prog hi) ?_ ?_
    · intro s _ y h
      obtain ⟨x, r1, y, h1, h2, rfl⟩ := seq_inv h
      obtain ⟨x', r2, r3, y, h3, h4, h5, rfl⟩ := nseq_inv h2
      obtain ⟨rfl, rfl⟩ := lit_inv h5
      obtain ⟨-, g2, rfl, hg2⟩ := skip_gap_inv h4 (by simp)
      rcases opt_inv h3 with h3 | ⟨-, rfl, rfl⟩
      · obtain ⟨rfl, rfl⟩ := lit_inv h3
        obtain ⟨rfl, g1, rfl, hg1⟩ := skip_gap_inv h1 (by simp)
        exact ⟨g1 ++ ',' :: (g2 ++ [close]), by simp, .comma hg1 hg2⟩
      · obtain ⟨rfl, g1, rfl, hg1⟩ := skip_gap_inv h1 (by simp)
        exact ⟨(g1 ++ g2) ++ [close], by simp, .close (hg1.append hg2)⟩
    · intro s x r0 y r' h _ ih z hz
      obtain ⟨t', rfl, ht'⟩ := ih z hz
      obtain ⟨x, r1, y, h1, h2, rfl⟩ := seq_inv h
      obtain ⟨x', r2, r3, y, h3, h4, h5, rfl⟩ := nseq_inv h2
      obtain ⟨rfl, rfl⟩ := lit_inv h3
      obtain ⟨t, rfl, h0, hR'⟩ := hR _ _ _ h5
      obtain ⟨-, g2, rfl, hg2⟩ := skip_gap_inv h4 (by simp [h0])
      obtain ⟨rfl, g1, rfl, hg1⟩ := skip_gap_inv h1 (by simp)
      refine ⟨g1 ++ ',' :: (g2 ++ (t ++ t')), by simp, ?_⟩
      have := GTail.more (close := close) hg1 hg2 hR' ht'
      simpa using this
  exact fun h2 => key s x r1 h1 y h2

/-- the parser takes the item, whatever follows, and the item does not look like white space -/
def Takes (item : P) (t : List Char) (ps : List Pair) : Prop :=
  (∃ c t', t = c :: t' ∧ ¬ White c ∧ c ≠ '/') ∧ ∀ rest, Follow rest → item (t ++ rest) = some (ps, rest)

theorem Takes.head {item t ps} (h : Takes item t ps) (r : List Char) : ∀ c, (t ++ r).head? = some c → ¬ White c ∧ c ≠ '/' := by
  obtain ⟨⟨c, t', rfl, hc⟩, -⟩ := h
  intro d hd
  simp at hd
  subst hd
  exact hc

theorem gtail_follow {R : List Char → List Pair → Prop} {close : Char} (hc : close = ']' ∨ close = '}') {t ps} (h : GTail R close t ps) (r : List Char) :
    Follow (t ++ r) := by
  cases h with
  | close hg =>
    rw [List.append_assoc]
    apply follow_gap hg
    intro c h
    simp at h
    subst h
    rcases hc with rfl | rfl
    · exact .inr (.inr (.inr (.inl rfl)))
    · exact .inr (.inr (.inr (.inr (.inl rfl))))
  | comma hg _ =>
    rw [List.append_assoc]
    apply follow_gap hg
    intro c h
    simp at h
    exact .inr (.inr (.inl h.symm))
  | more hg _ _ _ =>
    rw [List.append_assoc]
    apply follow_gap hg
    intro c h
    simp at h
    exact .inr (.inr (.inl h.symm))

theorem tail_app {item : P} {close : Char} (hc : close = ']' ∨ close = '}') (hi : Shrinks item)
    (hn : ∀ r, item (close :: r) = none) {t ps} (h : GTail (Takes item) close t ps) :
    ∀ rest, tailP item close (t ++ rest) = some (ps, rest) := by
  have hcl : (32 < close.toNat ∧ close.toNat < 128) ∧ close ≠ '/' ∧ close ≠ ',' := by rcases hc with rfl | rfl <;> decide
  have hcs : ∀ r, skip (close :: r) = some ([], close :: r) := fun r => skip_gap_char (g := []) .nil hcl.1 hcl.2.1
  induction h with
  | close hg =>
    intro rest
    rw [List.append_assoc]
    have h1 := skip_gap_char (r := rest) hg hcl.1 hcl.2.1
    have hh : lit [','] (close :: rest) = none := lit_head (by simpa using hcl.2.2)
    refine seq_some (x := []) (y := []) (star_none (seq_none' h1 (nseq_none hh))) ?_
    exact seq_some (x := []) (y := []) h1 (nseq_some (x := []) (y := []) (opt_none hh) (hcs rest) (lit_app [close] rest))
  | @comma g g' hg hg' =>
    intro rest
    have e : (g ++ ',' :: (g' ++ [close])) ++ rest = g ++ ',' :: (g' ++ close :: rest) := by simp
    rw [e]
    have h1 := skip_gap_char (r := g' ++ close :: rest) (c := ',') hg (by decide) (by decide)
    have h2 := skip_gap_char (r := rest) hg' hcl.1 hcl.2.1
    have h3 : lit [','] (',' :: (g' ++ close :: rest)) = some ([], g' ++ close :: rest) := lit_app [','] _
    refine seq_some (x := []) (y := []) (star_none (seq_none' h1 (nseq_none' h3 h2 (hn rest)))) ?_
    exact seq_some (x := []) (y := []) h1 (nseq_some (x := []) (y := []) (opt_some h3) h2 (lit_app [close] rest))
  | @more g g' t ps r qs hg hg' ht hr ih =>
    intro rest
    have e : (g ++ ',' :: (g' ++ (t ++ r))) ++ rest = g ++ ',' :: (g' ++ (t ++ (r ++ rest))) := by simp
    rw [e]
    have h1 := skip_gap_char (r := g' ++ (t ++ (r ++ rest))) (c := ',') hg (by decide) (by decide)
    have h2 := skip_gap_stop hg' (ht.head (r ++ rest))
    have h3 : lit [','] (',' :: (g' ++ (t ++ (r ++ rest)))) = some ([], g' ++ (t ++ (r ++ rest))) := lit_app [','] _
    have h4 := ht.2 _ (gtail_follow hc hr rest)
    obtain ⟨x, r1, y, h5, h6, rfl⟩ := seq_inv (ih rest)
    have h7 := star_some (commaItem_prog hi) (seq_some h1 (nseq_some h3 h2 h4)) h5
    have h8 := seq_some h7 h6
    unfold tailP
    simpa using h8

/-! ## Brackets -/

/-- `arrayP` and the body of `objectP` -/
def bracket (n : Rule) (opening close : Char) (item : P) : P :=
  rule n (alt (nseq (lit [opening]) (lit [close])) (nseq (lit [opening]) (nseq item (nseq (nstar (commaItem item)) (closeP close)))))

/-- a list in brackets, with the pairs of its items -/
inductive Bracket (R : List Char → List Pair → Prop) (opening close : Char) : List Char → List Pair → Prop
  | empty {g} : Gap g → Bracket R opening close (opening :: (g ++ [close])) []
  | items {g t ps r qs} : Gap g → R t ps → GTail R close r qs → Bracket R opening close (opening :: (g ++ (t ++ r))) (ps ++ qs)

theorem nseq_item {item : P} (hi : Shrinks item) (close : Char) (s : List Char) :
    nseq item (nseq (nstar (commaItem item)) (closeP close)) s = seq item (tailP item close) s := by
  unfold nseq
  rw [show seq skip (seq (nstar (commaItem item)) (seq skip (closeP close))) = tailP item close from
    funext fun s => list_eq hi close s]

theorem bracket_inv {n : Rule} {opening close : Char} {item : P} {R : List Char → List Pair → Prop} (hi : Shrinks item)
    (hR : ∀ s ps r, item s = some (ps, r) → ∃ t, s = t ++ r ∧ t ≠ [] ∧ R t ps) {s z r}
    (h : bracket n opening close item s = some (z, r)) :
    ∃ t ps, s = t ++ r ∧ t ≠ [] ∧ z = [.mk n t ps] ∧ Bracket R opening close t ps := by
  obtain ⟨x, h1, hz⟩ := rule_inv h
  rcases alt_inv h1 with h1 | ⟨-, h1⟩
  · obtain ⟨x, r1, r2, y, h2, h3, h4, rfl⟩ := nseq_inv h1
    obtain ⟨rfl, rfl⟩ := lit_inv h2
    obtain ⟨rfl, rfl⟩ := lit_inv h4
    obtain ⟨-, g, rfl, hg⟩ := skip_gap_inv h3 (by simp)
    have e : [opening] ++ (g ++ ([close] ++ r)) = opening :: (g ++ [close]) ++ r := by simp
    exact ⟨_, _, e, by simp, hz _ e, .empty hg⟩
  · obtain ⟨x, r1, r2, y, h2, h3, h4, rfl⟩ := nseq_inv h1
    obtain ⟨rfl, rfl⟩ := lit_inv h2
    rw [nseq_item hi] at h4
    obtain ⟨ps, r3, qs, h5, h6, rfl⟩ := seq_inv h4
    obtain ⟨t, rfl, h0, ht⟩ := hR _ _ _ h5
    obtain ⟨t', rfl, ht'⟩ := tail_inv hi hR h6
    obtain ⟨-, g, rfl, hg⟩ := skip_gap_inv h3 (by simp [h0])
    have e : [opening] ++ (g ++ (t ++ (t' ++ r))) = opening :: (g ++ (t ++ t')) ++ r := by simp
    exact ⟨_, ps ++ qs, e, by simp, hz _ e, .items hg ht ht'⟩

theorem bracket_app {n : Rule} {opening close : Char} {item : P} (hc : close = ']' ∨ close = '}') (hi : Shrinks item)
    (hn : ∀ r, item (close :: r) = none) {t ps} (h : Bracket (Takes item) opening close t ps) (rest : List Char) :
    bracket n opening close item (t ++ rest) = some ([.mk n t ps], rest) := by
  have hcl : (32 < close.toNat ∧ close.toNat < 128) ∧ close ≠ '/' ∧ close ≠ ',' := by rcases hc with rfl | rfl <;> decide
  apply rule_some
  cases h with
  | @empty g hg =>
    apply alt_left
    have e : opening :: (g ++ [close]) ++ rest = [opening] ++ (g ++ close :: rest) := by simp
    rw [e]
    exact nseq_some (x := []) (y := []) (lit_app [opening] _) (skip_gap_char hg hcl.1 hcl.2.1) (lit_app [close] rest)
  | @items g t ps r qs hg ht hr =>
    have e : opening :: (g ++ (t ++ r)) ++ rest = [opening] ++ (g ++ (t ++ (r ++ rest))) := by simp
    rw [e]
    have h1 := skip_gap_stop hg (ht.head (r ++ rest))
    have h2 := ht.2 _ (gtail_follow hc hr rest)
    rw [alt_right]
    · refine nseq_some (x := []) (lit_app [opening] _) h1 ?_
      rw [nseq_item hi]
      exact seq_some h2 (tail_app hc hi hn hr rest)
    · refine nseq_none' (lit_app [opening] _) h1 (lit_head ?_)
      intro h3
      obtain ⟨⟨c, t', rfl, -⟩, -⟩ := ht
      simp at h3
      subst h3
      have := hn (t' ++ (r ++ rest))
      rw [← List.cons_append, h2] at this
      cases this

end Verif.Json5
