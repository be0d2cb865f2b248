import Verif.Props.Phase
/-!
# Property C88 (the size limit of the cumulative phase)
-/
namespace Verif.Phase
open VarInt Codec Compaction

theorem insertSorted_perm (x : Nat) (l : List Nat) : (insertSorted x l).Perm (x :: l) := by
  induction l with
  | nil => exact List.Perm.refl _
  | cons y ys ih =>
    rw [insertSorted]
    split
    · exact List.Perm.refl _
    · exact (ih.cons y).trans (List.Perm.swap x y ys)

theorem sortNat_perm (l : List Nat) : (sortNat l).Perm l := by
  induction l with
  | nil => exact List.Perm.refl _
  | cons x xs ih => exact (insertSorted_perm x _).trans (ih.cons x)

theorem insertSorted_sorted (x : Nat) (l : List Nat) (h : l.Pairwise (· ≤ ·)) : (insertSorted x l).Pairwise (· ≤ ·) := by
  induction l with
  | nil => simp [insertSorted]
  | cons y ys ih =>
    rw [List.pairwise_cons] at h
    rw [insertSorted]
    split
    · rename_i hxy
      refine List.pairwise_cons.2 ⟨fun z hz => ?_, List.pairwise_cons.2 h⟩
      rcases List.mem_cons.1 hz with rfl | hz
      · exact hxy
      · exact Nat.le_trans hxy (h.1 z hz)
    · rename_i hxy
      refine List.pairwise_cons.2 ⟨fun z hz => ?_, ih h.2⟩
      rcases List.mem_cons.1 ((insertSorted_perm x ys).mem_iff.1 hz) with rfl | hz
      · omega
      · exact h.1 z hz

theorem sortNat_sorted (l : List Nat) : (sortNat l).Pairwise (· ≤ ·) := by
  induction l with
  | nil => exact List.Pairwise.nil
  | cons x xs ih => exact insertSorted_sorted x _ ih

/-- At least `nth` of the files are as large as the `nth` largest. -/
theorem nthLargest_count (d : Data) (nth v n : Nat) (h0 : nth ≠ 0) (h : d.nthLargest nth = .ok (some v)) (hn : n < v) :
    nth ≤ ((d.map (·.mySize)).filter fun s => decide (n < s)).length := by
  unfold Data.nthLargest at h
  simp only [if_neg h0] at h
  split at h
  · cases h
  · rename_i hlt
    have hv := Res.ok.inj h
    generalize hl : sortNat (d.map (·.mySize)) = l at hv hlt
    have hs : l.Pairwise (· ≤ ·) := hl ▸ sortNat_sorted _
    have hp : l.Perm (d.map (·.mySize)) := hl ▸ sortNat_perm _
    rw [← (hp.filter _).length_eq]
    obtain ⟨hlen, hget⟩ := List.getElem?_eq_some_iff.1 hv
    have hdrop : (l.drop (l.length - nth)).length = nth := by rw [List.length_drop]; omega
    have hall : ∀ x ∈ l.drop (l.length - nth), n < x := by
      intro x hx
      obtain ⟨i, hi, rfl⟩ := List.mem_iff_getElem.1 hx
      rw [List.getElem_drop]
      have : v ≤ l[l.length - nth + i]'(by rw [List.length_drop] at hi; omega) := by
        rw [← hget]
        rcases Nat.eq_zero_or_pos i with rfl | hi0
        · exact Nat.le_refl _
        · exact (List.pairwise_iff_getElem.1 hs) _ _ _ _ (by omega)
      omega
    have hsub : (l.drop (l.length - nth)).filter (fun s => decide (n < s)) = l.drop (l.length - nth) :=
      List.filter_eq_self.2 (fun x hx => by simpa using hall x hx)
    calc nth = ((l.drop (l.length - nth)).filter fun s => decide (n < s)).length := by rw [hsub, hdrop]
      _ ≤ (l.filter fun s => decide (n < s)).length := ((List.drop_sublist _ _).filter _).length_le

theorem describes_level {log : List (Nat × Nat)} {k : Nat} {it : Item} (h : Describes log k it) : levelSize log k = it.mySize := by
  obtain ⟨newer, size, older, rfl, h1, h2, _⟩ := h
  unfold levelSize
  rw [List.find?_append, List.find?_eq_none.2 (fun e he => by have := h1 e he; simp; omega)]
  simp [h2]

/-- C88 (partial): under every option set accepted by the builder with a size limit `nth`, except `max_phase = 1` with
`update_phase_0 = false`: whenever a further file is added to the files `run` of the last phase, these are in total smaller than at
least `nth` of the files that the newest one depends on, itself included. Missing: the size of the added file itself, about which nothing
is true (`C88_negation`). -/
theorem C88_size_limit_partial (b o : Opts) (hb : b.build = .ok o) (c : Cumulative) (hc : o.cumulative = some c)
    (nth : Nat) (hnth : c.limitNth = some nth) (hx : ¬ (o.maxPhase = 1 ∧ o.updatePhase0 = false))
    (shift : Shift) (size : Nat) (run : List (Nat × Nat)) (e : Nat × Nat) (older : List (Nat × Nat)) (d : Data)
    (hs : Saves o shift ((o.maxPhase, size) :: (run ++ e :: older)) d) (hr0 : run ≠ []) (hrun : ∀ x ∈ run, x.1 = o.maxPhase)
    (he : e.1 ≠ o.maxPhase) :
    nth ≤ larger (run ++ e :: older) o.maxPhase (run.map (·.2)).sum := by
  obtain ⟨hb0, hb1⟩ := build_ok b o hb
  obtain ⟨_, hn0, hm⟩ := hb1 c hc
  have hm0 : o.maxPhase ≠ 0 := by
    intro h0
    rw [(hm h0).2] at hnth
    simp at hnth
  have hnth0 : nth ≠ 0 := by rintro rfl; exact hn0 hnth
  generalize hlog : (o.maxPhase, size) :: (run ++ e :: older) = log at hs
  cases hs with
  | first size' =>
    simp only [List.cons.injEq] at hlog
    exact absurd (List.append_eq_nil_iff.1 hlog.2).1 hr0
  | @next log d n size' hs hn =>
    simp only [List.cons.injEq, Prod.mk.injEq] at hlog
    obtain ⟨⟨rfl, rfl⟩, rfl⟩ := hlog
    obtain ⟨⟨p, s, rest, h1, h2, h3⟩, hall, hdesc⟩ := hs.inv hb0
    have hp : p = o.maxPhase := by
      cases run with
      | nil => exact absurd rfl hr0
      | cons x xs =>
        simp only [List.cons_append, List.cons.injEq] at h1
        have := hrun x (by simp)
        rw [h1.1] at this
        exact this
    subst hp
    unfold calcNextPhase at hn
    rw [if_neg (by omega), show d.length - 1 = (o.maxPhase - 1) + 1 from by omega] at hn
    obtain ⟨cur, hcur, _⟩ := climb_ok d 0 (by omega)
    obtain ⟨par, hpar, hpar2⟩ := climb_ok d (0 + 1) (by omega)
    rw [show d.length - 1 - (0 + 1) = o.maxPhase - 1 from by omega] at hpar2
    have hrest : phaseLoop o shift d (o.maxPhase - 1) (0 + 1) ≠ .ok o.maxPhase := by
      intro hr
      rcases phaseLoop_max o shift d _ _ _ (by omega) (by omega) hr with h | h
      · omega
      · exact hx ⟨h.1, h.2⟩
    rw [phaseLoop, hcur, hpar] at hn
    simp only [unwrap, Res.bind_ok] at hn
    split at hn
    · rw [if_pos trivial] at hn
      unfold cumulativeFull at hn
      simp only [hc, hnth] at hn
      split at hn
      · simp only [Res.bind_ok, if_true] at hn
        exact absurd hn hrest
      · cases hv : d.nthLargest nth with
        | err => rw [hv] at hn; cases hn
        | panic => rw [hv] at hn; cases hn
        | ok r =>
          rw [hv] at hn
          simp only [Res.map_ok, Res.bind_ok] at hn
          cases r with
          | none =>
            unfold Data.nthLargest at hv
            simp only [if_neg hnth0] at hv
            split at hv
            · cases hv
            · rename_i hlt
              have := List.getElem?_eq_none_iff.1 (Res.ok.inj hv)
              omega
          | some v =>
            by_cases hfull : v ≤ par.totalSize
            · rw [if_pos (by simpa using hfull)] at hn
              exact absurd hn hrest
            · -- the files of the last phase are those after the parent
              obtain ⟨newer, sz, old, e1, e2, _, e4, _⟩ := hdesc _ _ hpar2
              have hsame : newer = run := by
                have hlt : ∀ x ∈ run ++ e :: older, x.1 ≤ o.maxPhase := hall
                have heq : ∀ (a b : List (Nat × Nat)) (x y : Nat × Nat) (as bs : List (Nat × Nat)), a ++ x :: as = b ++ y :: bs →
                    (∀ z ∈ a, z.1 = o.maxPhase) → (∀ z ∈ b, z.1 = o.maxPhase) → x.1 ≠ o.maxPhase → y.1 ≠ o.maxPhase → a = b := by
                  intro a
                  induction a with
                  | nil =>
                    intro b x y as bs h _ hb hx _
                    cases b with
                    | nil => rfl
                    | cons z zs =>
                      simp only [List.nil_append, List.cons_append, List.cons.injEq] at h
                      exact absurd (h.1 ▸ hb z (by simp)) hx
                  | cons z zs ih =>
                    intro b x y as bs h ha hb hx hy
                    cases b with
                    | nil =>
                      simp only [List.nil_append, List.cons_append, List.cons.injEq] at h
                      exact absurd (h.1 ▸ ha z (by simp)) hy
                    | cons w ws =>
                      simp only [List.cons_append, List.cons.injEq] at h
                      rw [h.1, ih ws x y as bs h.2 (fun q hq => ha q (by simp [hq])) (fun q hq => hb q (by simp [hq])) hx hy]
                refine heq newer run (o.maxPhase - 1, sz) e old older e1.symm (fun z hz => ?_) hrun (by simp only; omega) he
                have h5 := e2 z hz
                have h6 := hlt z (by rw [e1]; simp [hz])
                omega
              rw [hsame] at e4
              rw [e4] at hfull
              have hcnt := nthLargest_count d nth v (run.map (·.2)).sum hnth0 hv (by omega)
              have hsizes : d.map (·.mySize) = (List.range (o.maxPhase + 1)).map (levelSize (run ++ e :: older)) := by
                apply List.ext_getElem
                · simp [h2]
                · intro k hk1 hk2
                  simp only [List.getElem_map, List.getElem_range]
                  simp only [List.length_map] at hk1
                  exact (describes_level (hdesc k d[k] (List.getElem?_eq_getElem hk1))).symm
              rw [hsizes, List.filter_map, List.length_map] at hcnt
              exact hcnt
    · exact absurd hn hrest

/-- The hypotheses are met: the default options, five saves. -/
example : ∃ d, Saves Opts.default shiftExact [(3, 4), (3, 2), (2, 5), (1, 30), (0, 1000)] d ∧
    larger [(3, 2), (2, 5), (1, 30), (0, 1000)] 3 2 = 3 :=
  ⟨_, .next 4 (.next 2 (.next 5 (.next 30 (.first 1000) (n := 1) (by decide)) (n := 2) (by decide)) (n := 3) (by decide)) (n := 3) (by decide),
    by decide⟩

/-- C88 is violated as documented ("the total size of a Cumulative-Phase must be less than nth largest diff file in its ancestors"):
the limit is looked at before the file is added. With the default options, files of 2 and 5000 bytes are in the last phase, although the largest
file is of 5000 bytes and the largest above them of 1000. -/
theorem C88_negation : Opts.default.build = .ok Opts.default ∧ Opts.default.cumulative = some ⟨some 1, some 10⟩ ∧
    (∃ d, Saves Opts.default shiftExact [(3, 5000), (3, 2), (2, 5), (1, 30), (0, 1000)] d) ∧
    larger [(3, 5000), (3, 2), (2, 5), (1, 30), (0, 1000)] 3 (5000 + 2) = 0 :=
  ⟨by decide, rfl, ⟨_, .next 5000 (.next 2 (.next 5 (.next 30 (.first 1000) (n := 1) (by decide)) (n := 2) (by decide)) (n := 3) (by decide))
    (n := 3) (by decide)⟩, by decide⟩

/-- C88 is violated even for the files before the added one, for `max_phase = 1` and `update_phase_0 = false`: the limit is reached, and a further
file of the last phase follows. -/
theorem C88_negation_options : ∃ o : Opts, o.build = .ok o ∧ o.cumulative = some ⟨some 1, none⟩ ∧ o.maxPhase = 1 ∧
    (∃ d, Saves o shiftExact [(1, 3), (1, 30), (1, 20), (0, 10)] d) ∧ larger [(1, 30), (1, 20), (0, 10)] 1 (30 + 20) = 0 :=
  ⟨⟨1, false, some ⟨some 1, none⟩⟩, by decide, rfl, rfl,
    ⟨_, .next 3 (.next 30 (.next 20 (.first 10) (n := 1) (by decide)) (n := 1) (by decide)) (n := 1) (by decide)⟩, by decide⟩

end Verif.Phase
