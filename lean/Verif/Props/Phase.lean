import Verif.Lemmas.Phase
/-!
# Properties C27, C28, C48, C52: the phases of history files
-/
namespace Verif.Phase
open VarInt Codec Compaction

/-! ## C27 -/

/-- C27: for every option set accepted by the builder and every chain of saves, whatever the size comparison answers:
the next phase is at most one deeper than the phase of the base file, at most the maximum, not 0 if updating phase 0 is
disabled, and the statistics stored with it have exactly phase+1 levels, each describing the right files. -/
theorem C27_next_phase_legal (b o : Opts) (hb : b.build = .ok o) (shift : Shift) (phase size : Nat)
    (older : List (Nat × Nat)) (d : Data) (hs : Saves o shift ((phase, size) :: older) d) (n : Nat)
    (hn : calcNextPhase o shift d = .ok n) (newSize : Nat) :
    n ≤ phase + 1 ∧ n ≤ o.maxPhase ∧ (o.updatePhase0 = false → n ≠ 0) ∧
    (d.popAndPush n newSize).length = n + 1 ∧
    ∀ k it, (d.popAndPush n newSize)[k]? = some it → Describes ((n, newSize) :: (phase, size) :: older) k it := by
  have hb0 := (build_ok b o hb).1
  obtain ⟨⟨p, s, rest, h1, h2, h3⟩, _, _⟩ := hs.inv hb0
  simp at h1
  obtain ⟨⟨rfl, rfl⟩, rfl⟩ := h1
  obtain ⟨h4, h5, h6⟩ := calcNextPhase_bound o hb0 shift d n (by omega) (by omega) hn
  obtain ⟨⟨p', s', rest', h7, h8, h9⟩, _, h10⟩ := (Saves.next newSize hs hn).inv hb0
  simp at h7
  refine ⟨by omega, h5, fun h => by have := h6 h; omega, by omega, h10⟩

/-- Three saves under the default options: phases 0, 1, 2. -/
example : Opts.default.build = .ok Opts.default ∧
    Saves Opts.default shiftExact [(2, 5), (1, 30), (0, 1000)] [⟨1000, 35, 2⟩, ⟨30, 5, 1⟩, ⟨5, 0, 0⟩] :=
  ⟨by decide, .next 5 (.next 30 (.first 1000) (n := 1) (by decide)) (n := 2) (by decide)⟩

/-! ## C28 -/

/-- C28 is violated for `max_phase = 1`, `update_phase_0 = false`: with a count limit of 2, three files of the
cumulative phase follow each other (the fallback for "no update of phase 0" is the full phase itself). -/
theorem C28_negation : ∃ o : Opts, o.build = .ok o ∧ o.cumulative = some ⟨none, some 2⟩ ∧
    ∃ d, Saves o shiftExact [(1, 10), (1, 10), (1, 10), (0, 1000)] d ∧ o.maxPhase = 1 := by
  refine ⟨⟨1, false, some ⟨none, some 2⟩⟩, by decide, rfl, _,
    .next 10 (.next 10 (.next 10 (.first 1000) (n := 1) (by decide)) (n := 1) (by decide)) (n := 1) (by decide), rfl⟩

/-- C28 (partial): under every option set accepted by the builder with a count limit, except `max_phase = 1` with
`update_phase_0 = false`, no unbroken run of files in the last phase of a chain of saves exceeds the limit. Missing: the
excepted options, for which the claim is false. -/
theorem C28_count_limit_partial (b o : Opts) (hb : b.build = .ok o) (c : Cumulative) (hc : o.cumulative = some c)
    (lim : Nat) (hlim : c.limitCount = some lim) (hx : ¬ (o.maxPhase = 1 ∧ o.updatePhase0 = false))
    (shift : Shift) (log : List (Nat × Nat)) (d : Data) (hs : Saves o shift log d)
    (newer run older : List (Nat × Nat)) (hlog : log = newer ++ run ++ older) (hrun : ∀ e ∈ run, e.1 = o.maxPhase) :
    run.length ≤ lim := by
  obtain ⟨hb0, hb1⟩ := build_ok b o hb
  obtain ⟨hl0, _, hm⟩ := hb1 c hc
  have hm0 : o.maxPhase ≠ 0 := by
    intro h0
    rw [(hm h0).1] at hlim
    simp at hlim
  have hlim0 : lim ≠ 0 := by rintro rfl; exact hl0 hlim
  -- every part of the chain is a chain
  have hsuf : ∀ (newer l : List (Nat × Nat)), l ≠ [] → ∀ d, Saves o shift (newer ++ l) d → ∃ d', Saves o shift l d' := by
    intro newer
    induction newer with
    | nil => intro l _ d h; exact ⟨d, h⟩
    | cons e es ih =>
      intro l hl d h
      generalize hw : e :: es ++ l = w at h
      cases h with
      | first size => simp at hw; exact absurd hw.2.2 hl
      | next size h1 _ => simp at hw; exact ih l hl _ (hw.2 ▸ h1)
  cases run with
  | nil => simp
  | cons e run =>
    have hlog' : log = newer ++ ((e :: run) ++ older) := by rw [hlog, List.append_assoc]
    obtain ⟨d', hd'⟩ := hsuf newer _ (by simp) d (hlog' ▸ hs)
    obtain ⟨⟨p, s, rest, h1, h2, h3⟩, h4, h5⟩ := hd'.inv hb0
    have hpe : p = o.maxPhase := by
      have := hrun e (by simp)
      simp at h1
      rw [← this, h1.1]
    subst hpe
    have hlt : o.maxPhase - 1 < d'.length := by omega
    have hit := List.getElem?_eq_getElem hlt
    have hcount := hd'.count hb0 hc hlim hlim0 hm0 hx _ h2 hit
    obtain ⟨nw, sz, od, e1, e2, _, _, e5⟩ := h5 _ _ hit
    rw [e5] at hcount
    refine Nat.le_trans ?_ hcount
    -- the run is a part of the newer files
    by_contra hlen
    have hlen : nw.length < (e :: run).length := by omega
    have hget : ((e :: run) ++ older)[nw.length]? = some (o.maxPhase - 1, sz) := by
      rw [e1, List.getElem?_append_right (by omega)]; simp
    rw [List.getElem?_append_left hlen] at hget
    have := hrun _ (List.mem_of_getElem? hget)
    simp at this
    omega

/-- The hypotheses are met, and the limit is reached. -/
example : ∃ o : Opts, o.build = .ok o ∧ o.cumulative = some ⟨none, some 2⟩ ∧
    ∃ d, Saves o shiftExact [(1, 10), (1, 10), (0, 1000)] d ∧ calcNextPhase o shiftExact d = .ok 0 := by
  refine ⟨⟨1, true, some ⟨none, some 2⟩⟩, by decide, rfl, _,
    .next 10 (.next 10 (.first 1000) (n := 1) (by decide)) (n := 1) (by decide), by decide⟩

/-! ## C48 -/

/-- C48: the statistics written at the head of a history file are read back exactly, whatever the diff, and the diff
that follows is untouched. (`Fits`: the numbers are the `u64`/`usize` of the program.) -/
theorem C48_statistics_survive (d : Data) (hd : ∀ it ∈ d, it.Fits) (hl : d.length < 2 ^ 60) (diff : Bytes) :
    ∃ head, phaseFile d diff = .ok (head ++ diff) ∧
      (head.length < 2 ^ 63 → readPhaseFile (head ++ diff) = .ok (d, diff)) := by
  have hv : ∀ k ∈ d.encode, Valid k := by
    intro k hk
    obtain ⟨n, rfl⟩ := d.encode_mem k hk
    exact valid_compInt _ (inI64_wrap n)
  obtain ⟨out, h⟩ := encodeVals_ok_of_valid _ hv
  refine ⟨out, by unfold phaseFile; rw [h]; rfl, fun hout => ?_⟩
  have hnorm : d.encode.map norm = d.encode := by
    conv_rhs => rw [← List.map_id d.encode]
    apply List.map_congr_left
    intro k hk
    obtain ⟨n, rfl⟩ := d.encode_mem k hk
    exact norm_compInt _
  unfold readPhaseFile
  rw [decode_encodeVals _ hv (by rw [Data.encode_length]; omega) out h hout diff, hnorm]
  simp only [Res.bind_ok]
  rw [Data.decode_encode d hd (by omega)]
  rfl

example : ∀ it ∈ ([⟨1000, 35, 2⟩, ⟨30, 5, 1⟩, ⟨2 ^ 64 - 1, 0, 0⟩] : Data), it.Fits := by
  intro it hit
  simp at hit
  rcases hit with rfl | rfl | rfl <;> simp [Item.Fits]

/-! ## C52 -/

/-- C52 is violated: `limit_nth = 5` with the default `max_phase = 3` is accepted by the builder, and the fifth save
panics ("attempt to subtract with overflow"; with overflow checks off the subtraction wraps and the limit is ignored). -/
theorem C52_negation : ∃ o : Opts, o.build = .ok o ∧ o.maxPhase = 3 ∧
    ∃ d, Saves o shiftExact [(3, 1), (2, 10), (1, 100), (0, 1000)] d ∧ calcNextPhase o shiftExact d = .panic := by
  refine ⟨⟨3, true, some ⟨some 5, none⟩⟩, by decide, rfl, _,
    .next 1 (.next 10 (.next 100 (.first 1000) (n := 1) (by decide)) (n := 2) (by decide)) (n := 3) (by decide), by decide⟩

/-- C52 (partial): choosing the phase never panics, for any statistics and any answers of the size comparison, exactly
when `limit_nth` is at most `max_phase + 1`. Missing: the other options the builder accepts, for which it is false. -/
theorem C52_no_panic_iff_partial (b o : Opts) (hb : b.build = .ok o) :
    (∀ shift d, calcNextPhase o shift d ≠ .panic) ↔
      ∀ c nth, o.cumulative = some c → c.limitNth = some nth → nth ≤ o.maxPhase + 1 := by
  obtain ⟨_, hb1⟩ := build_ok b o hb
  constructor
  · intro h c nth hc hnth
    by_contra hlt
    obtain ⟨h0, _, hm⟩ := hb1 c hc
    have hm0 : o.maxPhase ≠ 0 := by
      intro h0
      rw [(hm h0).2] at hnth
      simp at hnth
    apply h (fun _ _ _ _ _ => false) (List.replicate (o.maxPhase + 1) ⟨0, 0, 0⟩)
    unfold calcNextPhase
    rw [List.length_replicate, if_neg (by omega), show o.maxPhase + 1 - 1 = (o.maxPhase - 1) + 1 from by omega]
    have hclimb : ∀ i, i < o.maxPhase + 1 →
        Data.climb (List.replicate (o.maxPhase + 1) ⟨0, 0, 0⟩) i = .ok (some ⟨0, 0, 0⟩) := by
      intro i hi
      unfold Data.climb
      rw [List.length_replicate, if_neg (by omega), List.getElem?_replicate, if_pos (by omega)]
    rw [phaseLoop, hclimb 0 (by omega), hclimb (0 + 1) (by omega)]
    simp only [unwrap, Res.bind_ok, if_true]
    unfold cumulativeFull
    rw [hc]
    simp only [hnth]
    rw [if_neg]
    · rw [nthLargest_panic _ _ (by simp; omega)]
      rfl
    · unfold countReached
      cases hlc : c.limitCount with
      | none => simp
      | some lim =>
        simp only [decide_eq_true_eq]
        rintro hle
        apply h0
        rw [hlc]
        congr 1
        omega
  · intro h shift d
    unfold calcNextPhase
    split
    · simp
    · exact phaseLoop_no_panic o shift d (fun c nth h1 h2 => by have := h c nth h1 h2; omega) _ 0 rfl

example : ∀ c nth, Opts.default.cumulative = some c → c.limitNth = some nth → nth ≤ Opts.default.maxPhase + 1 := by
  intro c nth h1 h2
  simp [Opts.default] at h1
  subst h1
  simp at h2
  subst h2
  decide

end Verif.Phase
