import Verif.Lemmas.RemoverReach
import Verif.Props.History
/-!
# Properties C33, C34, C35 (removing old files)
-/
namespace Verif.Remover
open VarInt FileName FileHistory Phase History

/-! ## C34 -/

/-- C34 (partial): for every set of files marked to be kept, the reported files are the listed files that were not marked,
directly or as a dependency (`Marks`) of a marked file, in their listed order and each once. Missing: histories with files of phases beyond
`max_phase` (written with other options), of which the code does not see all (`C34_negation`). -/
theorem C34_removable_exact_partial (maxPhase : Nat) (cumulative : Bool) (h : FileHistory.History) (hh : HWF h)
    (hs : Shallow maxPhase h) (ks : List Props) (hks : ∀ p ∈ ks, p ∈ h.listFiles) :
    let r := fromHistory maxPhase cumulative h
    let removable := removableProps r (ks.foldl (keepFile r) [])
    removable.Sublist h.listFiles ∧ removable.Nodup ∧
    ∀ p, p ∈ removable ↔ p ∈ h.listFiles ∧ ¬ ∃ k ∈ ks, Marks maxPhase cumulative h k p := by
  intro r removable
  have he : removable = _ := removable_eq maxPhase cumulative h hh hs (ks.foldl (keepFile r) [])
  have hsub : removable.Sublist h.listFiles := by rw [he]; exact List.filter_sublist
  have hnd : h.listFiles.Nodup := by
    refine List.Pairwise.imp ?_ (listFiles_sorted h hh)
    rintro a b hlt rfl
    exact absurd hlt (List.lt_irrefl _)
  refine ⟨hsub, hnd.sublist hsub, fun p => ?_⟩
  rw [he, List.mem_filter]
  obtain ⟨_, k2⟩ := keepAll_spec maxPhase cumulative h hh hs ks hks [] (fun a _ ha => by simp at ha)
  simp only [Bool.not_eq_eq_eq_not, Bool.not_true, decide_eq_false_iff_not, r, k2]
  constructor
  · rintro ⟨h1, h2⟩
    exact ⟨h1, fun ⟨k, hk, hm⟩ => h2 (Or.inr ⟨k, hk, p, hm, rfl⟩)⟩
  · rintro ⟨h1, h2⟩
    refine ⟨h1, ?_⟩
    rintro (hx | ⟨k, hk, q, hm, hkq⟩)
    · simp at hx
    · have := listed_inj h hh p q h1 (hm.listed hh (hks k hk)) hkq
      subst this
      exact h2 ⟨k, hk, hm⟩

/-- The history after four saves, with the default options. -/
def fourSaves : FileHistory.History :=
  ((FileHistory.History.empty.add ⟨0, 0, [0], none⟩).add ⟨0, 0, [0, 0], none⟩).add ⟨0, 0, [0, 0, 0], none⟩
    |>.add ⟨0, 0, [0, 0, 0, 0], none⟩

theorem fourSaves_wf : HWF fourSaves := by
  unfold fourSaves
  refine hwf_add _ (hwf_add _ (hwf_add _ (hwf_add _ hwf_empty _ ?_) _ ?_) _ ?_) _ ?_ <;>
  · unfold InRange; decide

example : fourSaves.listFiles =
    [⟨0, 0, [0], none⟩, ⟨0, 0, [0, 0], none⟩, ⟨0, 0, [0, 0, 0], none⟩, ⟨0, 0, [0, 0, 0, 0], none⟩] := by decide +kernel
example : Shallow 3 fourSaves := by unfold Shallow; decide +kernel
/-- Keeping the second file keeps the first two files. -/
example : (let r := fromHistory 3 true fourSaves
    removableProps r ([(⟨0, 0, [0, 0], none⟩ : Props)].foldl (keepFile r) [])) =
    [⟨0, 0, [0, 0, 0], none⟩, ⟨0, 0, [0, 0, 0, 0], none⟩] := by decide +kernel

/-- four saves with the default options -/
def fourRun := play Opts.default shiftExact demo [.save 0 1, .save 0 2, .save 0 3, .save 0 4]

/-- C34 is violated for files written with a larger `max_phase`: with `max_phase = 0` and nothing to be kept, three of the four files
are never reported. -/
theorem C34_negation : ∃ h, Reach Opts.default demo fourRun.1 fourRun.2 ∧ fourRun.1.history = .ok h ∧
    h.listFiles = fourSaves.listFiles ∧ h.listFiles.length = 4 ∧
    removableOldItems 0 false h 0 = [⟨0, 0, [0], none⟩] := by
  obtain ⟨h, hh, hP⟩ := res_ex fourRun.1.history (fun h => decide (h.listFiles = fourSaves.listFiles ∧
    h.listFiles.length = 4 ∧ removableOldItems 0 false h 0 = [⟨0, 0, [0], none⟩])) (by decide +kernel)
  exact ⟨h, play_reach _ _ _ _ (by decide), hh, of_decide_eq_true hP⟩

/-! ## C33 -/

section
variable {S : Type}

/-- C33 (partial): take any directory at all (after whatever saves, derivations and earlier removals), and remove the old
files but the `n` latest ones. Each of these that could be loaded before is still listed, and loads as the same object.
Missing: cumulative histories that are not `Sound`, for which it is false (`C33_negation`, `C33_negation_one_phase`), and
files of phases beyond `max_phase` (`C33_negation_deep`). -/
theorem C33_kept_files_load_partial (o : Opts) (ops : Ops S) (st : St) (h : FileHistory.History)
    (hh : st.history = .ok h) (hs : Shallow o.maxPhase h) (hso : Sound o.maxPhase o.cumulative.isSome h) (n : Nat)
    (p : Props) (hp : p ∈ latest n h.listFiles) (s : S) (hl : load o ops st.dir h p = .ok s) :
    ∃ h', St.history ⟨removeOldFiles o h n st.dir, st.base⟩ = .ok h' ∧ p ∈ h'.listFiles ∧
      load o ops (removeOldFiles o h n st.dir) h' p = .ok s := by
  obtain ⟨hw, _, _⟩ := history_spec st.dir h hh
  have hmem := removableOld_mem o.maxPhase o.cumulative.isSome h hw hs n
  have hpl := mem_latest n _ p hp
  refine load_removed o ops st.dir h hh _ (fun r hr => ((hmem r).1 hr).1) p hpl (fun l hl a ha har => ?_) s hl
  exact ((hmem a).1 har).2 ⟨p, hp, marks_chain _ _ h hw hso hs p hpl l hl a ha⟩

/-- C33 (partial), the case without the cumulative option: no condition on the history is needed but that its files
belong to the phases of the options. -/
theorem C33_plain_partial (o : Opts) (hc : o.cumulative = none) (ops : Ops S) (st : St) (h : FileHistory.History)
    (hh : st.history = .ok h) (hs : Shallow o.maxPhase h) (n : Nat)
    (p : Props) (hp : p ∈ latest n h.listFiles) (s : S) (hl : load o ops st.dir h p = .ok s) :
    ∃ h', St.history ⟨removeOldFiles o h n st.dir, st.base⟩ = .ok h' ∧ p ∈ h'.listFiles ∧
      load o ops (removeOldFiles o h n st.dir) h' p = .ok s :=
  C33_kept_files_load_partial o ops st h hh hs (fun hct => by rw [hc] at hct; cases hct) n p hp s hl

/-- Whatever the options, everything that the remover marks stays: the `n` latest files themselves are never removed. -/
theorem C33_latest_stay_partial (o : Opts) (st : St) (h : FileHistory.History)
    (hh : st.history = .ok h) (hs : Shallow o.maxPhase h) (n : Nat) (p : Props) (hp : p ∈ latest n h.listFiles) :
    (removeOldFiles o h n st.dir).read p.filename = st.dir.read p.filename := by
  obtain ⟨hw, hnames, _⟩ := history_spec st.dir h hh
  have hmem := removableOld_mem o.maxPhase o.cumulative.isSome h hw hs n
  refine read_filter st.dir (fun m => !decide (m ∈ (removableOldItems o.maxPhase o.cumulative.isSome h n).map (·.filename)))
    p.filename ?_
  simp only [Bool.not_eq_eq_eq_not, Bool.not_true, decide_eq_false_iff_not]
  intro hm
  obtain ⟨r, hr, he⟩ := List.mem_map.1 hm
  have e1 := hnames r ((hmem r).1 hr).1
  rw [he, hnames p (mem_latest n _ p hp)] at e1
  simp only [Res.ok.injEq, Option.some.injEq] at e1
  subst e1
  exact ((hmem p).1 hr).2 ⟨p, hp, .self p⟩

/-- C33 (partial), for every run of saves, loads, derivations and restarts (`Reach`) with at least two phases: if the options have
exactly two phases, or no file was derived from an older one, or the files are not cumulative, then each of the `n` latest files
still loads as the object that was saved in it. Missing: derivations from older files with cumulative files and three or more phases
(`C33_negation`), and one phase only (`C33_negation_one_phase`). In such a run no file was removed before; for later removals see C85. -/
theorem C33_runs_partial (o : Opts) (ops : Ops S) (hlaw : ops.Lawful) (st : St) (log : List (Props × S)) (hr : Reach o ops st log)
    (hc : o.cumulative = none ∨ o.maxPhase = 1 ∨ (o.maxPhase ≠ 0 ∧ ∀ e ∈ log, e.1.prevCtl = e.1.control))
    (h : FileHistory.History) (hh : st.history = .ok h) (n : Nat) (p : Props) (s : S) (he : (p, s) ∈ log) (hlost : ¬ Lost o log p)
    (hp : p ∈ latest n h.listFiles) :
    ∃ h', St.history ⟨removeOldFiles o h n st.dir, st.base⟩ = .ok h' ∧ p ∈ h'.listFiles ∧
      load o ops (removeOldFiles o h n st.dir) h' p = .ok s := by
  have hl : load o ops st.dir h p = .ok s := by
    obtain ⟨h1, hh1, hload⟩ := C29_load_saved_partial o ops hlaw st log hr
    rw [hh] at hh1
    cases hh1
    exact (hload p s he).1 hlost
  rcases hc with hc | hc
  · exact C33_plain_partial o hc ops st h hh (Reach.shallow hr h hh) n p hp s hl
  · refine C33_kept_files_load_partial o ops st h hh (Reach.shallow hr h hh) (Reach.sound hr h hh ?_ ?_) n p hp s hl
    · rcases hc with hc | hc
      · omega
      · exact hc.1
    · rcases hc with hc | hc
      · exact Or.inl hc
      · exact Or.inr hc.2

end

/-- a plain history with a derivation, of which the two latest files are kept -/
def plainRun := play plain shiftExact demo demoCmds
example : ∃ h, plainRun.1.history = .ok h ∧
    decide ((∀ p ∈ h.listFiles, p.order.length ≤ plain.maxPhase + 1) ∧ latest 2 h.listFiles =
      [⟨0, 0, [0, 1], none⟩, ⟨1, 0, [0, 0], none⟩] ∧
      (removeOldFiles plain h 2 plainRun.1.dir).length = 3 ∧ plainRun.1.dir.length = 4 ∧
      load plain demo plainRun.1.dir h ⟨1, 0, [0, 0], none⟩ = .ok 8) = true :=
  res_ex _ _ (by decide +kernel)

/-- a cumulative history: the shape required by `Sound` -/
def cumulRun := play cumul shiftExact demo [.save 0 1, .save 0 2, .save 0 3, .save 0 4]
example : ∃ h, cumulRun.1.history = .ok h ∧
    decide (h.listFiles.map (·.order) = [[0], [0, 0], [0, 1], [0, 2]] ∧
      (∀ p ∈ h.listFiles, p.order.length = cumul.maxPhase + 1 → orderLast p ≠ 0 → p.prevCtl = p.control) ∧
      (∀ p ∈ h.listFiles, p.order.length = cumul.maxPhase → orderBase p = []) ∧
      removableOldItems cumul.maxPhase true h 1 = [] ) = true :=
  res_ex _ _ (by decide +kernel)

/-- the run meets the conditions of `C33_runs_partial`: two phases, and a derivation from the first file -/
def derivedRun := play cumul shiftExact demo demoCmds
example : Reach cumul demo derivedRun.1 derivedRun.2 := play_reach _ _ _ _ (by decide)
example : ∃ h, derivedRun.1.history = .ok h ∧
    decide (derivedRun.2.map (·.1.control) = [1, 0, 0, 0] ∧ latest 1 h.listFiles = [⟨1, 0, [0, 0], none⟩] ∧
      removableOldItems cumul.maxPhase true h 1 = [⟨0, 0, [0, 0], none⟩, ⟨0, 0, [0, 1], none⟩]) = true :=
  res_ex _ _ (by decide +kernel)

/-- four saves, going back to the third file, and three more saves -/
def lossCmds : List (Cmd UInt8) :=
  [.save 0 1, .save 0 2, .save 0 3, .save 0 4, .load 0 [0, 0, 0] 1, .save 1 5, .save 1 6, .save 1 7]
def lossRun := play Opts.default shiftExact demo lossCmds

/-- C33 is violated with the default options: after seven saves and one load, keeping the latest file removes the files of
phases 0 and 1 that it needs, and it can no longer be loaded. (Files of the phase before the last one are taken for files
of a cumulative phase, and their predecessor, which does not exist in this control number, is marked instead of their parent.) -/
theorem C33_negation : ∃ h h', Reach Opts.default demo lossRun.1 lossRun.2 ∧ lossRun.1.history = .ok h ∧
    (Shallow Opts.default.maxPhase h ∧ latest 1 h.listFiles = [⟨1, 1, [0, 0, 1, 0], none⟩] ∧
      load Opts.default demo lossRun.1.dir h ⟨1, 1, [0, 0, 1, 0], none⟩ = .ok 7) ∧
    St.history ⟨removeOldFiles Opts.default h 1 lossRun.1.dir, lossRun.1.base⟩ = .ok h' ∧
    load Opts.default demo (removeOldFiles Opts.default h 1 lossRun.1.dir) h' ⟨1, 1, [0, 0, 1, 0], none⟩ = .err := by
  obtain ⟨h, hh, hP⟩ := res_ex lossRun.1.history
    (fun h => decide ((∀ p ∈ h.listFiles, p.order.length ≤ Opts.default.maxPhase + 1) ∧
      latest 1 h.listFiles = [⟨1, 1, [0, 0, 1, 0], none⟩] ∧
      load Opts.default demo lossRun.1.dir h ⟨1, 1, [0, 0, 1, 0], none⟩ = .ok 7 ∧
      (match St.history ⟨removeOldFiles Opts.default h 1 lossRun.1.dir, lossRun.1.base⟩ with
        | .ok h' => load Opts.default demo (removeOldFiles Opts.default h 1 lossRun.1.dir) h' ⟨1, 1, [0, 0, 1, 0], none⟩
        | _ => (Res.ok 0 : Res UInt8)) = Res.err)) (by decide +kernel)
  obtain ⟨h1, h2, h3, h4⟩ := of_decide_eq_true hP
  cases hh' : St.history ⟨removeOldFiles Opts.default h 1 lossRun.1.dir, lossRun.1.base⟩ with
  | ok h' =>
    rw [hh'] at h4
    exact ⟨h, h', play_reach _ _ _ _ (by decide), hh, ⟨h1, h2, h3⟩, hh', h4⟩
  | err => rw [hh'] at h4; cases h4
  | panic => rw [hh'] at h4; cases h4

/-- one phase only, with cumulative files -/
def onePhase : Opts := ⟨0, true, some ⟨none, none⟩⟩
def oneRun := play onePhase shiftExact demo [.save 0 1, .save 0 2]

/-- C33 is violated with one phase of cumulative files: after two saves, keeping the latest file removes the first one, and the
latest one can no longer be loaded. -/
theorem C33_negation_one_phase : onePhase.build = .ok onePhase ∧
    ∃ h h', Reach onePhase demo oneRun.1 oneRun.2 ∧ oneRun.1.history = .ok h ∧
    (Shallow onePhase.maxPhase h ∧ latest 1 h.listFiles = [⟨0, 0, [1], none⟩] ∧
      load onePhase demo oneRun.1.dir h ⟨0, 0, [1], none⟩ = .ok 2) ∧
    St.history ⟨removeOldFiles onePhase h 1 oneRun.1.dir, oneRun.1.base⟩ = .ok h' ∧
    load onePhase demo (removeOldFiles onePhase h 1 oneRun.1.dir) h' ⟨0, 0, [1], none⟩ = .err := by
  refine ⟨by decide, ?_⟩
  obtain ⟨h, hh, hP⟩ := res_ex oneRun.1.history
    (fun h => decide ((∀ p ∈ h.listFiles, p.order.length ≤ onePhase.maxPhase + 1) ∧
      latest 1 h.listFiles = [⟨0, 0, [1], none⟩] ∧
      load onePhase demo oneRun.1.dir h ⟨0, 0, [1], none⟩ = .ok 2 ∧
      (match St.history ⟨removeOldFiles onePhase h 1 oneRun.1.dir, oneRun.1.base⟩ with
        | .ok h' => load onePhase demo (removeOldFiles onePhase h 1 oneRun.1.dir) h' ⟨0, 0, [1], none⟩
        | _ => (Res.ok 0 : Res UInt8)) = Res.err)) (by decide +kernel)
  obtain ⟨h1, h2, h3, h4⟩ := of_decide_eq_true hP
  cases hh' : St.history ⟨removeOldFiles onePhase h 1 oneRun.1.dir, oneRun.1.base⟩ with
  | ok h' =>
    rw [hh'] at h4
    exact ⟨h, h', play_reach _ _ _ _ (by decide), hh, ⟨h1, h2, h3⟩, hh', h4⟩
  | err => rw [hh'] at h4; cases h4
  | panic => rw [hh'] at h4; cases h4

/-- C33 is violated for files written with a larger `max_phase`: keeping the latest one of four files with `max_phase = 0`
removes the first one. -/
theorem C33_negation_deep : latest 1 fourSaves.listFiles = [⟨0, 0, [0, 0, 0, 0], none⟩] ∧
    removableOldItems 0 false fourSaves 1 = [⟨0, 0, [0], none⟩] ∧
    ancestorsRev fourSaves ⟨0, 0, [0, 0, 0, 0], none⟩ 0 false =
      .ok [⟨0, 0, [0, 0, 0, 0], none⟩, ⟨0, 0, [0, 0, 0], none⟩, ⟨0, 0, [0, 0], none⟩, ⟨0, 0, [0], none⟩] := by
  decide +kernel

/-! ## C35 -/

/-- All files of a project, oldest version first. -/
def allFiles (vec : List Version) : List (Version × Props) := vec.flatMap fun v => v.history.listFiles.map fun p => (v, p)

theorem allFiles_length (vec : List Version) :
    (allFiles vec).length = (vec.map (·.history.listFiles.length)).sum := by
  induction vec with
  | nil => rfl
  | cons v vec ih =>
    rw [allFiles, List.flatMap_cons, List.length_append, List.length_map, List.map_cons, List.sum_cons, ← ih]
    rfl

theorem sumLoop_spec (lens : List Nat) (n : Nat) (k : Nat) (sum : Nat) (hs : sum = (lens.drop (k + 1)).sum) (index : Nat)
    (hi : sumLoop lens n k sum = some index) : n < (lens.drop index).sum := by
  induction k generalizing sum with
  | zero => cases hi
  | succ k ih =>
    rw [sumLoop] at hi
    have hd : (lens.drop (k + 1)).sum = sum + lens.getD (k + 1) 0 := by
      rw [hs]
      by_cases hk : k + 1 < lens.length
      · rw [List.drop_eq_getElem_cons hk, List.sum_cons, List.getD_eq_getElem?_getD, List.getElem?_eq_getElem hk]
        simp; omega
      · rw [List.drop_of_length_le (by omega), List.drop_of_length_le (by omega), List.getD_eq_getElem?_getD,
          List.getElem?_eq_none (by omega)]
        rfl
    split at hi
    · rename_i hlt
      cases hi
      omega
    · exact ih _ hd.symm hi

/-- C35: in a project with any number of source versions (oldest first), every one of the `n` latest files over all versions
is still there after removing old files; and with `n = 0` nothing is left. -/
theorem C35_keeps_latest (o : Opts) (vec : List Version) (hv : ∀ v ∈ vec, createHistory (v.dir.map (·.1)) .empty = .ok v.history)
    (hs : ∀ v ∈ vec, Shallow o.maxPhase v.history) (n : Nat) :
    (∀ v p, (v, p) ∈ (allFiles vec).drop ((allFiles vec).length - n) →
      ∃ v' ∈ removeOldFilesAll o vec n, v'.hash = v.hash ∧ v'.dir.read p.filename = v.dir.read p.filename) ∧
    removeOldFilesAll o vec 0 = [] := by
  constructor
  · intro v p hvp
    have hmem : v ∈ vec := by
      have := List.mem_of_mem_drop hvp
      obtain ⟨w, hw, hp⟩ := List.mem_flatMap.1 this
      obtain ⟨q, _, hq⟩ := List.mem_map.1 hp
      cases hq; exact hw
    unfold removeOldFilesAll
    cases hl : vec.getLast? with
    | none =>
      rw [List.getLast?_eq_none_iff.1 hl] at hmem
      simp at hmem
    | some last =>
      simp only
      have hsplit : vec = vec.dropLast ++ [last] := by
        have hne : vec ≠ [] := by rintro rfl; simp at hl
        rw [List.getLast?_eq_some_getLast hne] at hl
        cases hl
        exact (List.dropLast_concat_getLast hne).symm
      have hlast : last ∈ vec := by rw [hsplit]; simp
      split
      · rename_i h0
        subst h0
        simp at hvp
      · split
        · rename_i hlt
          have hall : allFiles vec = allFiles vec.dropLast ++ last.history.listFiles.map fun p => (last, p) := by
            conv_lhs => rw [hsplit]
            simp [allFiles]
          rw [hall, List.length_append, List.length_map, List.drop_append,
            List.drop_of_length_le (by omega), List.nil_append, ← List.map_drop] at hvp
          obtain ⟨q, hq, he⟩ := List.mem_map.1 hvp
          obtain ⟨rfl, rfl⟩ := Prod.mk.inj he
          refine ⟨_, List.mem_singleton.2 rfl, rfl, ?_⟩
          have hq' : q ∈ latest n last.history.listFiles := by
            unfold latest
            have : (allFiles vec.dropLast).length + last.history.listFiles.length - n - (allFiles vec.dropLast).length =
              last.history.listFiles.length - n := by omega
            rw [this] at hq
            exact hq
          exact C33_latest_stay_partial o ⟨last.dir, none⟩ last.history (hv _ hlast) (hs _ hlast) n q hq'
        · split
          · rename_i index hi
            have hvne : 1 ≤ vec.length := List.length_pos_iff.2 (by rintro rfl; simp at hl)
            have hsum := sumLoop_spec _ n _ 0 (by rw [List.drop_of_length_le (by simp; omega)]; rfl) index hi
            rw [← List.map_drop, ← allFiles_length] at hsum
            have hall : allFiles vec = allFiles (vec.take index) ++ allFiles (vec.drop index) := by
              conv_lhs => rw [← List.take_append_drop index vec]
              simp only [allFiles, List.flatMap_append]
            rw [hall, List.length_append, List.drop_append, List.drop_of_length_le (by omega), List.nil_append] at hvp
            have := List.mem_of_mem_drop hvp
            obtain ⟨w, hw, hp⟩ := List.mem_flatMap.1 this
            obtain ⟨q, _, hq⟩ := List.mem_map.1 hp
            cases hq
            exact ⟨v, hw, rfl, rfl⟩
          · exact ⟨v, hmem, rfl, rfl⟩
  · unfold removeOldFilesAll
    cases vec.getLast? <;> simp

/-- Files left, with their hash. -/
def left (vec : List Version) : List (Nat × List Bytes) := vec.map fun v => (v.hash, v.dir.map (·.1))

/-- a version with the files of a run -/
def version (hash : Nat) (st : St) : Version :=
  ⟨hash, (match st.history with | .ok h => h | _ => .empty), st.dir⟩

theorem version_ok (hash : Nat) (st : St) (h : ∃ h, st.history = .ok h ∧ true = true) :
    createHistory ((version hash st).dir.map (·.1)) .empty = .ok (version hash st).history := by
  obtain ⟨h, hh, _⟩ := h
  unfold version
  rw [hh]
  exact hh

/-- three versions with 4, 2 and 4 files -/
def project : List Version :=
  [version 1 plainRun.1, version 2 oneRun.1, version 3 cumulRun.1]

example : ∀ v ∈ project, createHistory (v.dir.map (·.1)) .empty = .ok v.history := by
  intro v hv
  simp only [project, List.mem_cons, List.not_mem_nil, or_false] at hv
  rcases hv with rfl | rfl | rfl
  · exact version_ok _ _ (res_ex _ (fun _ => true) (by decide +kernel))
  · exact version_ok _ _ (res_ex _ (fun _ => true) (by decide +kernel))
  · exact version_ok _ _ (res_ex _ (fun _ => true) (by decide +kernel))
example : ∀ v ∈ project, Shallow plain.maxPhase v.history := by unfold Shallow; decide +kernel
example : (allFiles project).length = 10 ∧
    (left (removeOldFilesAll plain project 5)).map (fun x => (x.1, x.2.length)) = [(2, 2), (3, 4)] ∧
    (left (removeOldFilesAll plain project 2)).map (fun x => (x.1, x.2.length)) = [(3, 3)] ∧
    (left (removeOldFilesAll plain project 20)).length = 3 := by decide +kernel

end Verif.Remover
