import Verif.Lemmas.Lost
import Verif.Lemmas.SaveExact
import Verif.Lemmas.Zipper
/-!
# Properties C26, C29, C30, C31, C32, C50, C51 (history files)
-/
namespace Verif.History
open VarInt FileName FileHistory Phase

/-- Objects used in examples: bytes, with differences as diffs. -/
def demo : Ops UInt8 where
  src := 0
  diff a b := .ok [b - a]
  app a d := match d with | [x] => .ok (a + x) | _ => .err

theorem demo_lawful : demo.Lawful := by
  intro a b d h
  cases h
  simp only [demo]
  rw [UInt8.add_comm, UInt8.sub_add_cancel]

theorem demo_total : demo.Total := fun _ _ => ⟨_, rfl⟩

/-- a checked outcome -/
theorem res_ex {α : Type} (r : Res α) (P : α → Bool) (h : (match r with | .ok a => P a | _ => false) = true) :
    ∃ a, r = .ok a ∧ P a = true := by
  cases r with
  | ok a => exact ⟨a, rfl, h⟩
  | err => simp at h
  | panic => simp at h

theorem pair_ex {α β : Type} (r : α × Res β) (b : β) (h : r.2 = .ok b) : r = (r.1, .ok b) := by rw [← h]

/-! ## C51 -/

/-- C51: merging any two ordered maps visits the indices in strictly ascending order (so each at most once); an index is
visited exactly when one of the maps has it, together with what the two maps hold there. -/
theorem C51_zipper {α β : Type} (P : BMap α) (H : BMap β) (hP : Ordered P) (hH : Ordered H) :
    ((zip P H).map (·.1)).Pairwise (· < ·) ∧
    ∀ k h p, (k, h, p) ∈ zip P H ↔ h = BMap.get H k ∧ p = BMap.get P k ∧ (h ≠ none ∨ p ≠ none) := by
  rw [zip_eq_merge P H hP hH]
  exact merge_spec P H hP.1 hH.1

example : Ordered [(0, 'a'), (2, 'b'), (5, 'c')] ∧ Ordered [(2, true), (3, false)] := by simp [Ordered]
example : zip [(0, 'a'), (2, 'b'), (5, 'c')] [(2, true), (3, false)] =
    [(0, none, some 'a'), (2, some true, some 'b'), (3, some false, none), (5, none, some 'c')] := by decide

section
variable {S : Type}

/-! ## C31 -/

/-- C31 (partial): after any sequence of untagged saves and loads, in whatever order the file system lists the directory,
the listing is exactly the sequence of the files saved, in the order in which they were saved. Missing: files saved with a
tag, which are never listed (`C26_tagged_never_listed`). -/
theorem C31_listing_partial (o : Opts) (ops : Ops S) (st : St) (log : List (Props × S)) (hr : Reach o ops st log) :
    ∃ h, st.history = .ok h ∧ h.listFiles = (log.map (·.1)).reverse := by
  obtain ⟨h, hh, hk⟩ := hr.inv.history
  exact ⟨h, hh, hk.listFiles hr.inv.sorted⟩

/-- four saves, one of them after going back to the first file -/
def demoCmds : List (Cmd UInt8) := [.save 0 5, .save 0 6, .save 0 7, .load 0 [0] 1, .save 1 8]

/-- options without cumulative files -/
def plain : Opts := ⟨1, true, none⟩

example : Reach plain demo (play plain shiftExact demo demoCmds).1 (play plain shiftExact demo demoCmds).2 :=
  play_reach _ _ _ _ (by decide)
example : (play plain shiftExact demo demoCmds).2 =
    [(⟨1, 0, [0, 0], none⟩, 8), (⟨0, 0, [0, 1], none⟩, 7), (⟨0, 0, [0, 0], none⟩, 6), (⟨0, 0, [0], none⟩, 5)] := by
  decide +kernel

/-! ## C30 -/

/-- C30 (partial): right after any successful untagged save, the newest file is the one just saved. Missing: tagged saves
(`C30_negation`). -/
theorem C30_newest_partial (o : Opts) (shift : Shift) (ops : Ops S) (st st' : St) (log : List (Props × S))
    (hr : Reach o ops st log) (hl : log.length < 10 ^ 8 - 1) (rid : Nat) (s : S) (p : Props)
    (hs : save o shift ops st rid none s = (st', .ok p)) :
    ∃ h, st'.history = .ok h ∧ h.newest = some p := by
  have hr' := Reach.save shift st st' log rid s p hr hl hs
  obtain ⟨h, hh, hk⟩ := hr'.inv.history
  exact ⟨h, hh, hk.newest hr'.inv.sorted⟩

example : ∃ st' p, save plain shiftExact demo (play plain shiftExact demo demoCmds).1 1 none 9 = (st', .ok p) ∧
    p = ⟨1, 1, [0, 1], none⟩ := ⟨_, _, pair_ex _ _ (by decide +kernel), rfl⟩

/-! ## C32 -/

/-- C32 (partial): a successful untagged save writes a file under a name that was not in the directory, and leaves every
other file as it was. Missing: tagged saves (`C32_negation`). -/
theorem C32_no_overwrite_partial (o : Opts) (shift : Shift) (ops : Ops S) (st st' : St) (log : List (Props × S))
    (hr : Reach o ops st log) (hl : log.length < 10 ^ 8 - 1) (rid : Nat) (s : S) (p : Props)
    (hs : save o shift ops st rid none s = (st', .ok p)) :
    p.filename ∉ st.dir.map (·.1) ∧ ∃ f, st'.dir = st.dir ++ [(p.filename, f)] := by
  obtain ⟨h1, _, h2⟩ := save_inv hr.inv hl shift ops rid s p hs
  exact ⟨h1, h2⟩

/-! ## C26 -/

/-- C26 (partial): a file saved without a tag is listed afterwards. Missing: tagged saves, for which the claim is false. -/
theorem C26_saved_is_listed_partial (o : Opts) (shift : Shift) (ops : Ops S) (st st' : St) (log : List (Props × S))
    (hr : Reach o ops st log) (hl : log.length < 10 ^ 8 - 1) (rid : Nat) (s : S) (p : Props)
    (hs : save o shift ops st rid none s = (st', .ok p)) :
    ∃ h, st'.history = .ok h ∧ p ∈ h.listFiles := by
  obtain ⟨h, hh, hl⟩ := C31_listing_partial o ops st' _ (.save shift st st' log rid s p hr hl hs)
  exact ⟨h, hh, by rw [hl]; simp⟩

end

/-- No file with a tag is ever listed, whatever the directory contains. -/
theorem C26_tagged_never_listed (names : List Bytes) (h : Hist) (hh : createHistory names .empty = .ok h) (p : Props)
    (hp : p ∈ h.listFiles) : p.tag = none := by
  have key : ∀ (names : List Bytes) (g : Hist), HWF g → (∀ c o q, g.getProps c o = some q → q.tag = none) →
      createHistory names g = .ok h → HWF h ∧ ∀ c o q, h.getProps c o = some q → q.tag = none := by
    intro names
    induction names with
    | nil => intro g hg ht hh; cases hh; exact ⟨hg, ht⟩
    | cons n names ih =>
      intro g hg ht hh
      rw [createHistory] at hh
      obtain ⟨x, h1, h2⟩ := bind_ok_inv _ _ _ hh
      cases x with
      | none => exact ih g hg ht h2
      | some q =>
        obtain ⟨a1, a2, a3, a4, a5⟩ := analyze_some n q h1
        have hq : InRange q := ⟨a2, fun x hx => by
          rcases List.mem_cons.1 hx with rfl | hx
          · omega
          · have := a5 x hx; omega⟩
        refine ih (g.add q) (hwf_add g hg q hq) ?_ h2
        intro c o r hr
        rw [hgetProps_add g q a2] at hr
        split at hr
        · cases hr; exact a1
        · exact ht c o r hr
  obtain ⟨h1, h2⟩ := key names .empty hwf_empty (by intro c o q hq; simp [hgetProps, FileHistory.History.empty, BMap.get] at hq) hh
  rw [mem_listFiles h h1] at hp
  exact h2 _ _ _ hp

/-- the tag `x` -/
def tagX : Option Bytes := some [120]

/-- C26 is false for tagged saves: a successful save with the tag `x` is not in the listing. -/
theorem C26_negation : ∃ st log st' p h, Reach plain demo st log ∧
    save plain shiftExact demo st 0 tagX 6 = (st', .ok p) ∧ st'.history = .ok h ∧ p ∉ h.listFiles := by
  obtain ⟨h, h1, h2⟩ := res_ex (save plain shiftExact demo (play plain shiftExact demo [.save 0 5]).1 0 tagX 6).1.history
    (fun h => decide (⟨0, 0, [0, 0], tagX⟩ ∉ h.listFiles)) (by decide +kernel)
  exact ⟨_, _, _, ⟨0, 0, [0, 0], tagX⟩, h, play_reach plain shiftExact demo [.save 0 5] (by decide),
    pair_ex _ _ (by decide +kernel), h1, by simpa using h2⟩

/-- Worse, a first save with a tag writes its file and then reports an error. -/
theorem C26_negation_first : ∃ st', save plain shiftExact demo ⟨[], none⟩ 0 tagX 6 = (st', .err) ∧
    st'.dir ≠ [] :=
  ⟨(save plain shiftExact demo ⟨[], none⟩ 0 tagX 6).1, Prod.ext rfl (by decide +kernel), by decide +kernel⟩

/-- And after a save with the empty tag, listing the directory panics. -/
theorem C26_negation_empty_tag : ∃ st', save plain shiftExact demo (play plain shiftExact demo [.save 0 5]).1 0 (some []) 6 =
    (st', .ok ⟨0, 0, [0, 0], some []⟩) ∧ st'.history = .panic := by
  refine ⟨_, pair_ex _ _ (by decide +kernel), ?_⟩
  have h : (match (save plain shiftExact demo (play plain shiftExact demo [.save 0 5]).1 0 (some []) 6).1.history with
      | .panic => true | _ => false) = true := by decide +kernel
  split at h
  · assumption
  · cases h

/-- C30 is false for tagged saves. -/
theorem C30_negation : ∃ st log st' p h, Reach plain demo st log ∧
    save plain shiftExact demo st 0 tagX 6 = (st', .ok p) ∧ st'.history = .ok h ∧ h.newest ≠ some p := by
  obtain ⟨h, h1, h2⟩ := res_ex (save plain shiftExact demo (play plain shiftExact demo [.save 0 5]).1 0 tagX 6).1.history
    (fun h => decide (h.newest ≠ some ⟨0, 0, [0, 0], tagX⟩)) (by decide +kernel)
  exact ⟨_, _, _, ⟨0, 0, [0, 0], tagX⟩, h, play_reach plain shiftExact demo [.save 0 5] (by decide),
    pair_ex _ _ (by decide +kernel), h1, by simpa using h2⟩

/-- the states of `C32_negation` -/
def over1 : St := (save plain shiftExact demo ⟨[], none⟩ 0 none 5).1
def over2 : St := (save plain shiftExact demo over1 0 tagX 6).1
def over3 : St := ⟨over2.dir, some (1, ⟨0, 0, [0], none⟩)⟩
def over4 : St := (save plain shiftExact demo over3 1 tagX 7).1

/-- C32 is false for tagged saves: save; save with the tag `x`; load the first file and save with the tag `x` again. The
second tagged save overwrites the file of the first one; both reported success. -/
theorem C32_negation : ∃ (st1 st2 st3 st4 : St) (p q : Props) (h : Hist),
    save plain shiftExact demo ⟨[], none⟩ 0 none 5 = (st1, .ok p) ∧
    save plain shiftExact demo st1 0 tagX 6 = (st2, .ok q) ∧
    st2.history = .ok h ∧ p ∈ h.listFiles ∧ loadFile plain demo st2 h p 1 = (st3, .ok 5) ∧
    save plain shiftExact demo st3 1 tagX 7 = (st4, .ok q) ∧
    q.filename ∈ st3.dir.map (·.1) ∧ st4.dir.read q.filename ≠ st3.dir.read q.filename := by
  obtain ⟨h, h1, h2⟩ := res_ex over2.history (fun h => decide (⟨0, 0, [0], none⟩ ∈ h.listFiles ∧
    load plain demo over2.dir h ⟨0, 0, [0], none⟩ = .ok 5)) (by decide +kernel)
  rw [decide_eq_true_eq] at h2
  refine ⟨over1, over2, over3, over4, ⟨0, 0, [0], none⟩, ⟨0, 0, [0, 0], tagX⟩, h, pair_ex _ _ (by decide +kernel),
    pair_ex _ _ (by decide +kernel), h1, h2.1, ?_, pair_ex _ _ (by decide +kernel), by decide +kernel, by decide +kernel⟩
  unfold loadFile
  rw [h2.2]
  rfl

/-! ## C29 -/

section
variable {S : Type}

/-- C29 (partial): after any sequence of untagged saves and loads, loading any saved file gives the object saved in it, with
one exception, `Lost`: without the cumulative option, a file of the last phase that continues a file derived from an older
one. These files, and only these, cannot be loaded. Missing: the exception (`C29_negation`) and tagged files. -/
theorem C29_load_saved_partial (o : Opts) (ops : Ops S) (hlaw : ops.Lawful) (st : St) (log : List (Props × S))
    (hr : Reach o ops st log) :
    ∃ h, st.history = .ok h ∧ ∀ p s, (p, s) ∈ log →
      (¬ Lost o log p → load o ops st.dir h p = .ok s) ∧ (Lost o log p → load o ops st.dir h p = .err) := by
  obtain ⟨h, hh, _⟩ := hr.inv.history
  refine ⟨h, hh, fun p s he => ⟨fun hn => ?_, fun hl => lost_not_loaded hr h hh (p, s) he hl⟩⟩
  rcases hr.loads hlaw h hh (p, s) he with hl | hl
  · exact load_of_loads hr.inv h (p, s) he s hl
  · exact absurd hl hn

/-- C29 with the cumulative option (the default), for every listed file. -/
theorem C29_load_saved_cumulative (o : Opts) (hc : o.cumulative.isSome = true) (ops : Ops S) (hlaw : ops.Lawful) (st : St)
    (log : List (Props × S)) (hr : Reach o ops st log) :
    ∃ h, st.history = .ok h ∧ ∀ p ∈ h.listFiles, ∃ s, (p, s) ∈ log ∧ load o ops st.dir h p = .ok s := by
  obtain ⟨h, hh, hl⟩ := C31_listing_partial o ops st log hr
  obtain ⟨h', hh', hload⟩ := C29_load_saved_partial o ops hlaw st log hr
  rw [hh] at hh'
  cases hh'
  refine ⟨h, hh, fun p hp => ?_⟩
  rw [hl, List.mem_reverse] at hp
  obtain ⟨⟨q, s⟩, he, rfl⟩ := List.mem_map.1 hp
  refine ⟨s, he, ?_⟩
  refine (hload q s he).1 fun h1 => ?_
  rw [h1.1] at hc
  simp at hc

end

/-- cumulative files without limits -/
def cumul : Opts := ⟨1, true, some ⟨none, none⟩⟩

example : cumul.build = .ok cumul ∧ plain.build = .ok plain := by decide
example : (play cumul shiftExact demo (demoCmds ++ [.save 1 9, .save 1 10])).2.map (·.1) =
    [⟨1, 1, [0, 2], none⟩, ⟨1, 1, [0, 1], none⟩, ⟨1, 0, [0, 0], none⟩, ⟨0, 0, [0, 1], none⟩, ⟨0, 0, [0, 0], none⟩,
      ⟨0, 0, [0], none⟩] := by decide +kernel

/-- C29 is false without the cumulative option: going back to the first file, saving and saving again gives a file that
cannot be loaded. -/
theorem C29_negation : plain.build = .ok plain ∧ ∃ st log h p s, Reach plain demo st log ∧ (p, s) ∈ log ∧
    st.history = .ok h ∧ load plain demo st.dir h p = .err := by
  obtain ⟨h, h1, h2⟩ := res_ex (play plain shiftExact demo (demoCmds ++ [.save 1 9])).1.history (fun h =>
    decide (load plain demo (play plain shiftExact demo (demoCmds ++ [.save 1 9])).1.dir h ⟨1, 1, [0, 1], none⟩ = .err))
    (by decide +kernel)
  exact ⟨by decide, _, _, h, ⟨1, 1, [0, 1], none⟩, 9, play_reach plain shiftExact demo (demoCmds ++ [.save 1 9]) (by decide),
    by decide +kernel, h1, by simpa using h2⟩

/-! ## C50 -/

section
variable {S : Type}

/-- **C50, exactly.** In every reachable state, with any accepted options, saving any object succeeds unless the file that it would continue
is stuck: a file of the last phase that is not the newest and whose parent is not there (`Orphan`), or one of those of C29 that have no
parent either (`Lost`). Then the save fails, and changes nothing. Objects that are not the current one can always be saved. Missing from
C50: computations of the phase that panic (C52). -/
theorem C50_exact (o : Opts) (ho : o.build = .ok o) (shift : Shift) (hp : ∀ d, calcNextPhase o shift d ≠ .panic) (ops : Ops S)
    (hlaw : ops.Lawful) (ht : ops.Total) (st : St) (log : List (Props × S)) (hr : Reach o ops st log) (hl : log.length < 10 ^ 8 - 1)
    (rid : Nat) (s : S) :
    ((∃ st' p, save o shift ops st rid none s = (st', .ok p)) ↔ ∀ b, st.base = some (rid, b) → ¬ Stuck o log b) ∧
      ∀ b, st.base = some (rid, b) → Stuck o log b → save o shift ops st rid none s = (st, .err) := by
  refine ⟨⟨?_, save_free ho hr hl hlaw ht shift hp rid s⟩, save_stuck hr shift hp rid s⟩
  rintro ⟨st', p, hs⟩ b hb hst
  rw [save_stuck hr shift hp rid s b hb hst] at hs
  cases hs

/-- **C50, exactly, after loading.** A listed file that can be loaded (it is not lost, C29) can be followed by a save exactly if it is not an
orphan, and what was saved can then be loaded again exactly if the new file is not lost. -/
theorem C50_after_load_exact (o : Opts) (ho : o.build = .ok o) (shift : Shift) (hp : ∀ d, calcNextPhase o shift d ≠ .panic) (ops : Ops S)
    (hlaw : ops.Lawful) (ht : ops.Total) (st st' : St) (log : List (Props × S)) (hr : Reach o ops st log) (hl : log.length < 10 ^ 8 - 1)
    (h : Hist) (hh : st.history = .ok h) (p : Props) (hpl : p ∈ h.listFiles) (rid : Nat) (s0 s : S)
    (hload : loadFile o ops st h p rid = (st', .ok s0)) :
    (p, s0) ∈ log ∧
    (¬ Orphan o log p → ∃ st'' q h'', save o shift ops st' rid none s = (st'', .ok q) ∧ st''.history = .ok h'' ∧
      (¬ Lost o ((q, s) :: log) q → load o ops st''.dir h'' q = .ok s) ∧
      (Lost o ((q, s) :: log) q → load o ops st''.dir h'' q = .err)) ∧
    (Orphan o log p → save o shift ops st' rid none s = (st', .err)) := by
  obtain ⟨h', hh', hall⟩ := C29_load_saved_partial o ops hlaw st log hr
  rw [hh] at hh'
  cases hh'
  obtain ⟨h', hh', hlist⟩ := C31_listing_partial o ops st log hr
  rw [hh] at hh'
  cases hh'
  have hr' : Reach o ops st' log := by
    have := Reach.load st log h p rid hr hh hpl
    rwa [hload] at this
  rw [hlist, List.mem_reverse] at hpl
  obtain ⟨⟨p, s1⟩, he, rfl⟩ := List.mem_map.1 hpl
  have hnl : ¬ Lost o log p := by
    intro hlost
    have := (hall p s1 he).2 hlost
    simp only at hload
    unfold loadFile at hload
    rw [this] at hload
    cases hload
  have hld := (hall p s1 he).1 hnl
  have hload' := hload
  simp only at hload'
  unfold loadFile at hload'
  rw [hld] at hload'
  cases hload'
  refine ⟨he, fun hno => ?_, fun hor => save_stuck hr' shift hp rid s p rfl (Or.inl hor)⟩
  obtain ⟨st'', q, hs⟩ := save_free ho hr' hl hlaw ht shift hp rid s (by
    intro b hb hst
    cases hb
    exact hst.elim hno hnl)
  have hr'' := Reach.save shift _ _ log rid s q hr' hl hs
  obtain ⟨h'', hh'', hall''⟩ := C29_load_saved_partial o ops hlaw st'' _ hr''
  exact ⟨st'', q, h'', hs, hh'', (hall'' q s (by simp)).1, (hall'' q s (by simp)).2⟩

/-- **C50 without cumulative files.** Without the cumulative option, and with more than one phase, every file that can be loaded can be
followed by a save, also in histories with derived files. -/
theorem C50_plain (o : Opts) (ho : o.build = .ok o) (hm : o.maxPhase ≠ 0) (hc : o.cumulative = none) (shift : Shift)
    (hp : ∀ d, calcNextPhase o shift d ≠ .panic) (ops : Ops S) (hlaw : ops.Lawful) (ht : ops.Total) (st st' : St) (log : List (Props × S))
    (hr : Reach o ops st log) (hl : log.length < 10 ^ 8 - 1) (h : Hist) (hh : st.history = .ok h) (p : Props) (hpl : p ∈ h.listFiles)
    (rid : Nat) (s0 s : S) (hload : loadFile o ops st h p rid = (st', .ok s0)) :
    ∃ st'' q, save o shift ops st' rid none s = (st'', .ok q) := by
  obtain ⟨he, h1, h2⟩ := C50_after_load_exact o ho shift hp ops hlaw ht st st' log hr hl h hh p hpl rid s0 s hload
  by_cases hor : Orphan o log p
  · exfalso
    have hlost := (stuck_plain hlaw hr hm hc (p, s0) he).1 (Or.inl hor)
    have := lost_not_loaded hr h hh (p, s0) he hlost
    simp only at this
    unfold loadFile at hload
    rw [this] at hload
    cases hload
  · obtain ⟨st'', q, _, hs, _⟩ := h1 hor
    exact ⟨st'', q, hs⟩

/-- C50 (partial): if no file of the history was derived from a file that was not the newest, then loading any listed file
succeeds, saving any object in its place afterwards succeeds, and the file created can be loaded again, so that all its
dependencies are present. Missing: `max_phase = 0`, histories with derived files (both false, see below), and phase
computations that panic (C52). -/
theorem C50_save_after_load_partial (o : Opts) (ho : o.build = .ok o) (hm : o.maxPhase ≠ 0) (shift : Shift)
    (hp : ∀ d, calcNextPhase o shift d ≠ .panic) (ops : Ops S) (hlaw : ops.Lawful) (ht : ops.Total) (st : St)
    (log : List (Props × S)) (hr : Reach o ops st log) (hl : log.length < 10 ^ 8 - 1)
    (hnd : ∀ e ∈ log, e.1.prevCtl = e.1.control) (h : Hist) (hh : st.history = .ok h) (p : Props) (hpl : p ∈ h.listFiles)
    (rid : Nat) (s : S) :
    ∃ st' s0 st'' q h'', loadFile o ops st h p rid = (st', .ok s0) ∧ (p, s0) ∈ log ∧
      save o shift ops st' rid none s = (st'', .ok q) ∧ st''.history = .ok h'' ∧ load o ops st''.dir h'' q = .ok s := by
  obtain ⟨h', hh', hall⟩ := C29_load_saved_partial o ops hlaw st log hr
  rw [hh] at hh'
  cases hh'
  have hlist := C31_listing_partial o ops st log hr
  obtain ⟨h', hh', hlist⟩ := hlist
  rw [hh] at hh'
  cases hh'
  have hpl' := hpl
  rw [hlist, List.mem_reverse] at hpl'
  obtain ⟨⟨p, s0⟩, he, rfl⟩ := List.mem_map.1 hpl'
  have hload : load o ops st.dir h p = .ok s0 := by
    refine (hall p s0 he).1 ?_
    rintro ⟨_, _, _, q, hq, _, hne, _⟩
    exact hne (hnd q hq)
  have hlf : loadFile o ops st h p rid = (⟨st.dir, some (rid, p)⟩, .ok s0) := by
    unfold loadFile; rw [hload]
  have hr' : Reach o ops ⟨st.dir, some (rid, p)⟩ log := by
    have := Reach.load st log h p rid hr hh hpl
    rwa [hlf] at this
  obtain ⟨st'', q, hs⟩ := save_free ho hr' hl hlaw ht shift hp rid s (by
    intro b hb
    cases hb
    exact stuck_linear hlaw hr hm hnd (p, s0) he)
  have hr'' := Reach.save shift _ _ log rid s q hr' hl hs
  obtain ⟨h'', hh'', hall''⟩ := C29_load_saved_partial o ops hlaw st'' _ hr''
  refine ⟨_, s0, st'', q, h'', hlf, he, hs, hh'', (hall'' q s (by simp)).1 ?_⟩
  rintro ⟨hcu, hm', hpc, x, hx, x1, x2, x3, x4⟩
  rcases List.mem_cons.1 hx with rfl | hx
  · exact x2 hpc
  · exact x2 (hnd x hx)

end

example : ∃ st log, Reach plain demo st log ∧ (∀ e ∈ log, e.1.prevCtl = e.1.control) ∧ log.length = 3 ∧
    st.base = some (1, ⟨0, 0, [0, 0], none⟩) :=
  ⟨_, _, play_reach plain shiftExact demo [.save 0 5, .save 0 6, .save 0 7, .load 0 [0, 0] 1] (by decide), by decide +kernel,
    by decide +kernel, by decide +kernel⟩

/-- The history of `C29_negation`, before its last save, has derived files; its first derived file is not stuck, can be loaded and saved
after. -/
example : ∃ st log, Reach plain demo st log ∧ (∃ e ∈ log, e.1.prevCtl ≠ e.1.control) ∧
    st.base = some (2, ⟨1, 0, [0, 0], none⟩) ∧ (∃ p, (save plain shiftExact demo st 2 none 9).2 = .ok p) :=
  ⟨_, _, play_reach plain shiftExact demo (demoCmds ++ [.load 1 [0, 0] 2]) (by decide), by decide +kernel,
    by decide +kernel, ⟨1, 1, [0, 1], none⟩, by decide +kernel⟩

/-- C50 is false with `max_phase = 0`: saving after loading a file that is not the newest always fails. -/
theorem C50_negation : ∃ o st log rid, o.build = .ok o ∧ o.maxPhase = 0 ∧ Reach o demo st log ∧
    st.base = some (rid, ⟨0, 0, [0], none⟩) ∧ (save o shiftExact demo st rid none 9).2 = .err := by
  refine ⟨⟨0, true, none⟩, _, _, 1, by decide, rfl, play_reach _ shiftExact demo [.save 0 5, .save 0 6, .load 0 [0] 1]
    (by decide), ?_, ?_⟩ <;> decide +kernel

/-- C50 is false with cumulative files: go back to the first file, save three times, go back to the second of these files
and save. -/
theorem C50_negation_cumulative : ∃ st log rid, Reach cumul demo st log ∧
    st.base = some (rid, ⟨1, 1, [0, 1], none⟩) ∧ (save cumul shiftExact demo st rid none 12).2 = .err := by
  refine ⟨_, _, 2, play_reach cumul shiftExact demo (demoCmds ++ [.save 1 9, .save 1 10, .load 1 [0, 1] 2])
    (by decide), ?_, ?_⟩ <;> decide +kernel

/-- C50 is false without cumulative files as well: the unloadable file of `C29_negation` is also the base of all further
saves, which fail. -/
theorem C50_negation_plain : ∃ st log, Reach plain demo st log ∧
    st.base = some (1, ⟨1, 1, [0, 1], none⟩) ∧ (save plain shiftExact demo st 1 none 10).2 = .err := by
  refine ⟨_, _, play_reach plain shiftExact demo (demoCmds ++ [.save 1 9]) (by decide), ?_, ?_⟩ <;> decide +kernel

end Verif.History
