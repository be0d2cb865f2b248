import Verif.Lemmas.RemovalRun
import Verif.Props.Remover
/-!
# Property C85 (files removed in the middle of a history)
-/
namespace Verif.Removal
open VarInt FileName FileHistory Phase History Remover

section
variable {S : Type}

/-! ## Removing anything but the newest file -/

/-- C85, soundness: save, load, restart and remove any files but the newest one, in any order. The listed files are those of the
written files that are still there. Loading one of them gives the object that was saved in it, or an error. A gap in the
history never leads to a different object or a panic. -/
theorem C85_never_wrong (o : Opts) (ops : Ops S) (hlaw : ops.Lawful) (st : St) (log : List (Props × S))
    (hr : ReachR Others o ops st log) :
    ∃ h, st.history = .ok h ∧ (∀ p, p ∈ h.listFiles ↔ (∃ s, (p, s) ∈ log) ∧ There st p) ∧
      ∀ p s, (p, s) ∈ log → p ∈ h.listFiles → load o ops st.dir h p = .ok s ∨ load o ops st.dir h p = .err := by
  obtain ⟨g, hs⟩ := hr.sim
  obtain ⟨h, hh, hk⟩ := hs.history
  obtain ⟨hg, hhg, hload⟩ := C29_load_saved_partial o ops hlaw g log hs.reach
  refine ⟨h, hh, fun p => ?_, fun p s he hp => ?_⟩
  · rw [hs.listed h hh]
    simp
  · rcases hs.load_cases h hg hh hhg p hp with ⟨l, _, _, h3⟩ | ⟨h3, _⟩
    · rw [h3]
      by_cases hl : Lost o log p
      · exact .inr ((hload p s he).2 hl)
      · exact .inl ((hload p s he).1 hl)
    · exact .inr h3

/-- C85, exactly: a listed file can be loaded if and only if all files it needs are there (and it is not one of the files
of which the code loses the parent, see C29). -/
theorem C85_exact (o : Opts) (ops : Ops S) (hlaw : ops.Lawful) (st : St) (log : List (Props × S))
    (hr : ReachR Others o ops st log) (h : FileHistory.History) (hh : st.history = .ok h) (p : Props) (s : S) (he : (p, s) ∈ log)
    (hp : p ∈ h.listFiles) :
    load o ops st.dir h p = .ok s ↔ ¬ Lost o log p ∧ ∀ q, Needs o log p q → There st q := by
  obtain ⟨g, hs⟩ := hr.sim
  obtain ⟨hg, hhg, hload⟩ := C29_load_saved_partial o ops hlaw g log hs.reach
  have hkg := reach_knows hs.reach hg hhg
  obtain ⟨_, hne, hlen, _⟩ := hs.reach.inv.small (p, s) he
  have ht := ((hs.listed h hh p).1 hp).2
  constructor
  · intro hl
    rcases hs.load_cases h hg hh hhg p hp with ⟨l, h1, h2, h3⟩ | ⟨h3, _⟩
    · refine ⟨fun hlost => ?_, fun q hq => ?_⟩
      · rw [h3, (hload p s he).2 hlost] at hl
        cases hl
      · exact hs.chain_there h hh p ht l h1 q ((needs_chain hg hkg p hne hlen l h2 q).2 hq)
    · rw [hl] at h3; cases h3
  · rintro ⟨hnl, hall⟩
    rcases hs.reach.loads hlaw hg hhg (p, s) he with ⟨l, h1, _⟩ | hlost
    · have h2 := hs.chain h hg hh hhg p l h1 (fun a ha => hall a ((needs_chain hg hkg p hne hlen l h1 a).1 ha))
      rcases hs.load_cases h hg hh hhg p hp with ⟨_, _, _, h3⟩ | ⟨_, h3⟩
      · rw [h3]
        exact (hload p s he).1 hnl
      · rw [h2] at h3; cases h3
    · exact absurd hlost hnl

/-! ## Removing old files -/

/-- `remove_old_files` never removes the newest file, if at least one file is to be kept. -/
theorem ReachR.others {o : Opts} {ops : Ops S} {st : St} {log : List (Props × S)} (hr : ReachR (Old o) o ops st log) :
    ReachR Others o ops st log := by
  induction hr with
  | start dir hn hf => exact .start dir hn hf
  | save shift st st' log rid s p _ hl hs ih => exact .save shift st st' log rid s p ih hl hs
  | unfinished shift st st' log rid s p _ hl hs ih => exact .unfinished shift st st' log rid s p ih hl hs
  | fail shift st st' log rid s r _ hl hs hf ih => exact .fail shift st st' log rid s r ih hl hs hf
  | load st log h p rid _ hh hp ih => exact .load st log h p rid ih hh hp
  | list st dir log _ hp ih => exact .list st dir log ih hp
  | restart st log _ ih => exact .restart st log ih
  | other st log r e _ he ih => exact .other st log r e ih he
  | remove st log h gone _ hh hm ih =>
    obtain ⟨g, hg⟩ := ih.sim
    exact .remove st log h gone ih hh (hg.old h hh gone hm)

/-- C85 (partial), the remover: save, load, restart and call `remove_old_files` (keeping at least one file) in any order, as often as you
like. Every listed file still loads as the object that was saved in it, if the files are not cumulative or there are exactly two phases.
Missing: cumulative files with three or more phases, the default (`C85_negation`), or with only one. -/
theorem C85_old_partial (o : Opts) (hc : o.cumulative = none ∨ o.maxPhase = 1) (ops : Ops S) (hlaw : ops.Lawful) (st : St)
    (log : List (Props × S)) (hr : ReachR (Old o) o ops st log) :
    ∃ h, st.history = .ok h ∧ ∀ p s, (p, s) ∈ log → p ∈ h.listFiles → ¬ Lost o log p → load o ops st.dir h p = .ok s := by
  obtain ⟨g, hs, hcl⟩ := closed_of hc hlaw hr
  obtain ⟨h, hh, hk⟩ := hs.history
  obtain ⟨hg, hhg, _⟩ := hs.reach.inv.history
  have hkg := reach_knows hs.reach hg hhg
  refine ⟨h, hh, fun p s he hp hnl => ?_⟩
  obtain ⟨_, hne, hlen, _⟩ := hs.reach.inv.small (p, s) he
  refine (C85_exact o ops hlaw st log hr.others h hh p s he hp).2 ⟨hnl, fun q hq => ?_⟩
  rcases hs.reach.loads hlaw hg hhg (p, s) he with ⟨l, h1, _⟩ | hlost
  · exact hcl hg hhg (p, s) he ((hs.listed h hh p).1 hp).2 hnl l h1 q ((needs_chain hg hkg p hne hlen l h1 q).2 hq)
  · exact absurd hlost hnl

/-! ## Runs -/

/-- A command of `Cmd`, or `remove_old_files`, keeping `n + 1` files. -/
inductive RCmd (S : Type) where
  | cmd (c : Cmd S)
  | old (n : Nat)

def playOneR (o : Opts) (shift : Shift) (ops : Ops S) (x : St × List (Props × S)) : RCmd S → St × List (Props × S)
  | .cmd c => playOne o shift ops x c
  | .old n =>
    match x.1.history with
    | .ok h => (⟨removeOldFiles o h (n + 1) x.1.dir, x.1.base⟩, x.2)
    | _ => x

def playR (o : Opts) (shift : Shift) (ops : Ops S) (cmds : List (RCmd S)) : St × List (Props × S) :=
  cmds.foldl (playOneR o shift ops) (⟨[], none⟩, [])

theorem playOneR_reach (o : Opts) (shift : Shift) (ops : Ops S) (x : St × List (Props × S)) (c : RCmd S)
    (hr : ReachR (Old o) o ops x.1 x.2) (hl : x.2.length < 10 ^ 8 - 1) :
    ReachR (Old o) o ops (playOneR o shift ops x c).1 (playOneR o shift ops x c).2 ∧
      (playOneR o shift ops x c).2.length ≤ x.2.length + 1 := by
  cases c with
  | old n =>
    rw [playOneR]
    split
    · rename_i h hh
      exact ⟨.remove x.1 x.2 h _ hr hh ⟨n + 1, by omega, rfl⟩, by simp⟩
    · exact ⟨hr, by simp⟩
  | cmd c =>
    rw [playOneR]
    cases c with
    | save rid s =>
      rw [playOne]
      split
      · rename_i st' p hs
        exact ⟨.save shift x.1 st' x.2 rid s p hr hl hs, by simp⟩
      · rename_i st' hs
        exact ⟨.fail shift x.1 st' x.2 rid s .err hr hl hs (by simp), by simp⟩
      · rename_i st' hs
        exact ⟨.fail shift x.1 st' x.2 rid s .panic hr hl hs (by simp), by simp⟩
    | load c ord rid =>
      rw [playOne]
      split
      · rename_i h hh
        split
        · rename_i p hp
          obtain ⟨g, hg⟩ := hr.others.sim
          have hk := hg.knows h hh
          refine ⟨.load x.1 x.2 h p rid hr hh ?_, by simp⟩
          rw [mem_listFiles h hk.1]
          have := (hgetProps_key h hk.1 _ _ _ hp).1
          simp only [key, List.cons.injEq] at this
          rw [this.1, this.2]
          exact hp
        · exact ⟨hr, by simp⟩
      · exact ⟨hr, by simp⟩
      · exact ⟨hr, by simp⟩

theorem playR_reach (o : Opts) (shift : Shift) (ops : Ops S) (cmds : List (RCmd S)) (hl : cmds.length < 10 ^ 8 - 1) :
    ReachR (Old o) o ops (playR o shift ops cmds).1 (playR o shift ops cmds).2 := by
  unfold playR
  have : ∀ (cmds : List (RCmd S)) (x : St × List (Props × S)), ReachR (Old o) o ops x.1 x.2 → x.2.length + cmds.length < 10 ^ 8 - 1 →
      ReachR (Old o) o ops (cmds.foldl (playOneR o shift ops) x).1 (cmds.foldl (playOneR o shift ops) x).2 := by
    intro cmds
    induction cmds with
    | nil => intro x hx _; exact hx
    | cons c cmds ih =>
      intro x hx hl
      obtain ⟨h1, h2⟩ := playOneR_reach o shift ops x c hx (by simp at hl; omega)
      exact ih _ h1 (by simp at hl; omega)
  exact this cmds _ (.start [] (by simp) (by simp)) (by simpa using hl)

end

/-- two phases of cumulative files: five saves, going back to the first file, a save and two removals -/
def keptCmds : List (RCmd UInt8) :=
  [.cmd (.save 0 1), .cmd (.save 0 2), .cmd (.save 0 3), .cmd (.load 0 [0] 1), .cmd (.save 1 4), .old 0, .cmd (.save 1 5), .old 0]
def keptRun := playR cumul shiftExact demo keptCmds

example : ReachR (Old cumul) cumul demo keptRun.1 keptRun.2 := playR_reach _ _ _ _ (by decide)
example : keptRun.2.length = 5 ∧ keptRun.1.dir.length = 3 := by decide +kernel
example : ∃ h, keptRun.1.history = .ok h ∧
    decide (h.listFiles = [⟨0, 0, [0], none⟩, ⟨1, 0, [0, 0], none⟩, ⟨1, 1, [0, 1], none⟩] ∧
      load cumul demo keptRun.1.dir h ⟨1, 1, [0, 1], none⟩ = .ok 5) = true :=
  res_ex _ _ (by decide +kernel)

/-- five saves in a row, `remove_old_files`, one more save -/
def linearCmds : List (RCmd UInt8) :=
  [.cmd (.save 0 1), .cmd (.save 0 2), .cmd (.save 0 3), .cmd (.save 0 4), .cmd (.save 0 5), .old 0, .cmd (.save 0 6)]
def linearRun := playR Opts.default shiftExact demo linearCmds
/-- and `remove_old_files` again -/
def linearLoss := playR Opts.default shiftExact demo (linearCmds ++ [.old 0])

/-- C85 (and C33) is violated with the default options, by saves in a row without any derivation: after five saves, a removal that
keeps the latest file, one more save and another such removal, two files are left, neither of them can be loaded,
and nothing can be saved any more. Before the last removal, both of them could be loaded. -/
theorem C85_negation :
    ReachR (Old Opts.default) Opts.default demo linearRun.1 linearRun.2 ∧
    ReachR (Old Opts.default) Opts.default demo linearLoss.1 linearLoss.2 ∧
    (∀ e ∈ linearLoss.2, e.1.prevCtl = e.1.control) ∧
    (∃ h, linearRun.1.history = .ok h ∧ load Opts.default demo linearRun.1.dir h ⟨0, 0, [0, 0, 1], none⟩ = .ok 5 ∧
      load Opts.default demo linearRun.1.dir h ⟨0, 0, [0, 0, 1, 0], none⟩ = .ok 6) ∧
    (∃ h, linearLoss.1.history = .ok h ∧ h.listFiles = [⟨0, 0, [0, 0, 1], none⟩, ⟨0, 0, [0, 0, 1, 0], none⟩] ∧
      load Opts.default demo linearLoss.1.dir h ⟨0, 0, [0, 0, 1], none⟩ = .err ∧
      load Opts.default demo linearLoss.1.dir h ⟨0, 0, [0, 0, 1, 0], none⟩ = .err) ∧
    (save Opts.default shiftExact demo linearLoss.1 0 none 7).2 = .err := by
  refine ⟨playR_reach _ _ _ _ (by decide), playR_reach _ _ _ _ (by decide), by decide +kernel, ?_, ?_, by decide +kernel⟩
  · obtain ⟨h, hh, hP⟩ := res_ex linearRun.1.history
      (fun h => decide (load Opts.default demo linearRun.1.dir h ⟨0, 0, [0, 0, 1], none⟩ = .ok 5 ∧
        load Opts.default demo linearRun.1.dir h ⟨0, 0, [0, 0, 1, 0], none⟩ = .ok 6)) (by decide +kernel)
    exact ⟨h, hh, of_decide_eq_true hP⟩
  · obtain ⟨h, hh, hP⟩ := res_ex linearLoss.1.history
      (fun h => decide (h.listFiles = [⟨0, 0, [0, 0, 1], none⟩, ⟨0, 0, [0, 0, 1, 0], none⟩] ∧
        load Opts.default demo linearLoss.1.dir h ⟨0, 0, [0, 0, 1], none⟩ = .err ∧
        load Opts.default demo linearLoss.1.dir h ⟨0, 0, [0, 0, 1, 0], none⟩ = .err)) (by decide +kernel)
    exact ⟨h, hh, of_decide_eq_true hP⟩

/-- The file that was needed and is gone: the second one. -/
example : Needs Opts.default linearLoss.2 ⟨0, 0, [0, 0, 1], none⟩ ⟨0, 0, [0, 0], none⟩ := by
  refine .next _ _ _ ⟨⟨(⟨0, 0, [0, 0], none⟩, 2), by decide +kernel, rfl⟩, rfl, .inr ⟨?_, by decide, 1, rfl⟩⟩ (.self _)
  rintro ⟨_, h, _⟩
  revert h
  decide
example : linearLoss.1.dir.read (⟨0, 0, [0, 0], none⟩ : Props).filename = none := by decide +kernel

end Verif.Removal
