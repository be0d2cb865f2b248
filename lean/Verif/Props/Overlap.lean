import Verif.Lemmas.Overlap
import Verif.Props.History
/-!
# Property C89 (saves of several processes that overlap)
-/
namespace Verif.Overlap
open VarInt FileName FileHistory Phase History

section
variable {S : Type}

/-- C89 (partial): saves of several processes overlap in any way. As long as none of them writes a file with the control number and order of
a file that is there, every file that was written is listed and is loaded as the object that was saved, except the files of C29 (`Lost`), which exist only
without the cumulative option. Missing: the condition (`C89_negation_overwritten`, `C89_negation_hidden`) and the files of C29, which now may be
loaded as something else (`C89_negation_lost`). -/
theorem C89_overlap_partial (o : Opts) (ops : Ops S) (hlaw : ops.Lawful) (dir : Dir) (plans : List (Plan S)) (log : List (Props × S))
    (hr : OReach Fresh o ops dir plans log) :
    ∃ h, St.history ⟨dir, none⟩ = .ok h ∧ (∀ p, p ∈ h.listFiles ↔ ∃ s, (p, s) ∈ log) ∧
      ∀ p s, (p, s) ∈ log → ¬ Lost o log p → load o ops dir h p = .ok s := by
  have hi := hr.inv hlaw
  obtain ⟨log', hp, hinv⟩ := hi.inv
  obtain ⟨h, hh, hk⟩ := hinv.history
  refine ⟨h, hh, fun p => ?_, fun p s he hn => ?_⟩
  · rw [mem_listFiles h hk.1, hk.2]
    constructor
    · rintro ⟨⟨e, he, rfl⟩, _⟩
      exact ⟨e.2, hp.mem_iff.1 he⟩
    · rintro ⟨s, he⟩
      exact ⟨⟨(p, s), hp.mem_iff.2 he, rfl⟩, rfl⟩
  · rcases hi.loads h hh (p, s) he with h1 | h1
    · exact load_of_loads hinv h (p, s) (hp.mem_iff.2 he) s h1
    · exact absurd h1 hn

/-- C89 with the cumulative option (the default). -/
theorem C89_overlap_cumulative (o : Opts) (hc : o.cumulative.isSome = true) (ops : Ops S) (hlaw : ops.Lawful) (dir : Dir)
    (plans : List (Plan S)) (log : List (Props × S)) (hr : OReach Fresh o ops dir plans log) :
    ∃ h, St.history ⟨dir, none⟩ = .ok h ∧ (∀ p, p ∈ h.listFiles ↔ ∃ s, (p, s) ∈ log) ∧
      ∀ p s, (p, s) ∈ log → load o ops dir h p = .ok s := by
  obtain ⟨h, h1, h2, h3⟩ := C89_overlap_partial o ops hlaw dir plans log hr
  refine ⟨h, h1, h2, fun p s he => h3 p s he fun hl => ?_⟩
  rw [hl.1] at hc
  simp at hc

/-- C89: only files that are written between the listing and the writing of a save can be in its way: no file that was there when it was planned has its
control number and order. In particular a save without another one in between is never in the way (C32). -/
theorem C89_only_newer (o : Opts) (ops : Ops S) (hlaw : ops.Lawful) (shift : Shift) (dir : Dir) (plans : List (Plan S))
    (log : List (Props × S)) (hr : OReach Fresh o ops dir plans log) (hl : log.length < 10 ^ 8 - 1) (base : Option (Nat × Props))
    (hb : ∀ r q, base = some (r, q) → ∃ e ∈ log, e.1 = q) (rid : Nat) (s : S) (st' : St) (p : Props)
    (hs : save o shift ops ⟨dir, base⟩ rid none s = (st', .ok p)) : Fresh log p := by
  obtain ⟨log', hp, hi⟩ := (hr.inv hlaw).inv
  have hi2 : Inv o ⟨dir, base⟩ log' := ⟨hi.nodup, hi.names, hi.files, hi.small, hi.len, hi.sorted, fun r q h => by
    obtain ⟨e, he, h2⟩ := hb r q h
    exact ⟨e, hp.mem_iff.2 he, h2⟩⟩
  obtain ⟨_, hi', _⟩ := save_inv hi2 (by rw [hp.length_eq]; exact hl) shift ops rid s p hs
  intro e he hc
  have := (List.pairwise_cons.1 hi'.sorted).1 e (hp.mem_iff.2 he)
  simp only [key, hc.1, hc.2] at this
  exact List.lt_irrefl _ this

/-! ## Runs -/

/-- A command: plan a save that continues the file of the given control number and order, or none; write the plan of that number. -/
inductive OCmd (S : Type) where
  | plan (from_ : Option (Nat × List Nat)) (s : S)
  | write (i : Nat)

structure World (S : Type) where
  dir : Dir
  plans : List (Plan S)
  log : List (Props × S)

def baseOf (log : List (Props × S)) : Option (Nat × List Nat) → Option (Nat × Props)
  | none => none
  | some (c, ord) => (log.find? fun e => decide (e.1.control = c ∧ e.1.order = ord)).map fun e => (0, e.1)

def step (okb : List (Props × S) → Props → Bool) (o : Opts) (shift : Shift) (ops : Ops S) (w : World S) : OCmd S → World S
  | .plan b s =>
    match save o shift ops ⟨w.dir, baseOf w.log b⟩ 0 none s with
    | (st', .ok p) =>
      match st'.dir.read p.filename with
      | some f => ⟨w.dir, ⟨p, f, s⟩ :: w.plans, w.log⟩
      | none => w
    | _ => w
  | .write i =>
    match w.plans.reverse[i]? with
    | some x => if okb w.log x.props then ⟨w.dir.write x.props.filename x.file, w.plans, (x.props, x.obj) :: w.log⟩ else w
    | none => w

def steps (okb : List (Props × S) → Props → Bool) (o : Opts) (shift : Shift) (ops : Ops S) (cmds : List (OCmd S)) : World S :=
  cmds.foldl (step okb o shift ops) ⟨[], [], []⟩

theorem steps_reach (ok : List (Props × S) → Props → Prop) (okb : List (Props × S) → Props → Bool) (hok : ∀ l p, okb l p = true → ok l p)
    (o : Opts) (shift : Shift) (ops : Ops S) (cmds : List (OCmd S)) (hl : cmds.length < 10 ^ 8 - 1) :
    OReach ok o ops (steps okb o shift ops cmds).dir (steps okb o shift ops cmds).plans (steps okb o shift ops cmds).log := by
  unfold steps
  have main : ∀ (cmds : List (OCmd S)) (w : World S), OReach ok o ops w.dir w.plans w.log → w.log.length + cmds.length < 10 ^ 8 - 1 →
      OReach ok o ops (cmds.foldl (step okb o shift ops) w).dir (cmds.foldl (step okb o shift ops) w).plans
        (cmds.foldl (step okb o shift ops) w).log := by
    intro cmds
    induction cmds with
    | nil => intro w hw _; exact hw
    | cons c cmds ih =>
      intro w hw hl
      simp only [List.length_cons] at hl
      have hstep : OReach ok o ops (step okb o shift ops w c).dir (step okb o shift ops w c).plans (step okb o shift ops w c).log ∧
          (step okb o shift ops w c).log.length ≤ w.log.length + 1 := by
        cases c with
        | plan b s =>
          rw [step]
          split
          · rename_i st' p hs
            split
            · rename_i f hf
              refine ⟨.plan shift _ _ _ (baseOf w.log b) 0 s st' p f hw (by simp only; omega) (fun r q hq => ?_) hs hf, by simp⟩
              unfold baseOf at hq
              split at hq
              · cases hq
              · rw [Option.map_eq_some_iff] at hq
                obtain ⟨e, he, h2⟩ := hq
                cases h2
                exact ⟨e, List.mem_of_find?_eq_some he, rfl⟩
            · exact ⟨hw, by simp⟩
          · exact ⟨hw, by simp⟩
        | write i =>
          rw [step]
          split
          · rename_i x hx
            split
            · rename_i hk
              exact ⟨.write _ _ _ x hw (by omega) (List.mem_reverse.1 (List.mem_of_getElem? hx)) (hok _ _ hk), by simp⟩
            · exact ⟨hw, by simp⟩
          · exact ⟨hw, by simp⟩
      exact ih _ hstep.1 (by omega)
  exact main cmds _ (.start [] (by simp) (by simp)) (by simpa using hl)

instance (log : List (Props × S)) (p : Props) : Decidable (Fresh log p) :=
  inferInstanceAs (Decidable (∀ e ∈ log, ¬ (e.1.control = p.control ∧ e.1.order = p.order)))
instance (log : List (Props × S)) (p : Props) : Decidable (NewName log p) :=
  inferInstanceAs (Decidable (∀ e ∈ log, e.1.filename ≠ p.filename))

end

def freshB (l : List (Props × UInt8)) (p : Props) : Bool := decide (Fresh l p)
def newNameB (l : List (Props × UInt8)) (p : Props) : Bool := decide (NewName l p)

/-- Two saves overlap: one continues the newest file, the other one an older file. -/
def goodCmds : List (OCmd UInt8) :=
  [.plan none 1, .write 0, .plan (some (0, [0])) 2, .write 1, .plan (some (0, [0, 0])) 3, .plan (some (0, [0])) 4, .write 3, .write 2,
    .plan (some (1, [0, 0])) 5, .write 4]
def goodRun := steps freshB Opts.default shiftExact demo goodCmds

/-- The hypotheses are met. -/
example : OReach Fresh Opts.default demo goodRun.dir goodRun.plans goodRun.log ∧
    goodRun.log = [(⟨1, 1, [0, 0, 0], none⟩, 5), (⟨0, 0, [0, 0, 0], none⟩, 3), (⟨1, 0, [0, 0], none⟩, 4), (⟨0, 0, [0, 0], none⟩, 2),
      (⟨0, 0, [0], none⟩, 1)] :=
  ⟨steps_reach _ _ (fun _ _ h => of_decide_eq_true h) _ _ _ _ (by decide), by decide +kernel⟩

/-- Two processes continue the same file at the same time. The second one overwrites the file of the first one, which has already saved
again. -/
def overCmds : List (OCmd UInt8) :=
  [.plan none 1, .write 0, .plan (some (0, [0])) 2, .plan (some (0, [0])) 3, .write 1, .plan (some (0, [0, 0])) 4, .write 3, .write 2]
def overRun := steps (fun _ _ => true) Opts.default shiftExact demo overCmds

/-- **C89 is violated**: two processes save at the same time, with the default options. The first one saves 2 and then 4, the second one saves 3 in a file of the
same name as that of 2. 2 is lost, and 4 is loaded as 5 from then on. -/
theorem C89_negation_overwritten : OReach Anyway Opts.default demo overRun.dir overRun.plans overRun.log ∧
    overRun.log = [(⟨0, 0, [0, 0], none⟩, 3), (⟨0, 0, [0, 0, 0], none⟩, 4), (⟨0, 0, [0, 0], none⟩, 2), (⟨0, 0, [0], none⟩, 1)] ∧
    ∃ h, St.history ⟨overRun.dir, none⟩ = .ok h ∧ load Opts.default demo overRun.dir h ⟨0, 0, [0, 0], none⟩ = .ok 3 ∧
      load Opts.default demo overRun.dir h ⟨0, 0, [0, 0, 0], none⟩ = .ok 5 := by
  refine ⟨steps_reach _ _ (fun _ _ _ => trivial) _ _ _ _ (by decide), by decide +kernel, ?_⟩
  obtain ⟨h, hh, hP⟩ := res_ex (St.history ⟨overRun.dir, none⟩)
    (fun h => decide (load Opts.default demo overRun.dir h ⟨0, 0, [0, 0], none⟩ = .ok 3 ∧
      load Opts.default demo overRun.dir h ⟨0, 0, [0, 0, 0], none⟩ = .ok 5)) (by decide +kernel)
  exact ⟨h, hh, of_decide_eq_true hP⟩

/-- Two processes continue different old files at the same time. -/
def hideCmds : List (OCmd UInt8) :=
  [.plan none 1, .write 0, .plan none 2, .write 1, .plan none 3, .write 2, .plan (some (0, [0])) 5, .plan (some (1, [0])) 6, .write 3,
    .plan (some (3, [0, 0])) 7, .write 5, .write 4]
def hideRun := steps newNameB Opts.default shiftExact demo hideCmds

/-- **C89 is violated without overwriting**: the new files have different names, but the same control number and order, so that only one of them is
listed. The file of 5 disappears, and 7, which was saved after it, is loaded as 8. -/
theorem C89_negation_hidden : OReach NewName Opts.default demo hideRun.dir hideRun.plans hideRun.log ∧
    hideRun.log = [(⟨3, 1, [0, 0], none⟩, 6), (⟨3, 3, [0, 0, 0], none⟩, 7), (⟨3, 0, [0, 0], none⟩, 5), (⟨2, 2, [0], none⟩, 3),
      (⟨1, 1, [0], none⟩, 2), (⟨0, 0, [0], none⟩, 1)] ∧
    ∃ h, St.history ⟨hideRun.dir, none⟩ = .ok h ∧ ⟨3, 0, [0, 0], none⟩ ∉ h.listFiles ∧
      load Opts.default demo hideRun.dir h ⟨3, 3, [0, 0, 0], none⟩ = .ok 8 := by
  refine ⟨steps_reach _ _ (fun _ _ h => of_decide_eq_true h) _ _ _ _ (by decide), by decide +kernel, ?_⟩
  obtain ⟨h, hh, hP⟩ := res_ex (St.history ⟨hideRun.dir, none⟩)
    (fun h => decide (⟨3, 0, [0, 0], none⟩ ∉ h.listFiles ∧
      load Opts.default demo hideRun.dir h ⟨3, 3, [0, 0, 0], none⟩ = .ok 8)) (by decide +kernel)
  exact ⟨h, hh, of_decide_eq_true hP⟩

/-- One process continues an old file twice, while another one starts anew. -/
def lostCmds : List (OCmd UInt8) :=
  [.plan none 1, .write 0, .plan (some (0, [0])) 2, .write 1, .plan (some (0, [0])) 4, .plan none 9, .write 2,
    .plan (some (1, [0, 0])) 5, .write 4, .write 3]
def lostRun := steps freshB plain shiftExact demo lostCmds

/-- **C89 is violated without the cumulative option even if no control number and order is used twice**: the parent that the code loses (C29) is replaced by
a file of another process. 5 is loaded as 13. -/
theorem C89_negation_lost : OReach Fresh plain demo lostRun.dir lostRun.plans lostRun.log ∧
    lostRun.log = [(⟨1, 1, [0], none⟩, 9), (⟨1, 1, [0, 1], none⟩, 5), (⟨1, 0, [0, 0], none⟩, 4), (⟨0, 0, [0, 0], none⟩, 2),
      (⟨0, 0, [0], none⟩, 1)] ∧
    ∃ h, St.history ⟨lostRun.dir, none⟩ = .ok h ∧ load plain demo lostRun.dir h ⟨1, 1, [0, 1], none⟩ = .ok 13 := by
  refine ⟨steps_reach _ _ (fun _ _ h => of_decide_eq_true h) _ _ _ _ (by decide), by decide +kernel, ?_⟩
  obtain ⟨h, hh, hP⟩ := res_ex (St.history ⟨lostRun.dir, none⟩)
    (fun h => decide (load plain demo lostRun.dir h ⟨1, 1, [0, 1], none⟩ = .ok 13)) (by decide +kernel)
  exact ⟨h, hh, of_decide_eq_true hP⟩

end Verif.Overlap
