import Verif.Lemmas.Shared
import Verif.Props.Removal
import Verif.Props.Cache
/-!
# Property C86 (several processes use the same history)
-/
namespace Verif.Shared
open VarInt FileName FileHistory Phase History Remover Removal

section
variable {S : Type}

/-- C86, the cache: processes take turns to save, load, restart and remove files of one directory, but never the newest one. Each
process gets the same answers and writes the same files with its cache as without it, although the cache knows nothing of the
other processes. -/
theorem C86_cache (o : Opts) (ops : Ops S) (hlaw : ops.Lawful) (dir : Dir) (ps : Nat → Proc S) (log : List (Props × S))
    (hr : Shared Others o ops dir ps log) (i : Nat) :
    (log.length < 10 ^ 8 - 1 → ∀ shift rid s,
      (saveC o shift ops ⟨dir, (ps i).base⟩ (ps i).cache rid none s).2 = save o shift ops ⟨dir, (ps i).base⟩ rid none s) ∧
    ∀ h p rid, St.history ⟨dir, (ps i).base⟩ = .ok h → p ∈ h.listFiles →
      loadFileC o ops ⟨dir, (ps i).base⟩ (ps i).cache h p rid = loadFile o ops ⟨dir, (ps i).base⟩ h p rid := by
  obtain ⟨h1, h2⟩ := hr.at hlaw i
  exact ⟨fun hl shift rid s => (saveC_at hlaw h1 hl shift rid s _ h2).1,
    fun h p rid hh hp => loadFileC_at hlaw h1 h hh _ h2 p hp rid⟩

/-- C86, whole runs: what all processes do together could have been done by one, without a cache. -/
theorem C86_runs (o : Opts) (ops : Ops S) (hlaw : ops.Lawful) (dir : Dir) (ps : Nat → Proc S) (log : List (Props × S))
    (hr : Shared Others o ops dir ps log) (i : Nat) : ReachR Others o ops ⟨dir, (ps i).base⟩ log := (hr.at hlaw i).1

/-- C86, soundness: whichever process loads a listed file, with its cache, it gets the object that was saved in that file, or an
error. -/
theorem C86_never_wrong (o : Opts) (ops : Ops S) (hlaw : ops.Lawful) (dir : Dir) (ps : Nat → Proc S) (log : List (Props × S))
    (hr : Shared Others o ops dir ps log) (i : Nat) :
    ∃ h, St.history ⟨dir, (ps i).base⟩ = .ok h ∧ (∀ p, p ∈ h.listFiles ↔ (∃ s, (p, s) ∈ log) ∧ There ⟨dir, (ps i).base⟩ p) ∧
      ∀ p s, (p, s) ∈ log → p ∈ h.listFiles →
        loadC o ops dir (ps i).cache h p = .ok s ∨ loadC o ops dir (ps i).cache h p = .err := by
  obtain ⟨h1, h2⟩ := hr.at hlaw i
  obtain ⟨h, hh, h3, h4⟩ := C85_never_wrong o ops hlaw _ log h1
  obtain ⟨g, hg⟩ := h1.sim
  refine ⟨h, hh, h3, fun p s he hp => ?_⟩
  have := (sim_stands hlaw hg h hh).loadC_spec _ h2 p hp
  simp only at this
  rw [this]
  exact h4 p s he hp

/-- C86, exactly: a listed file can be loaded by a process, with its cache, if and only if all files it needs are there. Files
that were removed are not loaded from the cache either. -/
theorem C86_exact (o : Opts) (ops : Ops S) (hlaw : ops.Lawful) (dir : Dir) (ps : Nat → Proc S) (log : List (Props × S))
    (hr : Shared Others o ops dir ps log) (i : Nat) (h : FileHistory.History) (hh : St.history ⟨dir, (ps i).base⟩ = .ok h) (p : Props)
    (s : S) (he : (p, s) ∈ log) (hp : p ∈ h.listFiles) :
    loadC o ops dir (ps i).cache h p = .ok s ↔ ¬ Lost o log p ∧ ∀ q, Needs o log p q → There ⟨dir, (ps i).base⟩ q := by
  obtain ⟨h1, h2⟩ := hr.at hlaw i
  obtain ⟨g, hg⟩ := h1.sim
  have := (sim_stands hlaw hg h hh).loadC_spec _ h2 p hp
  simp only at this
  rw [this]
  exact C85_exact o ops hlaw _ log h1 h hh p s he hp

/-! ## Runs -/

/-- A command of one process. -/
inductive SCmd (S : Type) where
  | save (i rid : Nat) (s : S)
  | load (i : Nat) (c : Nat) (ord : List Nat) (rid : Nat)
  | old (n : Nat)

/-- directory, processes and log -/
structure World (S : Type) where
  dir : Dir
  ps : Nat → Proc S
  log : List (Props × S)

def step (o : Opts) (shift : Shift) (ops : Ops S) (w : World S) : SCmd S → World S
  | .save i rid s =>
    match saveC o shift ops ⟨w.dir, (w.ps i).base⟩ (w.ps i).cache rid none s with
    | (c', st', .ok p) => ⟨st'.dir, put w.ps i ⟨st'.base, c'⟩, (p, s) :: w.log⟩
    | (c', st', _) => ⟨st'.dir, put w.ps i ⟨st'.base, c'⟩, w.log⟩
  | .load i c ord rid =>
    match St.history ⟨w.dir, (w.ps i).base⟩ with
    | .ok h =>
      match h.listFiles.find? (fun p => decide (p.control = c ∧ p.order = ord)) with
      | some p =>
        ⟨w.dir, put w.ps i ⟨(loadFileC o ops ⟨w.dir, (w.ps i).base⟩ (w.ps i).cache h p rid).1.base, (w.ps i).cache⟩, w.log⟩
      | none => w
    | _ => w
  | .old n =>
    match St.history ⟨w.dir, none⟩ with
    | .ok h => ⟨removeOldFiles o h n w.dir, w.ps, w.log⟩
    | _ => w

def steps (o : Opts) (shift : Shift) (ops : Ops S) (cmds : List (SCmd S)) : World S :=
  cmds.foldl (step o shift ops) ⟨[], fun _ => .new, []⟩

theorem step_shared {may : FileHistory.History → List Props → Prop} (o : Opts) (shift : Shift) (ops : Ops S) (w : World S) (c : SCmd S)
    (hm : ∀ n, c = .old n → ∀ h, St.history ⟨w.dir, none⟩ = .ok h → may h (removableOldItems o.maxPhase o.cumulative.isSome h n))
    (hr : Shared may o ops w.dir w.ps w.log) (hl : w.log.length < 10 ^ 8 - 1) :
    Shared may o ops (step o shift ops w c).dir (step o shift ops w c).ps (step o shift ops w c).log ∧
      (step o shift ops w c).log.length ≤ w.log.length + 1 := by
  cases c with
  | save i rid s =>
    rw [step]
    split
    · rename_i c' st' p hs
      exact ⟨.save i shift w.dir st' w.ps c' w.log rid s p hr hl hs, by simp⟩
    · rename_i c' st' r hno hs
      exact ⟨.fail i shift w.dir st' w.ps c' w.log rid s r hr hl hs (fun p hp => hno p hp), by simp⟩
  | load i c ord rid =>
    rw [step]
    split
    · rename_i h hh
      split
      · rename_i p hp
        exact ⟨.load i w.dir w.ps w.log h p rid hr hh (List.mem_of_find?_eq_some hp), by simp⟩
      · exact ⟨hr, by simp⟩
    · exact ⟨hr, by simp⟩
  | old n =>
    rw [step]
    split
    · rename_i h hh
      exact ⟨.remove w.dir w.ps w.log h _ hr hh (hm n rfl h hh), by simp⟩
    · exact ⟨hr, by simp⟩

/-- Runs with `remove_old_files` that keeps any number of files. -/
theorem steps_shared (o : Opts) (shift : Shift) (ops : Ops S) (cmds : List (SCmd S)) (hl : cmds.length < 10 ^ 8 - 1) :
    Shared (AnyOld o) o ops (steps o shift ops cmds).dir (steps o shift ops cmds).ps (steps o shift ops cmds).log := by
  unfold steps
  have : ∀ (cmds : List (SCmd S)) (w : World S), Shared (AnyOld o) o ops w.dir w.ps w.log → w.log.length + cmds.length < 10 ^ 8 - 1 →
      Shared (AnyOld o) o ops (cmds.foldl (step o shift ops) w).dir (cmds.foldl (step o shift ops) w).ps
        (cmds.foldl (step o shift ops) w).log := by
    intro cmds
    induction cmds with
    | nil => intro w hw _; exact hw
    | cons c cmds ih =>
      intro w hw hl
      obtain ⟨h1, h2⟩ := step_shared o shift ops w c (fun n _ h _ => ⟨n, rfl⟩) hw (by simp at hl; omega)
      exact ih _ h1 (by simp at hl; omega)
  exact this cmds _ (.start [] (by simp) (by simp)) (by simpa using hl)

/-- Runs in which at least one file is kept. -/
theorem steps_others (o : Opts) (shift : Shift) (ops : Ops S) (hlaw : ops.Lawful) (cmds : List (SCmd S))
    (hk : ∀ n, SCmd.old n ∈ cmds → 1 ≤ n) (hl : cmds.length < 10 ^ 8 - 1) :
    Shared Others o ops (steps o shift ops cmds).dir (steps o shift ops cmds).ps (steps o shift ops cmds).log := by
  unfold steps
  have : ∀ (cmds : List (SCmd S)) (w : World S), (∀ n, SCmd.old n ∈ cmds → 1 ≤ n) → Shared Others o ops w.dir w.ps w.log →
      w.log.length + cmds.length < 10 ^ 8 - 1 →
      Shared Others o ops (cmds.foldl (step o shift ops) w).dir (cmds.foldl (step o shift ops) w).ps
        (cmds.foldl (step o shift ops) w).log := by
    intro cmds
    induction cmds with
    | nil => intro w _ hw _; exact hw
    | cons c cmds ih =>
      intro w hk hw hl
      obtain ⟨h1, h2⟩ := step_shared o shift ops w c (fun n hn h hh => by
        obtain ⟨g, hg⟩ := (hw.main hlaw).1.sim
        exact hg.old h hh _ ⟨n, hk n (by simp [hn]), rfl⟩) hw (by simp at hl; omega)
      exact ih _ (fun n hn => hk n (by simp [hn])) h1 (by simp at hl; omega)
  exact this cmds _ hk (.start [] (by simp) (by simp)) (by simpa using hl)

end

/-- Two processes: the first one saves two objects, the second one loads the first of them, saves an object and removes old files, the first
one saves again. -/
def twoCmds : List (SCmd UInt8) :=
  [.save 0 0 1, .save 0 0 2, .load 1 0 [0] 0, .save 1 0 3, .old 1, .save 0 0 4]
def twoRun := steps plain shiftExact demo twoCmds

example : Shared Others plain demo twoRun.dir twoRun.ps twoRun.log :=
  steps_others plain shiftExact demo demo_lawful twoCmds (by simp [twoCmds]) (by decide)
/-- The first process still has the first object in its cache, and both have written files. -/
example : (twoRun.ps 0).cache.map (·.2.2) = [1, 4] ∧ (twoRun.ps 1).cache.map (·.2.2) = [1, 3] ∧
    twoRun.log.map (·.1) = [⟨2, 0, [0, 0], none⟩, ⟨1, 0, [0, 0], none⟩, ⟨0, 0, [0, 0], none⟩, ⟨0, 0, [0], none⟩] := by decide +kernel

/-- The second process removes all files and starts anew; the name of its file is that of the first file of the first process. -/
def againCmds : List (SCmd UInt8) := [.save 0 0 1, .save 0 0 2, .old 0, .save 1 0 3]
def againRun := steps plain shiftExact demo againCmds
/-- Then the first process saves. -/
def againLost := steps plain shiftExact demo (againCmds ++ [.save 0 0 9])

/-- **C86 is violated** if all files are removed (`remove_old_files` with 0) while another process is running: the first process saves
the objects 1 and 2, the second one removes all files and saves 3, in a file of the same name as that of 1. The first process loads 1
from its cache, where 3 was saved. If it saves 9, the diff is made against 1, but will be applied to 3: it is loaded
as 11 from then on. -/
theorem C86_negation :
    Shared (AnyOld plain) plain demo againRun.dir againRun.ps againRun.log ∧
    againRun.log.head? = some (⟨0, 0, [0], none⟩, 3) ∧
    (∃ h, St.history ⟨againRun.dir, none⟩ = .ok h ∧ h.listFiles = [⟨0, 0, [0], none⟩] ∧
      loadC plain demo againRun.dir (againRun.ps 0).cache h ⟨0, 0, [0], none⟩ = .ok 1 ∧
      loadC plain demo againRun.dir (againRun.ps 1).cache h ⟨0, 0, [0], none⟩ = .ok 3) ∧
    Shared (AnyOld plain) plain demo againLost.dir againLost.ps againLost.log ∧
    againLost.log.head? = some (⟨0, 0, [0, 0], none⟩, 9) ∧
    (∃ h, St.history ⟨againLost.dir, none⟩ = .ok h ∧
      load plain demo againLost.dir h ⟨0, 0, [0, 0], none⟩ = .ok 11) := by
  refine ⟨steps_shared _ _ _ _ (by decide), by decide +kernel, ?_, steps_shared _ _ _ _ (by decide), by decide +kernel, ?_⟩
  · obtain ⟨h, hh, hP⟩ := res_ex (St.history ⟨againRun.dir, none⟩)
      (fun h => decide (h.listFiles = [⟨0, 0, [0], none⟩] ∧
        loadC plain demo againRun.dir (againRun.ps 0).cache h ⟨0, 0, [0], none⟩ = .ok 1 ∧
        loadC plain demo againRun.dir (againRun.ps 1).cache h ⟨0, 0, [0], none⟩ = .ok 3)) (by decide +kernel)
    exact ⟨h, hh, of_decide_eq_true hP⟩
  · obtain ⟨h, hh, hP⟩ := res_ex (St.history ⟨againLost.dir, none⟩)
      (fun h => decide (load plain demo againLost.dir h ⟨0, 0, [0, 0], none⟩ = .ok 11)) (by decide +kernel)
    exact ⟨h, hh, of_decide_eq_true hP⟩

end Verif.Shared
