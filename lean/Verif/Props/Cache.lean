import Verif.Lemmas.Cache
import Verif.Props.History
import Verif.Props.Diff
/-! # C36: the phase cache -/
namespace Verif.History
open VarInt FileName FileHistory Phase

section
variable {S : Type}

/-- **C36** (partial).  After any sequence of saves, loads and restarts with the cache: the next save writes the same file into
the same directory and gives the same answer as the save that reads all its ancestors from disk; loading any listed file gives
the same object or error.  Assumed: applying a written diff gives the saved object back (`Ops.Lawful`), and the diff depends on
the values only.  Missing: objects whose diff loses something (`C36_negation_object`) and strings and arrays, which are
compared by address (`C36_negation_contents`). -/
theorem C36_cache_transparent_partial (o : Opts) (ops : Ops S) (hlaw : ops.Lawful) (st : St) (c : Cache S)
    (log : List (Props × S)) (hr : ReachC o ops st c log) :
    (log.length < 10 ^ 8 - 1 → ∀ shift rid s, (saveC o shift ops st c rid none s).2 = save o shift ops st rid none s) ∧
    ∀ h p rid, st.history = .ok h → p ∈ h.listFiles → loadFileC o ops st c h p rid = loadFile o ops st h p rid := by
  obtain ⟨h1, h2⟩ := hr.reach hlaw
  exact ⟨fun hl shift rid s => (saveC_spec hlaw h1 hl shift rid s c h2).1,
    fun h p rid hh hp => loadFileC_spec hlaw h1 h hh c h2 p hp rid⟩

/-- **C36** (partial), whole runs: a state reached with the cache is also reached without it, by the same operations with the
same results. -/
theorem C36_runs_partial (o : Opts) (ops : Ops S) (hlaw : ops.Lawful) (st : St) (c : Cache S)
    (log : List (Props × S)) (hr : ReachC o ops st c log) : Reach o ops st log := (hr.reach hlaw).1

/-- What the cache holds (partial as above): under each phase an object that was saved, with the file of that phase it was
saved in. -/
theorem C36_cache_contents_partial (o : Opts) (ops : Ops S) (hlaw : ops.Lawful) (st : St) (c : Cache S)
    (log : List (Props × S)) (hr : ReachC o ops st c log) (n : Nat) (path : Bytes) (s : S) (h : BMap.get c n = some (path, s)) :
    ∃ p, (p, s) ∈ log ∧ p.filename = path ∧ p.order.length = n + 1 := by
  obtain ⟨e, he, h1, h2, h3⟩ := (hr.reach hlaw).2.entry (n, path, s) (mem_of_get _ _ _ h)
  simp only at h3
  subst h3
  exact ⟨e.1, he, h1, h2⟩

/-- After a successful save (partial as above) the cache holds the saved object under the phase of the new file, and nothing of
higher phases (which would be older). -/
theorem C36_after_save_partial (o : Opts) (ops : Ops S) (hlaw : ops.Lawful) (shift : Shift) (st st' : St) (c c' : Cache S)
    (log : List (Props × S)) (hr : ReachC o ops st c log) (hl : log.length < 10 ^ 8 - 1) (rid : Nat) (s : S) (p : Props)
    (hs : saveC o shift ops st c rid none s = (c', st', .ok p)) :
    BMap.get c' (phase p) = some (p.filename, s) ∧ ∀ n e, BMap.get c' n = some e → n ≤ phase p := by
  obtain ⟨h1, h2⟩ := hr.reach hlaw
  obtain ⟨h3, h4, _⟩ := saveC_spec hlaw h1 hl shift rid s c h2
  rw [hs] at h3 h4
  exact (h4 st' p h3.symm).2

end

/-- The four saves of the example with the cache. -/
def cached1 := saveC plain shiftExact demo ⟨[], none⟩ [] 0 none 5
def cached2 := saveC plain shiftExact demo cached1.2.1 cached1.1 0 none 6
def cached3 := saveC plain shiftExact demo cached2.2.1 cached2.1 0 none 7

theorem triple_ex {α β γ : Type} (r : α × β × Res γ) (b : γ) (h : r.2.2 = .ok b) : r = (r.1, r.2.1, .ok b) := by rw [← h]

theorem cached_reach : ReachC plain demo cached3.2.1 cached3.1
    [(⟨0, 0, [0, 1], none⟩, 7), (⟨0, 0, [0, 0], none⟩, 6), (⟨0, 0, [0], none⟩, 5)] :=
  .save shiftExact _ _ _ _ _ 0 7 _
    (.save shiftExact _ _ _ _ _ 0 6 _
      (.save shiftExact _ _ _ _ _ 0 5 _ (.start [] (by simp) (by simp)) (by decide)
        (triple_ex cached1 ⟨0, 0, [0], none⟩ (by decide +kernel))) (by decide)
      (triple_ex cached2 ⟨0, 0, [0, 0], none⟩ (by decide +kernel))) (by decide)
    (triple_ex cached3 ⟨0, 0, [0, 1], none⟩ (by decide +kernel))

/-- The cache holds the objects of both phases. -/
example : (cached3.1.map fun e => (e.1, e.2.2)) = [(0, 5), (1, 7)] := by decide +kernel
/-- With the cache the third save needs no file but that of the statistics: the diffs of all other files may be damaged. -/
example : (saveC plain shiftExact demo
    ⟨cached3.2.1.dir.map fun e => if e.1 = (⟨0, 0, [0], none⟩ : Props).filename then (e.1, e.2.1, []) else e, cached3.2.1.base⟩
    cached3.1 0 none 9).2.2 = .ok ⟨0, 0, [0, 2], none⟩ := by decide +kernel

/-! ## Violations -/

/-- The diffs of `Model/Diff*.lean` for a root object with one list of integers; the source has the items 0 and 1. -/
def listOps : Ops (Diff.Root 1) where
  src := Diff.oneRoot (Diff.exInnerList [(0, 5), (1, 6)] 2)
  diff := Diff.getDiff Diff.F0 1 Diff.same Diff.oneSch
  app := Diff.applyDiff Diff.F0 1 Diff.oneSch

/-- the ids of the list, in order -/
def listIds (r : Diff.Root 1) : List Nat :=
  match r with
  | [some (.mil (some l))] => l.items.map (·.1)
  | _ => []

/-- The object with the two items exchanged is saved. -/
def moved := saveC plain shiftExact listOps ⟨[], none⟩ [] 0 none (Diff.oneRoot (Diff.exInnerList [(1, 6), (0, 5)] 2))

/-- **C36 is violated**: an object with a moved item is saved; as long as the process runs, loading the file gives the new
order (from the cache); after a restart it gives the old order. -/
theorem C36_negation_object : ∃ (st : St) (c : Cache (Diff.Root 1)) (log : List (Props × Diff.Root 1)) (h : FileHistory.History),
    ReachC plain listOps st c log ∧ ReachC plain listOps ⟨st.dir, none⟩ [] log ∧ st.history = .ok h ∧
      (⟨0, 0, [0], none⟩ : Props) ∈ h.listFiles ∧
      (loadC plain listOps st.dir c h ⟨0, 0, [0], none⟩).map listIds = .ok [1, 0] ∧
      (loadC plain listOps st.dir [] h ⟨0, 0, [0], none⟩).map listIds = .ok [0, 1] ∧
      (load plain listOps st.dir h ⟨0, 0, [0], none⟩).map listIds = .ok [0, 1] := by
  have hr : ReachC plain listOps moved.2.1 moved.1 [(⟨0, 0, [0], none⟩, Diff.oneRoot (Diff.exInnerList [(1, 6), (0, 5)] 2))] :=
    .save shiftExact _ _ _ _ _ 0 _ _ (.start [] (by simp) (by simp)) (by decide)
      (triple_ex moved ⟨0, 0, [0], none⟩ (by decide +kernel))
  obtain ⟨h, hh, hp⟩ := res_ex moved.2.1.history (fun h => decide ((⟨0, 0, [0], none⟩ : Props) ∈ h.listFiles ∧
      (loadC plain listOps moved.2.1.dir moved.1 h ⟨0, 0, [0], none⟩).map listIds = .ok [1, 0] ∧
      (loadC plain listOps moved.2.1.dir [] h ⟨0, 0, [0], none⟩).map listIds = .ok [0, 1] ∧
      (load plain listOps moved.2.1.dir h ⟨0, 0, [0], none⟩).map listIds = .ok [0, 1])) (by decide +kernel)
  exact ⟨_, _, _, h, hr, .restart _ _ _ hr, hh, of_decide_eq_true hp⟩

/-- **C36 is violated** for file contents: whether two equal strings are the same allocation decides whether the diff contains
the string.  Objects from the cache share their strings with the current object, objects read from disk do not. -/
theorem C36_negation_contents :
    Diff.getDiff Diff.F0 0 (fun _ => true) [some (.param .string .normal)] [some (.param (.string (.val "abc")))]
        [some (.param (.string (.val "abc")))] ≠
      Diff.getDiff Diff.F0 0 (fun _ => false) [some (.param .string .normal)] [some (.param (.string (.val "abc")))]
        [some (.param (.string (.val "abc")))] := by
  decide +kernel

end Verif.History
