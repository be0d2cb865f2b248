import Verif.Props.HistoryReal
import Verif.Props.PipelineEx
import Verif.Props.History
/-!
# Examples for C78 and what it excludes
-/
namespace Verif.Pipeline
open Codec VarInt Source Core Named Archive History FileName FileHistory Phase

/-- The example meets the hypotheses of C78: the object of the first version after a session is saved by two processes. -/
example : ∃ r st p p', (version false).root lib = .ok (r, 68) ∧
    RReach .default (histOps lib r).ops (Saveable lib r) st [(p', { r with sabun := sampleEnd }), (p, { r with sabun := sampleEnd })] [] := by
  obtain ⟨r, h1, _⟩ := version_root false
  have hs := version_saved h1
  have h0 : RReach .default (histOps lib r).ops (Saveable lib r) ⟨[], none⟩ [] [] := .start [] (by simp) (by simp)
  obtain ⟨st, p, _, _, _, h2, _⟩ := C78_go_on idEnv_sound (version_usable false) h1 .default _ _ _ h0 (by simp) (fun _ _ _ _ _ => false) 0 _ hs
  obtain ⟨st', p', _, _, _, h3, _⟩ := C78_go_on idEnv_sound (version_usable false) h1 .default _ _ _ h2 (by simp) (fun _ _ _ _ _ => false) 0 _ hs
  exact ⟨r, st', p, p', h1, h3⟩

/-- the next id and the items of the list of an object -/
def nextView (r : Root) : Nat × List (Nat × List String) :=
  (match r.sabun.get "x" with | some (.list (some l)) => l.2 | _ => 0, view r)

/-- Objects of the first version are saved one after the other, each derived from the one before; then each file is loaded. -/
def histRun (o : Phase.Opts) (objects : List (AMap RootSab)) : Res (List (Nat × List (Nat × List String))) :=
  ((version false).root lib).bind fun r =>
  let k := (histOps lib r.1).ops
  let st := objects.foldl (fun st s => (bsave o (fun _ _ _ _ _ => false) k st 0 none { r.1 with sabun := s }).1) ⟨[], none⟩
  st.history.bind fun h => h.listFiles.foldr (fun p acc => (bload o k st.dir h p).bind fun y => acc.map (nextView y :: ·)) (.ok [])

/-- `sampleEnd` after another session: an item is inserted, and removed again -/
def sampleNext : AMap RootSab := sampleEnd.insert "x" (.list (some ([(1, sampleItem)], 3)))

/-- Two objects are saved and loaded with their next ids. -/
theorem C78_run : histRun .default [sampleSab, sampleEnd] = .ok [(1, [(0, ["p"])]), (2, [(1, ["p"])])] := by decide +kernel

/-- **C78, what is lost.** The object after an item was inserted and removed has the next id 3; it is loaded with the next id 2. A new
item has then the id of the one that was removed. -/
theorem C78_next_id_lost : histRun .default [sampleEnd, sampleNext] = .ok [(2, [(1, ["p"])]), (2, [(1, ["p"])])] := by decide +kernel

/-- the object of the first version after an item was inserted and removed again -/
def sampleAgain : AMap RootSab := (sampleSab.insert "x" (.list (some ([(0, .mk [("p", .param (.int (.val 5)))] []), (1, .mk [] [])], 2)))).insert "x"
  (.list (some ([(0, .mk [("p", .param (.int (.val 5)))] [])], 2)))

theorem version_again : Session (vDefs false) sampleSab sampleAgain := by
  have hx : (vDefs false).get "x" = some (1, .mlist sampleDef false) := rfl
  exact .change (.change (.start _) (.last hx (items := [(0, .mk [("p", .param (.int (.val 5)))] [])]) (next := 1) rfl (by decide) (by decide)))
    (.remove hx (a := [(0, .mk [("p", .param (.int (.val 5)))] [])]) (b := []) (x := (1, .mk [] [])) rfl)

def againRun : Bool :=
  match (version false).root lib with
  | .ok (r, _) =>
    match bsave .default (fun _ _ _ _ _ => false) (histOps lib r).ops ⟨[], none⟩ 0 none { r with sabun := sampleAgain } with
    | (st, .ok p) =>
      match st.history with
      | .ok h =>
        match bload .default (histOps lib r).ops st.dir h p with
        | .ok y => (nextView y).1 == 1
        | _ => false
      | _ => false
    | _ => false
  | _ => false

/-- **C78, negation.** Objects of sessions are not always loaded as they were saved, even if nothing is interrupted. -/
theorem C78_negation : ∃ r st p s h y, (version false).root lib = .ok (r, 68) ∧ Session r.defs r.sabun s.sabun ∧ s = { r with sabun := s.sabun } ∧
    bsave .default (fun _ _ _ _ _ => false) (histOps lib r).ops ⟨[], none⟩ 0 none s = (st, .ok p) ∧ st.history = .ok h ∧
    bload .default (histOps lib r).ops st.dir h p = .ok y ∧ ¬ SameObject s y := by
  obtain ⟨r, h1, h2, h3⟩ := version_root false
  have hc : againRun = true := by decide +kernel
  unfold againRun at hc
  rw [h1] at hc
  simp only at hc
  split at hc
  · rename_i st p hs
    split at hc
    · rename_i h hh
      split at hc
      · rename_i y hy
        refine ⟨r, st, p, _, h, y, h1, by rw [h2, h3]; exact version_again, rfl, hs, hh, hy, fun hsame => ?_⟩
        obtain ⟨m, hm, hn, _⟩ := hsame.2.lists "x" 1 sampleDef false ([(0, .mk [("p", .param (.int (.val 5)))] [])], 2) (by simp only; rw [h2]; rfl) rfl
        unfold nextView at hc
        rw [hm] at hc
        simp only [beq_iff_eq] at hc hn
        omega
      · cases hc
    · cases hc
  · cases hc

end Verif.Pipeline
