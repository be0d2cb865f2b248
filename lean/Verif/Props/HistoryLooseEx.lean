import Verif.Props.HistoryLoose
import Verif.Props.HistorySessionEx
/-!
# An example for C79: an item is moved, and the object is saved again
-/
namespace Verif.Pipeline
open Codec VarInt Source Core Named Archive History FileName FileHistory Phase

/-- `sampleMore` after the last item was moved to the front -/
def sampleSwap : AMap RootSab := sampleMore.insert "x" (.list (some ([(2, .mk [] []), (1, sampleItem)], 3)))

theorem sampleSwap_session : SessionAny (vDefs false) sampleMore sampleSwap :=
  .change (.start _) (C79_api_root_move (id := 1) (d := sampleDef) (u := false) (l := [(1, sampleItem), (2, .mk [] [])]) (n := 3) rfl rfl
    (by decide) (by decide) (.first 2))

/-- whether the diff to what is compared is short -/
def shortChk (L : Lib) (r : Root) (st : BSt) (s : Root) : Bool :=
  match planBase .default noShift (st.dir.map (·.1)) st.base (bstat st.dir)
      (fun l => bcompose (histOps L r).ops st.dir l (histOps L r).ops.src) 0 none with
  | .ok a => match ((ops L).diff a s).bind encodeVals with | .ok out => out.length < 2 ^ 60 | _ => false
  | _ => true

theorem short_of_chk {L : Lib} {r : Root} {st : BSt} {s : Root} (h : shortChk L r st s = true) :
    ∀ a, Compared .default noShift (histOps L r).ops st 0 a → ShortDiff L a s := by
  intro a ha vals out hv ho
  unfold Compared at ha
  unfold shortChk at h
  rw [ha] at h
  simp only at h
  rw [hv, Res.bind_ok, ho] at h
  simpa using h

/-- the ids of the list that is loaded from a file -/
def loadedIds (r : Root) (st : BSt) (p : Props) : Res (List Nat × Nat) :=
  st.history.bind fun h => (bload .default (histOps lib r).ops st.dir h p).map fun y =>
    match y.sabun.get "x" with | some (.list (some l)) => (l.1.map (·.1), l.2) | _ => ([], 0)

/-- the saves of the example: the second file is derived from the first; what is loaded from it is in the old order -/
def swapRun : Bool :=
  match (version false).root lib with
  | .ok (r, _) =>
    let k := (histOps lib r).ops
    let st : BSt := ⟨[], none⟩
    match bplan .default noShift k st 0 none { r with sabun := sampleMore } with
    | .ok x => fileChk x.2.1 && shortChk lib r st { r with sabun := sampleMore } &&
      match bsave .default noShift k st 0 none { r with sabun := sampleMore } with
      | (st, .ok _) =>
        match bplan .default noShift k st 0 none { r with sabun := sampleSwap } with
        | .ok x => fileChk x.2.1 && shortChk lib r st { r with sabun := sampleSwap } &&
          match bsave .default noShift k st 0 none { r with sabun := sampleSwap } with
          | (st, .ok p) => p.order.length == 2 && loadedIds r st p == .ok ([1, 2], 3)
          | _ => false
        | _ => false
      | _ => false
    | _ => false
  | _ => false

/-- The example meets the hypotheses of C79 for histories: an object is edited and saved, an item is moved, the object is saved again. The
second file is derived from the first. It is loaded with the items in the old order. -/
theorem C79_history_sample : ∃ r st live p p', (version false).root lib = .ok (r, 68) ∧ p'.order.length = 2 ∧
    EReach .default (histOps lib r).ops (EditedAny r) (ShortDiff lib) st live
      [(p', { r with sabun := sampleSwap }), (p, { r with sabun := sampleMore })] [] ∧ loadedIds r st p' = .ok ([1, 2], 3) := by
  obtain ⟨r, h1, h2, h3⟩ := version_root false
  have hsaved := version_saved h1
  have h0 : EReach .default (histOps lib r).ops (EditedAny r) (ShortDiff lib) ⟨[], none⟩ (fun _ => none) [] [] := .start [] (by simp) (by simp)
  have e1 := EReach.create _ _ _ _ 0 h0 rfl
  have e2 := EReach.edit _ _ _ _ 0 r ({ r with sabun := sampleEnd } : Root) e1 (set_same _ _ _)
    (show EditedAny r r { r with sabun := sampleEnd } from ⟨rfl, C79_of_session hsaved.session⟩)
  have e3 := EReach.edit _ _ _ _ 0 ({ r with sabun := sampleEnd } : Root) ({ r with sabun := sampleMore } : Root) e2 (set_same _ _ _)
    (show EditedAny r { r with sabun := sampleEnd } { r with sabun := sampleMore } from
      ⟨rfl, C79_of_session (by rw [h2]; exact sampleMore_session)⟩)
  have hc : swapRun = true := by decide +kernel
  unfold swapRun at hc
  rw [h1] at hc
  simp only at hc
  split at hc
  · rename_i x hx
    simp only [Bool.and_eq_true] at hc
    obtain ⟨⟨hc1, hs1⟩, hc⟩ := hc
    split at hc
    · rename_i st p hs
      have e4 := EReach.save noShift _ st _ _ _ 0 _ p e3 (set_same _ _ _) (by simp) (short_of_chk hs1)
        (fun y hy => by rw [hx] at hy; cases hy; exact fileOk_of_chk hc1) hs
      have e5 := EReach.edit _ _ _ _ 0 ({ r with sabun := sampleMore } : Root) ({ r with sabun := sampleSwap } : Root) e4 (set_same _ _ _)
        (show EditedAny r { r with sabun := sampleMore } { r with sabun := sampleSwap } from ⟨rfl, by rw [h2]; exact sampleSwap_session⟩)
      split at hc
      · rename_i x' hx'
        simp only [Bool.and_eq_true] at hc
        obtain ⟨⟨hc2, hs2⟩, hc⟩ := hc
        split at hc
        · rename_i st' p' hs'
          simp only [Bool.and_eq_true, beq_iff_eq] at hc
          exact ⟨r, st', _, p, p', h1, hc.1, EReach.save noShift _ st' _ _ _ 0 _ p' e5 (set_same _ _ _) (by simp) (short_of_chk hs2)
            (fun y hy => by rw [hx'] at hy; cases hy; exact fileOk_of_chk hc2) hs', hc.2⟩
        · cases hc
      · cases hc
    · cases hc
  · cases hc

/-- So the theorem applies to the example, and says that the file has the same items. -/
example : ∃ (r : Root) (st : BSt) (h : History) (p' : Props) (y : Root), (version false).root lib = .ok (r, 68) ∧ st.history = .ok h ∧
    bload .default (histOps lib r).ops st.dir h p' = .ok y ∧ LooseObject y { r with sabun := sampleSwap } := by
  obtain ⟨r, st, live, p, p', h1, ho, hr, hi⟩ := C79_history_sample
  obtain ⟨h, hh, _, _, hl⟩ := C79_history_partial idEnv_sound (version_usable false) h1 .default st live _ _ hr
  unfold loadedIds at hi
  rw [hh, Res.bind_ok] at hi
  obtain ⟨y, hy, _⟩ := map_inv hi
  obtain ⟨g1, g2, _⟩ := hl p' _ List.mem_cons_self
  by_cases hlo : Lost .default [(p', ({ r with sabun := sampleSwap } : Root)), (p, { r with sabun := sampleMore })] p'
  · rw [g2 (by simp) hlo] at hy; cases hy
  · obtain ⟨z, hz, _, _, h4⟩ := g1 (by simp) hlo
    exact ⟨r, st, h, p', z, h1, hh, hz, h4⟩

end Verif.Pipeline
