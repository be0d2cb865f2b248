import Verif.Props.HistorySession
import Verif.Props.HistoryRealEx
/-!
# An example for C78 with sessions: an object is saved, edited and saved again
-/
namespace Verif.Pipeline
open Codec VarInt Source Core Named Archive History FileName FileHistory Phase

/-- `sampleEnd` after an item was inserted -/
def sampleMore : AMap RootSab := sampleEnd.insert "x" (.list (some ([(1, sampleItem), (2, .mk [] [])], 3)))

theorem sampleMore_session : Session (vDefs false) sampleEnd sampleMore :=
  .change (.start _) (.last (id := 1) (d := sampleDef) (u := false) rfl (items := [(1, sampleItem)]) (next := 2) rfl (by decide) (by decide))

theorem sampleMore_get {k : String} {v : RootSab} (h : sampleMore.get k = some v) :
    v = .param (.int (.val 7)) ∨ v = .list (some ([(1, sampleItem), (2, .mk [] [])], 3)) := by
  have hm := AMap.mem_of_get h
  have : sampleMore = [("y", .param (.int (.val 7))), ("x", .list (some ([(1, sampleItem), (2, .mk [] [])], 3)))] ∨
      sampleMore = [("x", .list (some ([(1, sampleItem), (2, .mk [] [])], 3))), ("y", .param (.int (.val 7)))] := by
    first | exact .inl rfl | exact .inr rfl
  rcases this with e | e <;> rw [e] at hm <;> simp at hm <;> rcases hm with ⟨_, rfl⟩ | ⟨_, rfl⟩ <;> simp

theorem sampleEnd_get {k : String} {v : RootSab} (h : sampleEnd.get k = some v) :
    v = .param (.int (.val 7)) ∨ v = .list (some ([(1, sampleItem)], 2)) := by
  have hm := AMap.mem_of_get h
  have : sampleEnd = [("y", .param (.int (.val 7))), ("x", .list (some ([(1, sampleItem)], 2)))] ∨
      sampleEnd = [("x", .list (some ([(1, sampleItem)], 2))), ("y", .param (.int (.val 7)))] := by
    first | exact .inl rfl | exact .inr rfl
  rcases this with e | e <;> rw [e] at hm <;> simp at hm <;> rcases hm with ⟨_, rfl⟩ | ⟨_, rfl⟩ <;> simp

theorem sampleSab_get {k : String} {v : RootSab} (h : sampleSab.get k = some v) :
    v = .list (some ([(0, .mk [("p", .param (.int (.val 5)))] [])], 1)) := by
  have hm := AMap.mem_of_get h
  simp [sampleSab] at hm
  exact hm.2

theorem more_settled_first : RootSettled (vDefs false) sampleSab sampleMore := by
  refine ⟨?_, ?_, ?_⟩
  · intro k id p vt q q' _ h
    cases sampleSab_get h
  · intro k id d u l m _ hl hm hs
    cases sampleSab_get hl
    rcases sampleMore_get hm with h | h <;> cases h
    exact absurd hs.1 (by decide)
  · intro k id d u l m _ hl hm x hx y hy he
    cases sampleSab_get hl
    rcases sampleMore_get hm with h | h <;> cases h
    simp only [List.mem_cons, List.not_mem_nil, or_false] at hx hy
    subst hx
    rcases hy with rfl | rfl <;> cases he

theorem more_settled : RootSettled (vDefs false) sampleEnd sampleMore := by
  refine ⟨?_, ?_, ?_⟩
  · intro k id p vt q q' _ h h'
    rcases sampleMore_get h' with h' | h' <;> cases h'
    rcases sampleEnd_get h with h | h <;> cases h
    trivial
  · intro k id d u l m _ hl hm hs
    rcases sampleEnd_get hl with h | h <;> cases h
    rcases sampleMore_get hm with h | h <;> cases h
    exact absurd hs.1 (by decide)
  · intro k id d u l m _ hl hm x hx y hy he
    rcases sampleEnd_get hl with h | h <;> cases h
    rcases sampleMore_get hm with h | h <;> cases h
    simp only [List.mem_cons, List.not_mem_nil, or_false] at hx hy
    subst hx
    rcases hy with rfl | rfl
    · have hg : ∀ k v, sampleItem.values.get k = some v → v = .param (.int (.val 9)) := by
        intro k v h
        have := AMap.mem_of_get h
        simp only [sampleItem, Item.values, List.mem_singleton, Prod.mk.injEq] at this
        exact this.2
      refine .mk ?_ ?_ ?_
      · intro k id p vt q q' _ h h'
        cases hg _ _ h
        cases hg _ _ h'
        trivial
      · intro k id d' u l ln m mn _ h
        cases hg _ _ h
      · intro k id d' u l ln m mn _ h
        cases hg _ _ h
    · cases he

def fileChk (f : File) : Bool :=
  f.1.all (fun it => it.mySize < 2 ^ 64 && it.totalSize < 2 ^ 64 && it.totalLen < 2 ^ 64) && f.1.length < 2 ^ 50 && f.2.length < 2 ^ 60

theorem fileOk_of_chk {f : File} (h : fileChk f = true) : FileOk f := by
  simp only [fileChk, Bool.and_eq_true, List.all_eq_true, decide_eq_true_eq] at h
  obtain ⟨⟨h1, h2⟩, h3⟩ := h
  refine ⟨fun it hi => ⟨(h1 it hi).1.1, (h1 it hi).1.2, (h1 it hi).2⟩, by omega, fun c hc => ?_⟩
  have := phaseFile_length (by omega) hc
  omega

def noShift : Shift := fun _ _ _ _ _ => false

/-- the saves of the example: the second file is derived from the first -/
def sessRun : Bool :=
  match (version false).root lib with
  | .ok (r, _) =>
    let k := (histOps lib r).ops
    match bplan .default noShift k ⟨[], none⟩ 0 none { r with sabun := sampleEnd } with
    | .ok x => fileChk x.2.1 &&
      match bsave .default noShift k ⟨[], none⟩ 0 none { r with sabun := sampleEnd } with
      | (st, .ok q) => q.prevCtl == q.control &&
        match bplan .default noShift k st 0 none { r with sabun := sampleMore } with
        | .ok x => fileChk x.2.1 &&
          match bsave .default noShift k st 0 none { r with sabun := sampleMore } with
          | (_, .ok p) => p.order.length == 2
          | _ => false
        | _ => false
      | _ => false
    | _ => false
  | _ => false

def diffLens : Bool :=
  match (version false).root lib with
  | .ok (r, _) =>
    (match ((ops lib).diff r { r with sabun := sampleMore }).bind encodeVals with | .ok out => out.length < 2 ^ 60 | _ => false) &&
    (match ((ops lib).diff { r with sabun := sampleEnd } { r with sabun := sampleMore }).bind encodeVals with | .ok out => out.length < 2 ^ 60 | _ => false)
  | _ => false

/-- the example before the last save: the object was edited and saved, and edited again -/
theorem sess_stage : ∃ r st live p, (version false).root lib = .ok (r, 68) ∧
    EReach .default (histOps lib r).ops (Edited r) (Fine lib r) st live [(p, { r with sabun := sampleEnd })] [] ∧
    live 0 = some { r with sabun := sampleMore } ∧ p.prevCtl = p.control ∧
    (∀ a, Compared .default noShift (histOps lib r).ops st 0 a → Fine lib r a { r with sabun := sampleMore }) ∧
    (∀ x, bplan .default noShift (histOps lib r).ops st 0 none { r with sabun := sampleMore } = .ok x → FileOk x.2.1) ∧
    ∃ st' p', bsave .default noShift (histOps lib r).ops st 0 none { r with sabun := sampleMore } = (st', .ok p') ∧ p'.order.length = 2 := by
  obtain ⟨r, h1, h2, h3⟩ := version_root false
  have hsaved := version_saved h1
  have hd : diffLens = true := by decide +kernel
  unfold diffLens at hd
  rw [h1] at hd
  simp only [Bool.and_eq_true] at hd
  have hf1 : Fine lib r r { r with sabun := sampleEnd } := ⟨hsaved.settled, hsaved.fits⟩
  have hf2 : Fine lib r r { r with sabun := sampleMore } := by
    refine ⟨by rw [h2, h3]; exact more_settled_first, fun vals out hv ho => ?_⟩
    have := hd.1
    rw [hv, Res.bind_ok, ho] at this
    simpa using this
  have hf3 : Fine lib r { r with sabun := sampleEnd } { r with sabun := sampleMore } := by
    refine ⟨by rw [h2]; exact more_settled, fun vals out hv ho => ?_⟩
    have := hd.2
    rw [hv, Res.bind_ok, ho] at this
    simpa using this
  have h0 : EReach .default (histOps lib r).ops (Edited r) (Fine lib r) ⟨[], none⟩ (fun _ => none) [] [] := .start [] (by simp) (by simp)
  have e1 := EReach.create _ _ _ _ 0 h0 rfl
  have e2 := EReach.edit _ _ _ _ 0 r ({ r with sabun := sampleEnd } : Root) e1 (set_same _ _ _)
    (show Edited r r { r with sabun := sampleEnd } from ⟨rfl, hsaved.session⟩)
  have hc : sessRun = true := by decide +kernel
  unfold sessRun at hc
  rw [h1] at hc
  simp only at hc
  split at hc
  · rename_i x hx
    rw [Bool.and_eq_true] at hc
    obtain ⟨hc1, hc⟩ := hc
    split at hc
    · rename_i st p hs
      rw [Bool.and_eq_true] at hc
      obtain ⟨hc0, hc⟩ := hc
      have e3 := EReach.save noShift _ st _ _ _ 0 _ p e2 (set_same _ _ _) (by simp)
        (fine_of_log idEnv_sound (version_usable false) h1 e2 (set_same _ _ _) hf1 (by simp))
        (fun y hy => by rw [hx] at hy; cases hy; exact fileOk_of_chk hc1) hs
      have e4 := EReach.edit _ _ _ _ 0 ({ r with sabun := sampleEnd } : Root) ({ r with sabun := sampleMore } : Root) e3 (set_same _ _ _)
        (show Edited r { r with sabun := sampleEnd } { r with sabun := sampleMore } from ⟨rfl, by rw [h2]; exact sampleMore_session⟩)
      split at hc
      · rename_i x' hx'
        rw [Bool.and_eq_true] at hc
        obtain ⟨hc2, hc⟩ := hc
        split at hc
        · rename_i st' p' hs'
          refine ⟨r, st, _, p, h1, e4, set_same _ _ _, by simpa using hc0, ?_,
            fun y hy => by rw [hx'] at hy; cases hy; exact fileOk_of_chk hc2, st', p', hs', by simpa using hc⟩
          refine fine_of_log idEnv_sound (version_usable false) h1 e4 (set_same _ _ _) hf2 fun e he => ?_
          rw [List.mem_singleton] at he
          subst he
          exact hf3
        · cases hc
      · cases hc
    · cases hc
  · cases hc

/-- The example meets the hypotheses of C78 for sessions: the object of the source is edited and saved, edited and saved again; the second
file is derived from the first. -/
theorem C78_sessions_sample : ∃ r st live p p', (version false).root lib = .ok (r, 68) ∧ p'.order.length = 2 ∧
    EReach .default (histOps lib r).ops (Edited r) (Fine lib r) st live [(p', { r with sabun := sampleMore }), (p, { r with sabun := sampleEnd })] [] := by
  obtain ⟨r, st, live, p, h1, hr, hl, _, hg, hf, st', p', hs, ho⟩ := sess_stage
  exact ⟨r, st', live, p, p', h1, ho, EReach.save noShift st st' live _ _ 0 _ p' hr hl (by simp) hg hf hs⟩

/-- The example meets the hypotheses of `C78_save_partial`. -/
example : ∃ r st live log, (version false).root lib = .ok (r, 68) ∧ log ≠ [] ∧
    EReach .default (histOps lib r).ops (Edited r) (Fine lib r) st live log [] ∧
    ∃ st' p, bsave .default noShift (histOps lib r).ops st 0 none { r with sabun := sampleMore } = (st', .ok p) := by
  obtain ⟨r, st, live, p, h1, hr, hl, hc, hg, hf, _⟩ := sess_stage
  have hp := (C52_no_panic_iff_partial .default .default (by decide)).2 (by
    intro c nth h1 h2
    cases h1
    cases h2
    decide)
  obtain ⟨st', q, _, hs, _⟩ := C78_save_partial idEnv_sound (version_usable false) h1 .default (by decide) noShift (hp noShift)
    st live _ _ hr (by simp) 0 (C78_linear idEnv_sound (version_usable false) h1 .default (by decide) st live _ _ hr (by simpa using hc) 0) _ hl hg hf
  exact ⟨r, st, live, _, h1, by simp, hr, st', q, hs⟩

end Verif.Pipeline
