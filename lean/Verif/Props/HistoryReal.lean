import Verif.Lemmas.HistoryPipeline
/-!
# Property C78: history files, from the bytes of the source to the objects that are loaded

C29 and C38 assume that a diff restores whatever was saved (`KOps.Lawful`). The real diff does not (C09). The theorems say what holds of
histories of real objects.
-/
namespace Verif.Pipeline
open Codec VarInt Source Core Named Archive History FileName FileHistory Phase

section
variable {L : Lib}

theorem lost_seen {S T : Type} (α : S → T) (o : Phase.Opts) (log : List (Props × S)) (p : Props) : Lost o (seen α log) p ↔ Lost o log p := by
  unfold Lost seen
  simp only [List.mem_map, exists_exists_and_eq_and]

/-- The functions that a history of a usable source calls, seen by id, are lawful where what is saved can be saved. -/
theorem hist_simulates (he : L.env.Sound) {v : Src} (hu : Usable L v) {r : Root} {h : Nat} (hr : v.root L = .ok (r, h)) :
    Simulates (histOps L r) (idHist L r) (byId r) (Held r) (Saveable L r) ∧ (idHist L r).Lawful := by
  obtain ⟨ht, hf, hfr⟩ := usable_fits he hu hr
  obtain ⟨hno, c, hc, hs⟩ := hu.lists r h hr
  exact ⟨simulates ht hf hfr hno (hu.memory r h hr).2 hc hs, Diff.idOps_lawful _ _ _ (legibleRoot_of ht (levelOk_depth r.table) hs)⟩

/-- what is in the log of a run is an object that can be saved -/
theorem log_saveable {o : Phase.Opts} {k : Ops Root} {r : Root} {st : BSt} {log : List (Props × Root)} {torn : List Props}
    (hr : RReach o k (Saveable L r) st log torn) : ∀ e ∈ log, e.2 = { r with sabun := e.2.sabun } ∧ RootFits r.defs e.2.sabun := by
  have comp : ∀ {shift : Shift} {st : BSt} {rid : Nat} {s : Root} {x}, bplan o shift k st rid none s = .ok x →
      (∀ a, Compared o shift k st rid a → Saveable L r a s) → s = { r with sabun := s.sabun } ∧ RootFits r.defs s.sabun := by
    intro shift st rid s x hx hg
    unfold bplan at hx
    rw [plan_eq] at hx
    obtain ⟨a, ha, _⟩ := bind_inv hx
    exact ⟨(hg a ha).object, (hg a ha).fits⟩
  induction hr with
  | start dir hn hf => intro e he; cases he
  | save shift st st' log torn rid s p _ _ hg _ hs ih =>
    intro e he
    rcases List.mem_cons.mp he with rfl | he
    · unfold bsave at hs
      cases hx : bplan o shift k st rid none s with
      | ok x => exact comp hx hg
      | err => rw [hx] at hs; cases hs
      | panic => rw [hx] at hs; cases hs
    · exact ih e he
  | fail _ _ _ _ _ _ _ _ _ _ _ _ _ _ ih => exact ih
  | interrupt shift st log torn rid s name c f p n _ _ hg hp _ _ ih =>
    intro e he
    rcases List.mem_cons.mp he with rfl | he
    · exact comp hp hg
    · exact ih e he
  | load _ _ _ _ _ _ _ _ _ ih => exact ih
  | list _ _ _ _ _ _ ih => exact ih
  | restart _ _ _ _ ih => exact ih
  | other _ _ _ _ _ _ _ _ ih => exact ih

/-- what is loaded by id is what is loaded -/
theorem loaded_same (he : L.env.Sound) {v : Src} (hu : Usable L v) {r : Root} {hash : Nat} (hv : v.root L = .ok (r, hash)) {o : Phase.Opts}
    {dir : BDir} {h : FileHistory.History} {p : Props} {s : Root} (ho : s = { r with sabun := s.sabun }) (hf : RootFits r.defs s.sabun)
    (hl : bload o (idHist L r).ops dir h p = .ok (byId r s)) : ∃ y, bload o (histOps L r).ops dir h p = .ok y ∧ SameObject s y := by
  obtain ⟨hs, _⟩ := hist_simulates he hu hv
  obtain ⟨g5, g6⟩ := hs.load o dir h p
  rw [hl] at g5
  cases hb : bload o (histOps L r).ops dir h p with
  | err => rw [hb] at g5; cases g5
  | panic => rw [hb] at g5; cases g5
  | ok y =>
    rw [hb] at g5
    have hy := g6 y hb
    refine ⟨y, rfl, ?_, ?_⟩
    · rw [ho, hy.object]
    · have hd : s.defs = r.defs := by rw [ho]
      rw [hd]
      refine sameRoot_of (n := tableDepth r.table) (usable_fits he hu hv).1 (levelOk_depth r.table) hf ?_
      change (Res.ok (byId r y)) = .ok (byId r s) at g5
      exact (Res.ok.inj g5).symm

/-- **C78 (partial).** The files of a usable source are loaded. Objects are saved into a history, anew or derived from what was saved or
loaded before, with any options and in any order; writing may be interrupted after any number of bytes, processes may end, files may be
listed in any order. Then every file is listed, in the order in which they were saved; a file that was written completely is loaded as
the object that was saved, up to the order of maps; a torn one is an error. Missing: changes that a diff cannot express (`Saveable`, see
C73 and C78_negation for what they are), and files that C29 finds lost. -/
theorem C78_history_partial (he : L.env.Sound) {v : Src} (hu : Usable L v) {r : Root} {hash : Nat} (hv : v.root L = .ok (r, hash)) (o : Phase.Opts)
    (st : BSt) (log : List (Props × Root)) (torn : List Props) (hr : RReach o (histOps L r).ops (Saveable L r) st log torn) :
    ∃ h, st.history = .ok h ∧ h.listFiles = (log.map (·.1)).reverse ∧ (∀ t ∈ torn, t ∈ h.listFiles) ∧
      ∀ p s, (p, s) ∈ log →
        (p ∉ torn → ¬ Lost o log p → ∃ y, bload o (histOps L r).ops st.dir h p = .ok y ∧ SameObject s y) ∧
        (p ∉ torn → Lost o log p → bload o (histOps L r).ops st.dir h p = .err) ∧
        (p ∈ torn → bload o (histOps L r).ops st.dir h p = .err) := by
  obtain ⟨hs, hlaw⟩ := hist_simulates he hu hv
  obtain ⟨h, h1, h2, h3, h4⟩ := C38_interrupted_saves o _ hlaw st _ torn (hs.reach hr)
  have err : ∀ p, bload o (idHist L r).ops st.dir h p = .err → bload o (histOps L r).ops st.dir h p = .err := by
    intro p hp
    have := (hs.load o st.dir h p).1
    rw [hp] at this
    cases hb : bload o (histOps L r).ops st.dir h p with
    | ok y => rw [hb] at this; cases this
    | err => rfl
    | panic => rw [hb] at this; cases this
  refine ⟨h, h1, ?_, h3, fun p s hp => ?_⟩
  · rw [h2]
    unfold seen
    rw [List.map_map]
    rfl
  · obtain ⟨g1, g2, g3⟩ := h4 p (byId r s) (List.mem_map.mpr ⟨(p, s), hp, rfl⟩)
    rw [lost_seen] at g1
    rw [lost_seen] at g2
    refine ⟨fun ht hl => ?_, fun ht hl => err p (g2 ht hl), fun ht => err p (g3 ht)⟩
    obtain ⟨h5, h6⟩ := log_saveable hr _ hp
    exact loaded_same he hu hv h5 h6 (g1 ht hl)

/-- A session of the loaded object can be saved. -/
theorem saveable_of_saved (he : L.env.Sound) {v : Src} (hu : Usable L v) {r : Root} {hash : Nat} (hv : v.root L = .ok (r, hash)) {s : Root}
    (hs : Saved L r s) : Saveable L r r s := by
  obtain ⟨_, hf, hfr⟩ := usable_fits he hu hv
  exact ⟨hs.object, rootFits_memory hf, (C73_session_fits hs.session hfr hf).2, C73_session_step hs.session hfr hf hs.settled, hs.fits⟩

/-- **C78: going on.** In any state that was reached, a new process can save what it made of the object of the source; the file is the newest one
and is loaded as what was saved. -/
theorem C78_go_on (he : L.env.Sound) {v : Src} (hu : Usable L v) {r : Root} {hash : Nat} (hv : v.root L = .ok (r, hash)) (o : Phase.Opts)
    (st : BSt) (log : List (Props × Root)) (torn : List Props) (hr : RReach o (histOps L r).ops (Saveable L r) st log torn)
    (hl : log.length < 10 ^ 8 - 1) (shift : Shift) (rid : Nat) (s : Root) (hs : Saved L r s) :
    ∃ st' p h' y, bsave o shift (histOps L r).ops ⟨st.dir, none⟩ rid none s = (st', .ok p) ∧
      RReach o (histOps L r).ops (Saveable L r) st' ((p, s) :: log) torn ∧ st'.history = .ok h' ∧ h'.newest = some p ∧
      bload o (histOps L r).ops st'.dir h' p = .ok y ∧ SameObject s y := by
  obtain ⟨hsim, hlaw⟩ := hist_simulates he hu hv
  have hgood := saveable_of_saved he hu hv hs
  obtain ⟨vals, out, hd, _, _, henc, hlt, _⟩ := C76_diff he hu hv hs
  have hr0 := RReach.restart st log torn hr
  have hcmp : ∀ a, Compared o shift (histOps L r).ops ⟨st.dir, none⟩ rid a → Saveable L r a s := by
    intro a ha
    unfold Compared planBase at ha
    obtain ⟨h, _, ha⟩ := bind_inv ha
    simp only [baseFor, bcompose] at ha
    cases ha
    exact hgood
  have hdd : (histOps L r).ops.diff (histOps L r).ops.src s = .ok out := by
    change ((ops L).diff r s).bind encodeVals = _
    rw [hd, Res.bind_ok, henc]
  have hf : ∀ x, bplan o shift (histOps L r).ops ⟨st.dir, none⟩ rid none s = .ok x → FileOk x.2.1 := by
    intro x hx
    unfold bplan plan at hx
    obtain ⟨h, _, hx⟩ := bind_inv hx
    simp only [baseFor, planNew, bcompose, Res.bind_ok] at hx
    rw [hdd, Res.bind_ok] at hx
    cases hx
    exact fileOk_new hlt
  have hdd' : (idHist L r).ops.diff (idHist L r).ops.src (byId r s) = .ok out := by
    rw [← hdd]
    simp only [KOps.ops]
    have := hsim.diff r s hsim.inv hgood
    rw [show (histOps L r).src = r from rfl, this]
    rfl
  obtain ⟨st', p, h', g1, g2, g3, g4⟩ := go_on o (idHist L r) hlaw st _ torn (hsim.reach hr) ((seen_length _ log).trans_lt hl) shift rid (byId r s) out hdd'
    (by rw [← hsim.plan o shift ⟨st.dir, none⟩ rid s hcmp]; exact hf)
  rw [← hsim.save o shift ⟨st.dir, none⟩ rid s hcmp] at g1
  obtain ⟨y, g5, g6⟩ := loaded_same he hu hv hgood.object hgood.fits g4
  exact ⟨st', p, h', y, g1, .save shift _ _ log torn rid s p hr0 hl hcmp hf g1, g2, g3, g5, g6⟩

end
end Verif.Pipeline
