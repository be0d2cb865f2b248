import Verif.Lemmas.Lost
import Verif.Lemmas.Save

/-! When a save succeeds: exactly when the file it continues is not stuck. -/

namespace Verif.History
open FileHistory FileName Phase Codec

section
variable {S : Type}

theorem getParent_none {log : List (Props × S)} {h : Hist} (hk : Knows h log) (p : Props) :
    h.getParent p = none ↔ ∀ e ∈ log, ¬(e.1.control = p.prevCtl ∧ e.1.order = p.order.dropLast) := by
  constructor
  · intro hn e he ⟨h1, h2⟩
    have : h.getProps p.prevCtl (orderBase p) = some e.1 := (hk.2 _ _ _).2 ⟨⟨e, he, rfl⟩, by simp [key, orderBase, h1, h2]⟩
    unfold History.getParent at hn
    rw [this] at hn
    cases hn
  · intro hn
    cases hg : h.getParent p with
    | none => rfl
    | some q =>
      obtain ⟨⟨e, he, rfl⟩, hkey⟩ := (hk.2 _ _ _).1 hg
      simp only [key, List.cons.injEq] at hkey
      exact absurd hkey (hn e he)

variable {o : Opts} {ops : Ops S} {st : St} {log : List (Props × S)}

/-- The files that lose their parent are of the last phase. -/
theorem Lost.length {p : Props} (h : Lost o log p) : p.order.length = o.maxPhase + 1 := by
  obtain ⟨_, _, _, q, hq, _, _, q3, q4⟩ := h
  rw [q4]
  simp only [List.length_append, List.length_dropLast, List.length_cons, List.length_nil]
  omega

/-- A file that is not stuck is continued after a file that can be loaded. -/
theorem fromFile_free (hr : Reach o ops st log) (h : Hist) (hh : st.history = .ok h) (b : Props × S) (hb : b ∈ log) (newest : Props)
    (hn : log.head?.map (·.1) = some newest) (hs : ¬ Stuck o log b.1) :
    ∃ f ∈ log, fromFile o h b.1 newest = some f.1 ∧ ¬ Lost o log f.1 := by
  obtain ⟨h', hh', hk⟩ := hr.inv.history
  rw [hh] at hh'
  cases hh'
  have hne : b.1.order ≠ [] := (hr.inv.small b hb).2.1
  have hlen : 0 < b.1.order.length := List.length_pos_iff.2 hne
  unfold fromFile phase
  split
  · rename_i hc
    cases hg : h.getParent b.1 with
    | none =>
      refine absurd (Or.inl ⟨by omega, ?_, (getParent_none hk _).1 hg⟩) hs
      rw [hn]
      intro heq
      exact hc.2 (Option.some.inj heq).symm
    | some q =>
      obtain ⟨⟨e, he, rfl⟩, hkey⟩ := (hk.2 _ _ _).1 hg
      simp only [key, List.cons.injEq] at hkey
      refine ⟨e, he, rfl, fun hl => ?_⟩
      have := hl.length
      rw [hkey.2, orderBase, List.length_dropLast] at this
      omega
  · exact ⟨b, hb, rfl, fun hl => hs (Or.inr hl)⟩

/-- After a stuck file there is either no place to continue, or it is the newest file and its chain is broken. -/
theorem fromFile_stuck (hr : Reach o ops st log) (h : Hist) (hh : st.history = .ok h) (b : Props × S) (hb : b ∈ log) (newest : Props)
    (hn : log.head?.map (·.1) = some newest) (hs : Stuck o log b.1) :
    fromFile o h b.1 newest = none ∨
      (fromFile o h b.1 newest = some b.1 ∧ ancestorsRev h b.1 o.maxPhase o.cumulative.isSome = .err) := by
  obtain ⟨h', hh', hk⟩ := hr.inv.history
  rw [hh] at hh'
  cases hh'
  unfold fromFile phase
  rcases hs with ⟨h1, h2, h3⟩ | hl
  · left
    rw [if_pos ⟨by omega, fun hc => h2 (by rw [hn, hc])⟩]
    exact (getParent_none hk _).2 h3
  · have hlen := hl.length
    split
    · exact Or.inl (lost_no_parent hr h hh _ hl)
    · exact Or.inr ⟨rfl, lost_no_chain hr h hh b hb hl⟩

/-- Without the cumulative option, and with more than one phase, the files that can be loaded are not stuck. -/
theorem stuck_plain (hlaw : ops.Lawful) (hr : Reach o ops st log) (hm : o.maxPhase ≠ 0) (hc : o.cumulative = none) (b : Props × S)
    (hb : b ∈ log) : Stuck o log b.1 ↔ Lost o log b.1 := by
  refine ⟨fun hs => ?_, Or.inr⟩
  rcases hs with ⟨h1, h2, h3⟩ | hl
  · obtain ⟨h, hh, hk⟩ := hr.inv.history
    rcases hr.loads hlaw h hh b hb with ⟨rev, hrev, _⟩ | hl
    · exfalso
      have hne : b.1.order ≠ [] := (hr.inv.small b hb).2.1
      rw [hc, Option.isSome_none, ancestorsRev_plain h b.1 hne _ _ (Or.inl (by simp)),
        par_eq h (keyed_of_hwf h hk.1), if_pos (by omega), (getParent_none hk _).2 h3] at hrev
      cases hrev
    · exact hl
  · exact hl

/-- In a history without derived files, and with more than one phase, no file is stuck. -/
theorem stuck_linear (hlaw : ops.Lawful) (hr : Reach o ops st log) (hm : o.maxPhase ≠ 0) (hnd : ∀ e ∈ log, e.1.prevCtl = e.1.control)
    (b : Props × S) (hb : b ∈ log) : ¬ Stuck o log b.1 := by
  have hnl : ¬ Lost o log b.1 := by
    rintro ⟨_, _, _, q, hq, _, hne, _⟩
    exact hne (hnd q hq)
  rintro (⟨h1, h2, h3⟩ | hl)
  · obtain ⟨h, hh, hk⟩ := hr.inv.history
    obtain ⟨f, hf⟩ := parent_exists h hk hnd ops b (by omega) b.2 ((hr.loads hlaw h hh b hb).resolve_right hnl)
    rw [(getParent_none hk _).2 h3] at hf
    cases hf
  · exact hnl hl

/-- Saving fails after a stuck file, unless computing the phase panics. -/
theorem derive_stuck (hr : Reach o ops st log) (h : Hist) (b : Props × S) (hb : b ∈ log) (shift : Shift) (s : S)
    (hp : ∀ d, calcNextPhase o shift d ≠ .panic) (he : ancestorsRev h b.1 o.maxPhase o.cumulative.isSome = .err) :
    deriveImpl o shift ops none s h st.dir b.1 = .err := by
  obtain ⟨file, h3, _⟩ := hr.inv.files b hb
  unfold deriveImpl
  cases h.newest with
  | none => rfl
  | some n =>
    simp only
    rw [h3]
    simp only
    cases hn : calcNextPhase o shift file.1 with
    | err => rfl
    | panic => exact absurd hn (hp _)
    | ok next =>
      simp only [Res.bind_ok]
      rw [he]
      rfl

/-- Saves succeed unless the file they continue is stuck. -/
theorem save_free (ho : o.build = .ok o) (hr : Reach o ops st log) (hl : log.length < 10 ^ 8 - 1) (hlaw : ops.Lawful) (ht : ops.Total)
    (shift : Shift) (hp : ∀ d, calcNextPhase o shift d ≠ .panic) (rid : Nat) (s : S)
    (hs : ∀ b, st.base = some (rid, b) → ¬ Stuck o log b) : ∃ st' p, save o shift ops st rid none s = (st', .ok p) := by
  obtain ⟨h, hh, hk⟩ := hr.inv.history
  have hnew := hk.newest hr.inv.sorted
  have hstart : ∃ st' p, saveNew ops st h rid none s = (st', .ok p) := by
    obtain ⟨d, hd⟩ := ht ops.src s
    unfold saveNew writePhase0
    rw [hd]
    simp only [(start_new_props hr.inv hl h hk).1, Res.bind_ok]
    exact ⟨_, _, rfl⟩
  unfold save
  rw [hh]
  simp only
  cases hb : st.baseFor rid with
  | none => exact hstart
  | some b =>
    have hb' : st.base = some (rid, b) := by
      unfold St.baseFor at hb
      split at hb
      · rename_i r q hq
        split at hb
        · rename_i hrr
          cases hb
          rw [hq, hrr]
        · cases hb
      · cases hb
    obtain ⟨e, he, rfl⟩ := hr.inv.base rid b hb'
    cases log with
    | nil => simp at he
    | cons e0 l =>
      obtain ⟨f, hf, hff, hfl⟩ := fromFile_free hr h hh e he e0.1 rfl (hs _ hb')
      simp only [List.head?_cons, Option.map_some] at hnew
      rw [hnew]
      simp only
      unfold saveDerived
      rw [hff]
      simp only
      have hload : Loads o ops st.dir h f.1 f.2 := (hr.loads hlaw h hh f hf).resolve_right hfl
      obtain ⟨⟨dir', p⟩, hd⟩ := derive_succeeds ho hr.inv h hk shift ops ht s f hf hp f.2 hload
      rw [hd]
      exact ⟨_, _, rfl⟩

theorem save_stuck (hr : Reach o ops st log) (shift : Shift) (hp : ∀ d, calcNextPhase o shift d ≠ .panic) (rid : Nat) (s : S) (b : Props)
    (hb : st.base = some (rid, b)) (hs : Stuck o log b) : save o shift ops st rid none s = (st, .err) := by
  obtain ⟨h, hh, hk⟩ := hr.inv.history
  have hnew := hk.newest hr.inv.sorted
  obtain ⟨e, he, rfl⟩ := hr.inv.base rid b hb
  have hbf : st.baseFor rid = some e.1 := by unfold St.baseFor; rw [hb]; simp
  unfold save
  rw [hh]
  simp only
  rw [hbf]
  cases log with
  | nil => simp at he
  | cons e0 l =>
    simp only [List.head?_cons, Option.map_some] at hnew
    rw [hnew]
    simp only
    unfold saveDerived
    rcases fromFile_stuck hr h hh e he e0.1 rfl hs with hf | ⟨hf, ha⟩
    · rw [hf]
    · rw [hf]
      simp only
      rw [derive_stuck hr h e he shift s hp ha]

end
end Verif.History
