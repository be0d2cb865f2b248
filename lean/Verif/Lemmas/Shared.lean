import Verif.Spec.Shared
import Verif.Lemmas.RemovalRun
import Verif.Lemmas.Cache
/-! Helper lemmas: several processes that use the same history. -/
namespace Verif.Shared
open VarInt FileName FileHistory Phase History Remover Removal

section
variable {S : Type} {o : Opts} {ops : Ops S} {st g : St} {log : List (Props × S)}

theorem sim_stands (hlaw : ops.Lawful) (hs : Sim o ops st g log) (h : Hist) (hh : st.history = .ok h) : Stands o ops st log h := by
  obtain ⟨hg, hhg, hkg⟩ := hs.reach.inv.history
  have hk := hs.knows h hh
  have hi := hs.reach.inv
  refine ⟨hh, fun f hf x hx rev hrev => ?_, hi.unique, fun e he => ?_, fun e he x hx => ?_, fun hl => ?_, fun r p hb => ?_,
    fun b newest f hb hf => ?_, fun p hp => ?_, hi.analyze_file⟩
  · have hlg := ancestorsRev_mono h hg (hs.extends h hg hh hhg) _ _ _ _ hrev
    have hgood := hs.reach.good hlaw hg hhg f hf rev hlg
    have hthere := hs.chain_there h hh f.1 ⟨x, hx⟩ rev hrev
    intro j a ha
    obtain ⟨e, he, h1, h2, h3⟩ := hgood j a ha
    refine ⟨e, he, h1, ?_, h3⟩
    rw [compose_there ops st.dir g.dir hs.sub _ (fun b hb => hthere b (List.mem_reverse.1 (List.mem_of_mem_take hb)))]
    exact h2
  · obtain ⟨_, h1, h2, _⟩ := hi.small e he
    exact ⟨h1, h2⟩
  · obtain ⟨f, h1, h2⟩ := hi.files e he
    rw [hs.sub _ _ hx] at h1
    cases h1
    exact h2
  · have hnc : newControl h = newControl hg := by unfold newControl; rw [hs.newest h hg hh hhg]
    rw [hnc]
    exact (start_new_props hi hl hg hkg).1
  · rw [hs.base] at hb
    exact hi.base r p hb
  · unfold fromFile at hf
    split at hf
    · obtain ⟨⟨e, he, h1⟩, _⟩ := (hk.2 _ _ _).1 hf
      exact ⟨e, ((mem_rest _ _ _).1 he).1, h1⟩
    · cases hf; exact hb
  · obtain ⟨⟨e, he, h1⟩, h2⟩ := (hs.listed h hh p).1 hp
    exact ⟨e, he, h1, h2⟩

/-- Another process takes its turn. -/
theorem turn {may : Hist → List Props → Prop} {dir : Dir} {b b' : Option (Nat × Props)} (hr : ReachR may o ops ⟨dir, b⟩ log)
    (hb : ∀ r p, b' = some (r, p) → ∃ e ∈ log, e.1 = p) : ReachR may o ops ⟨dir, b'⟩ log := by
  cases b' with
  | none => exact .restart _ _ hr
  | some x =>
    obtain ⟨r, p⟩ := x
    obtain ⟨e, he, rfl⟩ := hb r p rfl
    exact .other _ _ r e hr he

/-- What each process knows stays right. -/
structure Fine (log : List (Props × S)) (p : Proc S) : Prop where
  base : ∀ r q, p.base = some (r, q) → ∃ e ∈ log, e.1 = q
  cache : CacheOk log p.cache

theorem Fine.new (log : List (Props × S)) : Fine log (Proc.new : Proc S) := ⟨(fun _ _ h => nomatch h), .nil _⟩

theorem Fine.cons {p : Proc S} (h : Fine log p) (e : Props × S) : Fine (e :: log) p :=
  ⟨fun r q hq => by obtain ⟨x, hx, h1⟩ := h.base r q hq; exact ⟨x, List.mem_cons_of_mem _ hx, h1⟩,
    h.cache.mono fun x hx => List.mem_cons_of_mem _ hx⟩

theorem fine_put {ps : Nat → Proc S} (h : ∀ j, Fine log (ps j)) (i : Nat) (p : Proc S) (hp : Fine log p) (j : Nat) :
    Fine log (put ps i p j) := by
  unfold put
  split
  · exact hp
  · exact h j

theorem of_base (hr : ReachR Others o ops st log) : ∀ r q, st.base = some (r, q) → ∃ e ∈ log, e.1 = q := by
  obtain ⟨g, hg⟩ := hr.sim
  intro r q hq
  rw [hg.base] at hq
  exact hg.reach.inv.base r q hq

theorem saveC_at (hlaw : ops.Lawful) (hr : ReachR Others o ops st log) (hl : log.length < 10 ^ 8 - 1) (shift : Shift) (rid : Nat) (s : S)
    (c : Cache S) (hc : CacheOk log c) :
    (saveC o shift ops st c rid none s).2 = History.save o shift ops st rid none s ∧
      (∀ st' p, History.save o shift ops st rid none s = (st', .ok p) →
        CacheOk ((p, s) :: log) (saveC o shift ops st c rid none s).1) ∧
      ((∀ p, (History.save o shift ops st rid none s).2 ≠ .ok p) → CacheOk log (saveC o shift ops st c rid none s).1) := by
  obtain ⟨g, hg⟩ := hr.sim
  obtain ⟨h, hh, _⟩ := hg.history
  obtain ⟨h1, h2, h3⟩ := (sim_stands hlaw hg h hh).saveC_spec hl shift rid s c hc
  exact ⟨h1, fun st' p hp => (h2 st' p hp).1, h3⟩

theorem loadFileC_at (hlaw : ops.Lawful) (hr : ReachR Others o ops st log) (h : Hist) (hh : st.history = .ok h) (c : Cache S)
    (hc : CacheOk log c) (p : Props) (hp : p ∈ h.listFiles) (rid : Nat) :
    loadFileC o ops st c h p rid = loadFile o ops st h p rid := by
  obtain ⟨g, hg⟩ := hr.sim
  exact (sim_stands hlaw hg h hh).loadFileC_spec c hc p hp rid

theorem loadFile_dir (o : Opts) (ops : Ops S) (st : St) (h : Hist) (p : Props) (rid : Nat) : (loadFile o ops st h p rid).1.dir = st.dir := by
  unfold loadFile
  split <;> rfl

theorem Shared.main (hlaw : ops.Lawful) {dir : Dir} {ps : Nat → Proc S} (hr : Shared Others o ops dir ps log) :
    ReachR Others o ops ⟨dir, none⟩ log ∧ ∀ i, Fine log (ps i) := by
  induction hr with
  | start dir hn hf => exact ⟨.start dir hn hf, fun _ => .new _⟩
  | save i shift dir st' ps c' log rid s p hr hl hs ih =>
    have hi : ReachR Others o ops ⟨dir, (ps i).base⟩ log := turn ih.1 (ih.2 i).base
    obtain ⟨h1, h2, _⟩ := saveC_at hlaw hi hl shift rid s _ (ih.2 i).cache
    rw [hs] at h1 h2
    have hsv := ReachR.save shift _ st' log rid s p hi hl h1.symm
    exact ⟨.restart _ _ hsv, fine_put (fun j => (ih.2 j).cons _) i _ ⟨of_base hsv, h2 st' p h1.symm⟩⟩
  | killed i shift dir st' ps c' log rid s p hr hl hs ih =>
    have hi : ReachR Others o ops ⟨dir, (ps i).base⟩ log := turn ih.1 (ih.2 i).base
    obtain ⟨h1, h2, _⟩ := saveC_at hlaw hi hl shift rid s _ (ih.2 i).cache
    rw [hs] at h1 h2
    have hsv := ReachR.save shift _ st' log rid s p hi hl h1.symm
    exact ⟨.restart _ _ hsv, fine_put (fun j => (ih.2 j).cons _) i _ (.new _)⟩
  | fail i shift dir st' ps c' log rid s r hr hl hs hf ih =>
    have hi : ReachR Others o ops ⟨dir, (ps i).base⟩ log := turn ih.1 (ih.2 i).base
    obtain ⟨h1, _, h3⟩ := saveC_at hlaw hi hl shift rid s _ (ih.2 i).cache
    rw [hs] at h1 h3
    have hsv := ReachR.fail shift _ st' log rid s r hi hl h1.symm hf
    refine ⟨.restart _ _ hsv, fine_put ih.2 i _ ⟨of_base hsv, h3 ?_⟩⟩
    rw [← h1]
    exact hf
  | load i dir ps log h p rid hr hh hp ih =>
    have hi : ReachR Others o ops ⟨dir, (ps i).base⟩ log := turn ih.1 (ih.2 i).base
    have hld := ReachR.load _ log h p rid hi hh hp
    refine ⟨ih.1, fine_put ih.2 i _ ⟨?_, (ih.2 i).cache⟩⟩
    rw [loadFileC_at hlaw hi h hh _ (ih.2 i).cache p hp rid]
    exact of_base hld
  | list dir dir' ps log hr hp ih => exact ⟨.list _ dir' log ih.1 hp, ih.2⟩
  | restart i dir ps log hr ih => exact ⟨ih.1, fine_put ih.2 i _ (.new _)⟩
  | remove dir ps log h gone hr hh hm ih => exact ⟨.remove _ log h gone ih.1 hh hm, ih.2⟩

theorem Shared.at (hlaw : ops.Lawful) {dir : Dir} {ps : Nat → Proc S} (hr : Shared Others o ops dir ps log) (i : Nat) :
    ReachR Others o ops ⟨dir, (ps i).base⟩ log ∧ CacheOk log (ps i).cache := by
  obtain ⟨h1, h2⟩ := hr.main hlaw
  exact ⟨turn h1 (h2 i).base, (h2 i).cache⟩

end
end Verif.Shared
