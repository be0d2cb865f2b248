import Verif.Lemmas.Removal
/-! Helper lemmas: a run with removals is followed by a run without them. -/
namespace Verif.Removal
open VarInt FileName FileHistory Phase History Remover

section
variable {S : Type}

open Classical in
/-- The part of the log of which the files are in the directory. -/
noncomputable def rest (st : St) (log : List (Props × S)) : List (Props × S) := log.filter fun e => decide (There st e.1)

theorem mem_rest (st : St) (log : List (Props × S)) (e : Props × S) : e ∈ rest st log ↔ e ∈ log ∧ There st e.1 := by
  unfold rest
  rw [List.mem_filter]
  simp

/-- A state with removals, and the same state without them. -/
structure Sim (o : Opts) (ops : Ops S) (st g : St) (log : List (Props × S)) : Prop where
  reach : Reach o ops g log
  base : st.base = g.base
  nodup : (st.dir.map (·.1)).Nodup
  sub : ∀ n f, st.dir.read n = some f → g.dir.read n = some f
  head : ∀ e, log.head? = some e → There st e.1

variable {o : Opts} {ops : Ops S} {st g : St} {log : List (Props × S)}

theorem rest_sorted (hi : Inv o g log) (st : St) : (rest st log).Pairwise (fun a b => key b.1 < key a.1) :=
  hi.sorted.sublist List.filter_sublist

theorem Sim.history (hs : Sim o ops st g log) : ∃ h, st.history = .ok h ∧ Knows h (rest st log) := by
  have hi := hs.reach.inv
  refine history_knows st.dir (rest st log) (fun n hn => ?_) (fun e he => ?_) (fun e he => ?_) (fun e he => ?_) (rest_sorted hi st)
  · obtain ⟨x, hx, rfl⟩ := List.mem_map.1 hn
    have hx' : st.dir.read x.1 = some x.2 := (read_mem _ hs.nodup _ _).2 hx
    rcases hi.names x.1 (mem_of_read _ _ _ (hs.sub _ _ hx')) with h | ⟨e, he, h⟩
    · exact .inl h
    · refine .inr ⟨e, (mem_rest _ _ _).2 ⟨he, ⟨x.2, by rw [← h]; exact hx'⟩⟩, h⟩
  · obtain ⟨_, f, hf⟩ := (mem_rest _ _ _).1 he
    exact mem_of_read _ _ _ hf
  · exact hi.analyze_file e ((mem_rest _ _ _).1 he).1
  · exact hi.inRange e ((mem_rest _ _ _).1 he).1

theorem Sim.knows (hs : Sim o ops st g log) (h : Hist) (hh : st.history = .ok h) : Knows h (rest st log) := by
  obtain ⟨h', hh', hk⟩ := hs.history
  rw [hh] at hh'
  cases hh'
  exact hk

theorem reach_knows (hr : Reach o ops g log) (h : Hist) (hh : g.history = .ok h) : Knows h log := by
  obtain ⟨h', hh', hk⟩ := hr.inv.history
  rw [hh] at hh'
  cases hh'
  exact hk

theorem Sim.extends (hs : Sim o ops st g log) (h hg : Hist) (hh : st.history = .ok h) (hhg : g.history = .ok hg) : Extends h hg :=
  (hs.knows h hh).extends (reach_knows hs.reach hg hhg) (fun e he => ((mem_rest _ _ _).1 he).1)

theorem Sim.newest (hs : Sim o ops st g log) (h hg : Hist) (hh : st.history = .ok h) (hhg : g.history = .ok hg) :
    h.newest = hg.newest := by
  rw [(hs.knows h hh).newest (rest_sorted hs.reach.inv st), (reach_knows hs.reach hg hhg).newest hs.reach.inv.sorted]
  cases log with
  | nil => rfl
  | cons e l =>
    unfold rest
    rw [List.filter_cons, if_pos (by simpa using hs.head e rfl)]
    rfl

theorem Sim.listed (hs : Sim o ops st g log) (h : Hist) (hh : st.history = .ok h) (p : Props) :
    p ∈ h.listFiles ↔ (∃ e ∈ log, e.1 = p) ∧ There st p := by
  rw [knows_listed (hs.knows h hh)]
  constructor
  · rintro ⟨e, he, rfl⟩
    obtain ⟨h1, h2⟩ := (mem_rest _ _ _).1 he
    exact ⟨⟨e, h1, rfl⟩, h2⟩
  · rintro ⟨⟨e, h1, rfl⟩, h2⟩
    exact ⟨e, (mem_rest _ _ _).2 ⟨h1, h2⟩, rfl⟩

/-- A save that succeeds would also have succeeded without the removals, with the same file. -/
theorem Sim.save (hs : Sim o ops st g log) (hl : log.length < 10 ^ 8 - 1) (shift : Shift) (rid : Nat) (s : S) (p : Props) (st' : St)
    (hsave : History.save o shift ops st rid none s = (st', .ok p)) :
    ∃ g', History.save o shift ops g rid none s = (g', .ok p) ∧ st'.base = g'.base ∧ (st'.dir.map (·.1)).Nodup ∧
      (∀ n f, st'.dir.read n = some f → g'.dir.read n = some f) ∧ There st' p ∧
      (∀ q, There st q → There st' q) ∧
      ∀ h hg, st.history = .ok h → g.history = .ok hg → ∀ b newest f, g.baseFor rid = some b → hg.newest = some newest →
        fromFile o hg b newest = some f → ∀ rev, ancestorsRev hg f o.maxPhase o.cumulative.isSome = .ok rev →
          ∀ a ∈ rev, There st a := by
  obtain ⟨h, hh, hk⟩ := hs.history
  obtain ⟨hg, hhg, hkg⟩ := hs.reach.inv.history
  have hnw := hs.newest h hg hh hhg
  have hx := hs.extends h hg hh hhg
  have hbf : st.baseFor rid = g.baseFor rid := by unfold St.baseFor; rw [hs.base]
  have hwrite : ∀ (n : Bytes) (fl : File), ((st.dir.write n fl).map (·.1)).Nodup ∧
      (∀ m f, (st.dir.write n fl).read m = some f → (g.dir.write n fl).read m = some f) ∧
      (∀ q, There st q → ∃ f, (st.dir.write n fl).read q.filename = some f) := by
    intro n fl
    refine ⟨nodup_write _ hs.nodup _ _, fun m f hm => ?_, fun q hq => ?_⟩
    · rw [read_write] at hm ⊢
      split
      · rename_i hc; rw [if_pos hc] at hm; exact hm
      · rename_i hc; rw [if_neg hc] at hm; exact hs.sub _ _ hm
    · obtain ⟨f, hf⟩ := hq
      rw [read_write]
      split
      · exact ⟨fl, rfl⟩
      · exact ⟨f, hf⟩
  have hnew : (st.baseFor rid = none ∨ h.newest = none) → saveNew ops st h rid none s = (st', .ok p) →
      ∃ g', saveNew ops g hg rid none s = (g', .ok p) ∧ st'.base = g'.base ∧ (st'.dir.map (·.1)).Nodup ∧
      (∀ n f, st'.dir.read n = some f → g'.dir.read n = some f) ∧ There st' p ∧
      (∀ q, There st q → There st' q) := by
    intro _ hsv
    have hnc : newControl h = newControl hg := by unfold newControl; rw [hnw]
    obtain ⟨han, _⟩ := start_new_props hs.reach.inv hl hg hkg
    unfold saveNew writePhase0 at hsv ⊢
    rw [hnc] at hsv
    cases hd : ops.diff ops.src s with
    | err => rw [hd] at hsv; simp at hsv
    | panic => rw [hd] at hsv; simp at hsv
    | ok d =>
      rw [hd] at hsv
      simp only [han, Res.bind_ok] at hsv ⊢
      cases hsv
      obtain ⟨w1, w2, w3⟩ := hwrite (calcFilename none (newControl hg) none [0]) (Data.new d.length, d)
      refine ⟨_, rfl, rfl, w1, w2, ⟨(Data.new d.length, d), ?_⟩, w3⟩
      simp only
      rw [read_write, if_pos]
      simp [Props.filename]
  unfold History.save at hsave ⊢
  rw [hh] at hsave
  rw [hhg]
  simp only at hsave ⊢
  rw [hbf, hnw] at hsave
  cases hb : g.baseFor rid with
  | none =>
    rw [hb] at hsave
    simp only at hsave ⊢
    obtain ⟨g', g1, g2, g3, g4, g5, g6⟩ := hnew (.inl (by rw [hbf, hb])) hsave
    exact ⟨g', g1, g2, g3, g4, g5, g6, fun _ _ _ _ b _ _ hc => by cases hc⟩
  | some b =>
    rw [hb] at hsave
    cases hn : hg.newest with
    | none =>
      rw [hn] at hsave
      simp only at hsave ⊢
      obtain ⟨g', g1, g2, g3, g4, g5, g6⟩ := hnew (.inr (by rw [hnw, hn])) hsave
      refine ⟨g', g1, g2, g3, g4, g5, g6, fun _ hg2 _ hc b newest _ _ hc' => ?_⟩
      cases hc
      rw [hn] at hc'
      cases hc'
    | some newest =>
      rw [hn] at hsave
      simp only at hsave ⊢
      unfold saveDerived at hsave ⊢
      cases hf : fromFile o h b newest with
      | none => rw [hf] at hsave; cases hsave
      | some f =>
        rw [hf] at hsave
        have hfg : fromFile o hg b newest = some f := by
          unfold fromFile at hf ⊢
          split
          · rename_i hc; rw [if_pos hc] at hf; exact hx _ _ _ hf
          · rename_i hc; rw [if_neg hc] at hf; exact hf
        rw [hfg]
        simp only at hsave ⊢
        cases hd : deriveImpl o shift ops none s h st.dir f with
        | err => rw [hd] at hsave; simp at hsave
        | panic => rw [hd] at hsave; simp at hsave
        | ok r =>
          obtain ⟨dir', p'⟩ := r
          rw [hd] at hsave
          simp only [Prod.mk.injEq, Res.ok.injEq] at hsave
          obtain ⟨hst, rfl⟩ := hsave
          subst hst
          obtain ⟨np, file, next, rev, deps, c, d, h1, h2, h3, h4, h5, h6, h7, rfl⟩ := deriveImpl_ok _ _ _ _ _ _ _ _ _ _ hd
          have h4g := ancestorsRev_mono h hg hx _ _ _ _ h4
          have hdg : deriveImpl o shift ops none s hg g.dir f = .ok (g.dir.write p'.filename (file.1.popAndPush next d.length, d), p') := by
            unfold deriveImpl
            rw [← hnw, h1]
            simp only
            rw [hs.sub _ _ h2]
            simp only
            rw [h3]
            simp only [Res.bind_ok]
            rw [h4g]
            simp only [Res.bind_ok]
            rw [h5]
            simp only [Res.bind_ok]
            rw [compose_congr ops st.dir g.dir hs.sub deps _ _ h6]
            simp only [Res.bind_ok]
            rw [h7]
            rfl
          rw [hdg]
          simp only
          obtain ⟨w1, w2, w3⟩ := hwrite p'.filename (file.1.popAndPush next d.length, d)
          refine ⟨_, rfl, rfl, w1, w2, ⟨_, by simp only; rw [read_write, if_pos rfl]⟩, w3, ?_⟩
          intro h0 hg0 e1 e2 b0 n0 f0 e3 e4 e5 rev0 e6 a ha
          rw [hh] at e1
          cases e1
          cases e2
          cases e3
          rw [hn] at e4
          cases e4
          rw [hfg] at e5
          cases e5
          rw [h4g] at e6
          cases e6
          obtain ⟨r, rfl, hr⟩ := ancestorsRev_shape _ _ _ _ _ h4
          rcases List.mem_cons.1 ha with rfl | ha
          · exact ⟨file, h2⟩
          · obtain ⟨c', o', hq⟩ := hr a ha
            obtain ⟨⟨e, he, rfl⟩, _⟩ := (hk.2 _ _ _).1 hq
            exact ((mem_rest _ _ _).1 he).2

theorem Sim.fail (hs : Sim o ops st g log) (hl : log.length < 10 ^ 8 - 1) (shift : Shift) (rid : Nat) (s : S) (r : Res Props) (st' : St)
    (hsave : History.save o shift ops st rid none s = (st', r)) (hf : ∀ p, r ≠ .ok p) : st' = st := by
  obtain ⟨h, hh, hk⟩ := hs.history
  obtain ⟨hg, hhg, hkg⟩ := hs.reach.inv.history
  have hnc : newControl h = newControl hg := by unfold newControl; rw [hs.newest h hg hh hhg]
  unfold History.save at hsave
  rw [hh] at hsave
  simp only at hsave
  split at hsave
  · unfold saveDerived at hsave
    split at hsave
    · cases hsave; rfl
    · split at hsave
      · cases hsave; exact absurd rfl (hf _)
      · cases hsave; rfl
      · cases hsave; rfl
  · unfold saveNew writePhase0 at hsave
    rw [hnc] at hsave
    cases hd : ops.diff ops.src s with
    | err => rw [hd] at hsave; cases hsave; rfl
    | panic => rw [hd] at hsave; cases hsave; rfl
    | ok d =>
      rw [hd] at hsave
      simp only [(start_new_props hs.reach.inv hl hg hkg).1, Res.bind_ok] at hsave
      cases hsave
      exact absurd rfl (hf _)

/-- A load that succeeds would also have succeeded without the removals, with the same object. -/
theorem Sim.load (hs : Sim o ops st g log) (h hg : Hist) (hh : st.history = .ok h) (hhg : g.history = .ok hg) (p : Props) (s : S)
    (hl : History.load o ops st.dir h p = .ok s) : History.load o ops g.dir hg p = .ok s := by
  unfold History.load at hl ⊢
  obtain ⟨x, h1, h2⟩ := bind_ok_inv _ _ _ hl
  rw [h1]
  simp only [Res.bind_ok]
  cases x with
  | none => cases h2
  | some q =>
    obtain ⟨rev, h3, h4⟩ := bind_ok_inv _ _ _ h2
    simp only
    rw [ancestorsRev_mono h hg (hs.extends h hg hh hhg) _ _ _ _ h3]
    exact compose_congr ops st.dir g.dir hs.sub _ _ _ h4

theorem Sim.remove (hs : Sim o ops st g log) (h : Hist) (hh : st.history = .ok h) (gone : List Props) (hm : Others h gone) :
    Sim o ops ⟨removeFiles gone st.dir, st.base⟩ g log := by
  refine ⟨hs.reach, hs.base, hs.nodup.sublist (List.filter_sublist.map _), fun n f hf => ?_, fun e he => ?_⟩
  · simp only [read_remove] at hf
    split at hf
    · cases hf
    · exact hs.sub _ _ hf
  · refine (there_remove _ _ _ _).2 ⟨hs.head e he, hm e.1 ?_⟩
    rw [(hs.knows h hh).newest (rest_sorted hs.reach.inv st)]
    cases log with
    | nil => cases he
    | cons a l =>
      cases he
      unfold rest
      rw [List.filter_cons, if_pos (by simpa using hs.head e rfl)]
      rfl

/-- What every removal step must keep. -/
theorem sim_of {may : Hist → List Props → Prop}
    (hmay : ∀ {st g : St} {log : List (Props × S)} (h : Hist), Sim o ops st g log → st.history = .ok h → ∀ gone, may h gone → Others h gone)
    (hr : ReachR may o ops st log) : ∃ g, Sim o ops st g log := by
  induction hr with
  | start dir hn hf => exact ⟨_, .start dir hn hf, rfl, hn, fun _ _ h => h, fun e he => by cases he⟩
  | save shift st st' log rid s p hr hl hs ih =>
    obtain ⟨g, hg⟩ := ih
    obtain ⟨g', g1, g2, g3, g4, g5, _⟩ := hg.save hl shift rid s p st' hs
    exact ⟨g', .save shift g g' log rid s p hg.reach hl g1, g2, g3, g4, fun e he => by cases he; exact g5⟩
  | unfinished shift st st' log rid s p hr hl hs ih =>
    obtain ⟨g, hg⟩ := ih
    obtain ⟨g', g1, g2, g3, g4, g5, _⟩ := hg.save hl shift rid s p st' hs
    exact ⟨_, .unfinished shift g g' log rid s p hg.reach hl g1, hg.base, g3, g4, fun e he => by cases he; exact g5⟩
  | fail shift st st' log rid s r hr hl hs hf ih =>
    obtain ⟨g, hg⟩ := ih
    rw [hg.fail hl shift rid s r st' hs hf]
    exact ⟨g, hg⟩
  | load st log h p rid hr hh hp ih =>
    obtain ⟨g, hg⟩ := ih
    obtain ⟨hh', hhg, hkg⟩ := hg.reach.inv.history
    cases hl : History.load o ops st.dir h p with
    | ok s =>
      have hlg := hg.load h hh' hh hhg p s hl
      refine ⟨(loadFile o ops g hh' p rid).1, .load g log hh' p rid hg.reach hhg ?_, ?_, ?_, ?_, ?_⟩
      · rw [knows_listed hkg]
        exact ((hg.listed h hh p).1 hp).1
      all_goals simp only [loadFile, hl, hlg]
      · exact hg.nodup
      · exact hg.sub
      · exact hg.head
    | err => simp only [loadFile, hl]; exact ⟨g, hg⟩
    | panic => simp only [loadFile, hl]; exact ⟨g, hg⟩
  | list st dir log hr hp ih =>
    obtain ⟨g, hg⟩ := ih
    have hrd := read_perm _ _ hp hg.nodup
    refine ⟨g, hg.reach, hg.base, (hp.map _).nodup_iff.2 hg.nodup, fun n f hf => hg.sub n f ?_, fun e he => ?_⟩
    · rw [← hrd]; exact hf
    · obtain ⟨f, hf⟩ := hg.head e he
      exact ⟨f, by simp only; rw [hrd]; exact hf⟩
  | restart st log hr ih =>
    obtain ⟨g, hg⟩ := ih
    exact ⟨⟨g.dir, none⟩, .restart g log hg.reach, rfl, hg.nodup, hg.sub, hg.head⟩
  | other st log r e hr he ih =>
    obtain ⟨g, hg⟩ := ih
    exact ⟨⟨g.dir, some (r, e.1)⟩, .other g log r e hg.reach he, rfl, hg.nodup, hg.sub, hg.head⟩
  | remove st log h gone hr hh hm ih =>
    obtain ⟨g, hg⟩ := ih
    exact ⟨g, hg.remove h hh gone (hmay h hg hh gone hm)⟩

theorem ReachR.sim (hr : ReachR Others o ops st log) : ∃ g, Sim o ops st g log :=
  sim_of (fun _ _ _ _ hm => hm) hr

/-- A chain of which all files are there. -/
theorem Sim.chain (hs : Sim o ops st g log) (h hg : Hist) (hh : st.history = .ok h) (hhg : g.history = .ok hg) (p : Props) (l : List Props)
    (hl : ancestorsRev hg p o.maxPhase o.cumulative.isSome = .ok l) (ht : ∀ a ∈ l, There st a) :
    ancestorsRev h p o.maxPhase o.cumulative.isSome = .ok l := by
  refine ancestorsRev_on hg h (There st) (fun c ord q hq ht => ?_) p _ _ l ht hl
  obtain ⟨⟨e, he, rfl⟩, h2⟩ := ((reach_knows hs.reach hg hhg).2 _ _ _).1 hq
  exact ((hs.knows h hh).2 _ _ _).2 ⟨⟨e, (mem_rest _ _ _).2 ⟨he, ht⟩, rfl⟩, h2⟩

theorem Sim.chain_there (hs : Sim o ops st g log) (h : Hist) (hh : st.history = .ok h) (p : Props) (hp : There st p) (l : List Props)
    (hl : ancestorsRev h p o.maxPhase o.cumulative.isSome = .ok l) : ∀ a ∈ l, There st a := by
  intro a ha
  obtain ⟨r, rfl, hr⟩ := ancestorsRev_shape _ _ _ _ _ hl
  rcases List.mem_cons.1 ha with rfl | ha
  · exact hp
  · obtain ⟨c', o', hq⟩ := hr a ha
    obtain ⟨⟨e, he, rfl⟩, _⟩ := ((hs.knows h hh).2 _ _ _).1 hq
    exact ((mem_rest _ _ _).1 he).2

theorem compose_there (ops : Ops S) (d d' : Dir) (hsub : ∀ n f, d.read n = some f → d'.read n = some f) (l : List Props)
    (hl : ∀ a ∈ l, ∃ f, d.read a.filename = some f) (s : S) : compose ops d l s = compose ops d' l s := by
  induction l generalizing s with
  | nil => rfl
  | cons a l ih =>
    obtain ⟨f, hf⟩ := hl a (by simp)
    rw [compose, compose, hf, hsub _ _ hf]
    simp only
    congr 1
    funext t
    exact ih (fun b hb => hl b (by simp [hb])) t

/-- Loading a listed file: as without the removals if its whole chain is there, and an error otherwise. -/
theorem Sim.load_cases (hs : Sim o ops st g log) (h hg : Hist) (hh : st.history = .ok h) (hhg : g.history = .ok hg) (p : Props)
    (hp : p ∈ h.listFiles) :
    (∃ l, ancestorsRev h p o.maxPhase o.cumulative.isSome = .ok l ∧ ancestorsRev hg p o.maxPhase o.cumulative.isSome = .ok l ∧
      History.load o ops st.dir h p = History.load o ops g.dir hg p) ∨
    (History.load o ops st.dir h p = .err ∧ ancestorsRev h p o.maxPhase o.cumulative.isSome = .err) := by
  obtain ⟨⟨e, he, rfl⟩, ht⟩ := (hs.listed h hh p).1 hp
  unfold History.load
  rw [hs.reach.inv.analyze_file e he]
  simp only [Res.bind_ok]
  cases hl : ancestorsRev h e.1 o.maxPhase o.cumulative.isSome with
  | ok l =>
    left
    have hlg := ancestorsRev_mono h hg (hs.extends h hg hh hhg) _ _ _ _ hl
    refine ⟨l, rfl, hlg, ?_⟩
    rw [hlg]
    simp only [Res.bind_ok]
    exact compose_there ops _ _ hs.sub _ (fun a ha => hs.chain_there h hh e.1 ht l hl a (List.mem_reverse.1 ha)) _
  | err => right; exact ⟨rfl, rfl⟩
  | panic => exact absurd hl (ancestorsRev_total _ _ _ _)

/-! Removing old files only -/

theorem Sim.shallow (hs : Sim o ops st g log) (h : Hist) (hh : st.history = .ok h) : Shallow o.maxPhase h := by
  intro p hp
  obtain ⟨⟨e, he, rfl⟩, _⟩ := (hs.listed h hh p).1 hp
  exact (hs.reach.inv.small e he).2.2.1

theorem Sim.sound (hs : Sim o ops st g log) (h : Hist) (hh : st.history = .ok h) (hc : o.cumulative = none ∨ o.maxPhase = 1) :
    Sound o.maxPhase o.cumulative.isSome h := by
  intro hcu
  rcases hc with hc | hc
  · rw [hc] at hcu; cases hcu
  · refine ⟨by omega, fun p hp hl h0 => ?_, fun p hp hl hb => ?_⟩
    · obtain ⟨⟨e, he, rfl⟩, _⟩ := (hs.listed h hh p).1 hp
      exact Reach.last_phase hs.reach e he hl h0
    · exfalso
      apply hb
      rw [orderBase, ← List.length_eq_zero_iff, List.length_dropLast]
      omega

theorem Sim.old (hs : Sim o ops st g log) (h : Hist) (hh : st.history = .ok h) (gone : List Props) (hm : Old o h gone) :
    Others h gone := by
  obtain ⟨n, hn, rfl⟩ := hm
  intro p hp hmem
  have hw := (hs.knows h hh).1
  have hmem' := (removableOld_mem _ _ h hw (hs.shallow h hh) n p).1 hmem
  refine hmem'.2 ⟨p, ?_, .self p⟩
  rw [newest_eq h hw] at hp
  have hne : h.listFiles ≠ [] := by intro h0; rw [h0] at hp; cases hp
  rw [List.getLast?_eq_some_getLast hne] at hp
  cases hp
  unfold latest
  have hpos : 0 < h.listFiles.length := List.length_pos_iff.2 hne
  rw [List.getLast_eq_getElem, List.mem_iff_getElem]
  refine ⟨h.listFiles.length - 1 - (h.listFiles.length - n), by rw [List.length_drop]; omega, ?_⟩
  rw [List.getElem_drop]
  congr 1
  omega

/-- The files needed by a file that is there are there. -/
def Closed (o : Opts) (st g : St) (log : List (Props × S)) : Prop :=
  ∀ hg, g.history = .ok hg → ∀ e ∈ log, There st e.1 → ¬ Lost o log e.1 → ∀ l,
    ancestorsRev hg e.1 o.maxPhase o.cumulative.isSome = .ok l → ∀ a ∈ l, There st a

theorem closed_save (hlaw : ops.Lawful) (hs : Sim o ops st g log) (hcl : Closed o st g log) (hl : log.length < 10 ^ 8 - 1) (shift : Shift) (rid : Nat) (s : S)
    (p : Props) (st' g' : St) (hsave : History.save o shift ops g rid none s = (g', .ok p)) (ht : There st' p)
    (hmono : ∀ q, There st q → There st' q)
    (hback : ∀ e ∈ log, There st' e.1 → There st e.1)
    (hrev : ∀ h hg, st.history = .ok h → g.history = .ok hg → ∀ b newest f, g.baseFor rid = some b → hg.newest = some newest →
        fromFile o hg b newest = some f → ∀ rev, ancestorsRev hg f o.maxPhase o.cumulative.isSome = .ok rev →
          ∀ a ∈ rev, There st a) : Closed o st' g' ((p, s) :: log) := by
  intro hg' hhg' e he hte hnl l hl' a ha
  obtain ⟨h, hh, _⟩ := hs.history
  obtain ⟨hg, hhg, hkg⟩ := hs.reach.inv.history
  have hi' := (save_inv hs.reach.inv hl shift ops rid s p hsave).2.1
  obtain ⟨h2, hh2, hkg'⟩ := hi'.history
  rw [hhg'] at hh2
  cases hh2
  rcases List.mem_cons.1 he with rfl | he
  · rcases save_chain hs.reach.inv hl shift ops rid s p hsave hg hg' hhg hhg' with ⟨deps, c, d, data, h1, _, _, _, h5⟩ | hlost
    · simp only at hl'
      rw [h1] at hl'
      cases hl'
      rcases List.mem_cons.1 ha with rfl | ha
      · exact ht
      · rw [List.mem_reverse] at ha
        rcases h5 with rfl | ⟨b, newest, f, rev, b1, b2, b3, b4, b5, _⟩
        · simp at ha
        · exact hmono _ (hrev h hg hh hhg b newest f b1 b2 b3 rev b4 a (b5 a ha))
    · exact absurd hlost hnl
  · have hnl0 : ¬ Lost o log e.1 := fun hc => hnl (hc.mono (fun x hx => by simp [hx]))
    rcases hs.reach.loads hlaw hg hhg e he with ⟨l0, h1, _⟩ | hc
    · have := ancestorsRev_mono hg hg' (hkg.extends hkg' (fun x hx => by simp [hx])) _ _ _ _ h1
      rw [this] at hl'
      cases hl'
      exact hmono _ (hcl hg hhg e he (hback e he hte) hnl0 _ h1 a ha)
    · exact absurd hc hnl0

theorem closed_of (hc : o.cumulative = none ∨ o.maxPhase = 1) (hlaw : ops.Lawful) (hr : ReachR (Old o) o ops st log) :
    ∃ g, Sim o ops st g log ∧ Closed o st g log := by
  have hback : ∀ {st g st' : St} {log : List (Props × S)} {shift : Shift} {rid : Nat} {s : S} {p : Props} (_ : Sim o ops st g log)
      (_ : log.length < 10 ^ 8 - 1) (_ : History.save o shift ops st rid none s = (st', .ok p)) (_ : ∃ g', History.save o shift ops g rid none s = (g', .ok p)),
      ∀ e ∈ log, There st' e.1 → There st e.1 := by
    intro st g st' log shift rid s p hg hl hs ⟨g', hs'⟩ e he ⟨f, hf⟩
    have hfresh := (save_inv hg.reach.inv hl shift ops rid s p hs').1
    -- the new file has another name
    have hne : p.filename ≠ e.1.filename := by
      intro hc
      obtain ⟨f, h1, _⟩ := hg.reach.inv.files e he
      rw [hc] at hfresh
      exact hfresh (mem_of_read _ _ _ h1)
    have hdir : ∃ fl, st'.dir = st.dir.write p.filename fl := by
      obtain ⟨h, hh, hk⟩ := hg.history
      obtain ⟨hgg, hhg, hkg⟩ := hg.reach.inv.history
      have hnc : newControl h = newControl hgg := by unfold newControl; rw [hg.newest h hgg hh hhg]
      unfold History.save at hs
      rw [hh] at hs
      simp only at hs
      split at hs
      · unfold saveDerived at hs
        split at hs
        · cases hs
        · split at hs
          · rename_i hd
            cases hs
            obtain ⟨np, file, next, rev, deps, c, d, h1, h2, h3, h4, h5, h6, h7, rfl⟩ := deriveImpl_ok _ _ _ _ _ _ _ _ _ _ hd
            exact ⟨_, rfl⟩
          · cases hs
          · cases hs
      · unfold saveNew writePhase0 at hs
        rw [hnc] at hs
        cases hd : ops.diff ops.src s with
        | err => rw [hd] at hs; cases hs
        | panic => rw [hd] at hs; cases hs
        | ok d =>
          rw [hd] at hs
          simp only [(start_new_props hg.reach.inv hl hgg hkg).1, Res.bind_ok] at hs
          cases hs
          refine ⟨(Data.new d.length, d), ?_⟩
          simp [Props.filename]
    obtain ⟨fl, hfl⟩ := hdir
    rw [hfl, read_write, if_neg hne] at hf
    exact ⟨f, hf⟩
  induction hr with
  | start dir hn hf =>
    exact ⟨_, ⟨.start dir hn hf, rfl, hn, fun _ _ h => h, fun e he => by cases he⟩, fun _ _ e he => by simp at he⟩
  | save shift st st' log rid s p hr hl hs ih =>
    obtain ⟨g, hg, hcl⟩ := ih
    obtain ⟨g', g1, g2, g3, g4, g5, g6, g7⟩ := hg.save hl shift rid s p st' hs
    exact ⟨g', ⟨.save shift g g' log rid s p hg.reach hl g1, g2, g3, g4, fun e he => by cases he; exact g5⟩,
      closed_save hlaw hg hcl hl shift rid s p st' g' g1 g5 g6 (hback hg hl hs ⟨g', g1⟩) g7⟩
  | unfinished shift st st' log rid s p hr hl hs ih =>
    obtain ⟨g, hg, hcl⟩ := ih
    obtain ⟨g', g1, g2, g3, g4, g5, g6, g7⟩ := hg.save hl shift rid s p st' hs
    exact ⟨_, ⟨.unfinished shift g g' log rid s p hg.reach hl g1, hg.base, g3, g4, fun e he => by cases he; exact g5⟩,
      closed_save hlaw hg hcl hl shift rid s p st' g' g1 g5 g6 (hback hg hl hs ⟨g', g1⟩) g7⟩
  | fail shift st st' log rid s r hr hl hs hf ih =>
    obtain ⟨g, hg, hcl⟩ := ih
    rw [hg.fail hl shift rid s r st' hs hf]
    exact ⟨g, hg, hcl⟩
  | load st log h p rid hr hh hp ih =>
    obtain ⟨g, hg, hcl⟩ := ih
    obtain ⟨hh', hhg, hkg⟩ := hg.reach.inv.history
    cases hl : History.load o ops st.dir h p with
    | ok s =>
      have hlg := hg.load h hh' hh hhg p s hl
      refine ⟨(loadFile o ops g hh' p rid).1, ⟨.load g log hh' p rid hg.reach hhg ?_, ?_, ?_, ?_, ?_⟩, ?_⟩
      · rw [knows_listed hkg]
        exact ((hg.listed h hh p).1 hp).1
      all_goals simp only [loadFile, hl, hlg]
      · exact hg.nodup
      · exact hg.sub
      · exact hg.head
      · exact hcl
    | err => simp only [loadFile, hl]; exact ⟨g, hg, hcl⟩
    | panic => simp only [loadFile, hl]; exact ⟨g, hg, hcl⟩
  | list st dir log hr hp ih =>
    obtain ⟨g, hg, hcl⟩ := ih
    have hrd := read_perm _ _ hp hg.nodup
    have hth : ∀ q, There ⟨dir, st.base⟩ q ↔ There st q := by
      intro q
      unfold There
      simp only
      rw [hrd]
    refine ⟨g, ⟨hg.reach, hg.base, (hp.map _).nodup_iff.2 hg.nodup, fun n f hf => hg.sub n f ?_, fun e he => ?_⟩, ?_⟩
    · rw [← hrd]; exact hf
    · exact (hth _).2 (hg.head e he)
    · intro hh hhg e he ht hnl l hl a ha
      exact (hth _).2 (hcl hh hhg e he ((hth _).1 ht) hnl l hl a ha)
  | restart st log hr ih =>
    obtain ⟨g, hg, hcl⟩ := ih
    exact ⟨⟨g.dir, none⟩, ⟨.restart g log hg.reach, rfl, hg.nodup, hg.sub, hg.head⟩, hcl⟩
  | other st log r e hr he ih =>
    obtain ⟨g, hg, hcl⟩ := ih
    exact ⟨⟨g.dir, some (r, e.1)⟩, ⟨.other g log r e hg.reach he, rfl, hg.nodup, hg.sub, hg.head⟩, hcl⟩
  | remove st log h gone hr hh hm ih =>
    obtain ⟨g, hg, hcl⟩ := ih
    refine ⟨g, hg.remove h hh gone (hg.old h hh gone hm), ?_⟩
    obtain ⟨n, hn, rfl⟩ := hm
    intro hgg hhg e he ht hnl l hl a ha
    obtain ⟨t1, t2⟩ := (there_remove _ _ _ _).1 ht
    have hall := hcl hgg hhg e he t1 hnl l hl
    have hlh := hg.chain h hgg hh hhg e.1 l hl hall
    have hw := (hg.knows h hh).1
    have hsh := hg.shallow h hh
    have hel : e.1 ∈ h.listFiles := (hg.listed h hh _).2 ⟨⟨e, he, rfl⟩, t1⟩
    rw [removableOld_mem _ _ h hw hsh] at t2
    have hk : ∃ k ∈ latest n h.listFiles, Marks o.maxPhase o.cumulative.isSome h k e.1 := by
      by_contra hno
      exact t2 ⟨hel, hno⟩
    obtain ⟨k, hk1, hk2⟩ := hk
    refine (there_remove _ _ _ _).2 ⟨hall a ha, fun hga => ?_⟩
    rw [removableOld_mem _ _ h hw hsh] at hga
    exact hga.2 ⟨k, hk1, hk2.trans (marks_chain _ _ h hw (hg.sound h hh hc) hsh e.1 hel l hlh a ha)⟩

end
end Verif.Removal
