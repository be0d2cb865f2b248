import Verif.Spec.CrashRemoval
import Verif.Lemmas.Crash
import Verif.Lemmas.RemovalRun
/-!
Helper lemmas: histories of byte strings from which files are removed. Beside such a run go the same run with whole files instead of byte
strings (C85), that run without removals (C29), and the run of byte strings without removals (C38).
-/
namespace Verif.Removal
open VarInt FileName FileHistory Phase Codec History Remover

section
variable {S : Type}

/-! Directories -/

theorem bread_filter (d : BDir) (p : Bytes → Bool) (n : Bytes) :
    BDir.read (d.filter fun e => p e.1) n = if p n then d.read n else none := by
  induction d with
  | nil => simp [BDir.read]
  | cons e d ih =>
    obtain ⟨k, c⟩ := e
    rw [List.filter_cons]
    by_cases hk : k = n
    · subst hk
      cases hp : p k with
      | true => simp [BDir.read]
      | false => simp [ih, hp]
    · cases hp : p k with
      | true => simp only [if_true, BDir.read, if_neg hk, ih]
      | false =>
        simp only [Bool.false_eq_true, if_false, BDir.read, if_neg hk, ih]

theorem bread_remove (gone : List Props) (d : BDir) (n : Bytes) :
    (bremoveFiles gone d).read n = if n ∈ gone.map (·.filename) then none else d.read n := by
  unfold bremoveFiles
  rw [bread_filter d (fun m => !decide (m ∈ gone.map (·.filename))) n]
  by_cases h : n ∈ gone.map (·.filename)
  · rw [if_pos h, if_neg (by simpa using h)]
  · rw [if_neg h, if_pos (by simpa using h)]

theorem bread_name (d : BDir) (n : Bytes) : (∃ c, d.read n = some c) ↔ n ∈ d.map (·.1) := by
  induction d with
  | nil => simp [BDir.read]
  | cons e d ih =>
    obtain ⟨k, c⟩ := e
    rw [BDir.read]
    split
    · rename_i hk; subst hk; simp
    · rename_i hk
      rw [ih]
      simp [Ne.symm hk]

theorem read_name (d : Dir) (n : Bytes) : (∃ f, d.read n = some f) ↔ n ∈ d.map (·.1) := by
  constructor
  · rintro ⟨f, hf⟩; exact mem_of_read _ _ _ hf
  · intro h
    cases hr : d.read n with
    | some f => exact ⟨f, rfl⟩
    | none =>
      exfalso
      clear * - h hr
      induction d with
      | nil => simp at h
      | cons e d ih =>
        obtain ⟨k, c⟩ := e
        rw [Dir.read] at hr
        split at hr
        · cases hr
        · rename_i hk
          simp only [List.map_cons, List.mem_cons] at h
          rcases h with h | h
          · exact hk h.symm
          · exact ih h hr

/-! Plans -/

/-- What a save needs for its plan. -/
theorem plan_on {o : Opts} {shift : Shift} {ops : Ops S} {names names' : List Bytes} {base : Option (Nat × Props)}
    {stat stat' : Bytes → Res Data} {comp comp' : List Props → Res S} {rid : Nat} {tag : Option Bytes} {s : S} {x : Bytes × File × Res Props}
    (h h' : Hist) (hh : createHistory names .empty = .ok h) (hh' : createHistory names' .empty = .ok h') (hx : Extends h h')
    (hn : h.newest = h'.newest)
    (hstat : ∀ b newest f, baseFor base rid = some b → fromFile o h b newest = some f →
      ∀ d, stat f.filename = .ok d → stat' f.filename = .ok d)
    (hcomp : ∀ b newest f, baseFor base rid = some b → fromFile o h b newest = some f →
      ∀ rev, ancestorsRev h f o.maxPhase o.cumulative.isSome = .ok rev → ∀ l, (∀ q ∈ l, q ∈ rev) → ∀ c, comp l = .ok c → comp' l = .ok c)
    (hnil : ∀ c, comp [] = .ok c → comp' [] = .ok c)
    (hp : plan o shift ops names base stat comp rid tag s = .ok x) : plan o shift ops names' base stat' comp' rid tag s = .ok x := by
  have hnc : newControl h = newControl h' := by unfold newControl; rw [hn]
  have hnew : planNew ops tag (newControl h) s comp = .ok x → planNew ops tag (newControl h') s comp' = .ok x := by
    intro hp
    rw [← hnc]
    unfold planNew at hp ⊢
    obtain ⟨c, h1, hp⟩ := bind_ok_inv _ _ _ hp
    rw [hnil c h1]
    exact hp
  unfold plan at hp ⊢
  rw [hh] at hp
  rw [hh']
  simp only [Res.bind_ok] at hp ⊢
  rw [← hn]
  cases hb : baseFor base rid with
  | none => rw [hb] at hp; exact hnew hp
  | some b =>
    rw [hb] at hp
    cases hnw : h.newest with
    | none => rw [hnw] at hp; exact hnew hp
    | some newest =>
      rw [hnw] at hp
      simp only at hp ⊢
      cases hf : fromFile o h b newest with
      | none => rw [hf] at hp; cases hp
      | some f =>
        rw [hf] at hp
        have hfg : fromFile o h' b newest = some f := by
          unfold fromFile at hf ⊢
          split
          · rename_i hc; rw [if_pos hc] at hf; exact hx _ _ _ hf
          · rename_i hc; rw [if_neg hc] at hf; exact hf
        rw [hfg]
        simp only at hp ⊢
        unfold planDerive at hp ⊢
        rw [← hn, hnw]
        rw [hnw] at hp
        simp only at hp ⊢
        obtain ⟨data, h1, hp⟩ := bind_ok_inv _ _ _ hp
        obtain ⟨next, h2, hp⟩ := bind_ok_inv _ _ _ hp
        obtain ⟨rev, h3, hp⟩ := bind_ok_inv _ _ _ hp
        obtain ⟨dp, h4, hp⟩ := bind_ok_inv _ _ _ hp
        obtain ⟨c, h5, hp⟩ := bind_ok_inv _ _ _ hp
        have hsub : ∀ q ∈ dp.1, q ∈ rev := by
          obtain ⟨r, rfl, _⟩ := ancestorsRev_shape _ _ _ _ _ h3
          obtain ⟨deps, p⟩ := dp
          obtain ⟨ord, prev, hno, rfl, hdeps⟩ := createDependencies_ok _ f (by simp) _ _ _ _ _ _ _ h4
          intro q hq
          rw [hdeps] at hq
          split at hq
          · exact List.mem_reverse.1 hq
          · exact List.mem_reverse.1 (List.mem_of_mem_take hq)
        rw [hstat b newest f hb hf data h1]
        simp only [Res.bind_ok]
        rw [h2]
        simp only [Res.bind_ok]
        rw [ancestorsRev_mono h h' hx _ _ _ _ h3]
        simp only [Res.bind_ok]
        rw [h4]
        simp only [Res.bind_ok]
        rw [hcomp b newest f hb hf rev h3 dp.1 hsub c h5]
        exact hp

theorem bcompose_congr (ops : Ops S) (d d' : BDir) (hsub : ∀ n c, d.read n = some c → d'.read n = some c) (l : List Props) (s y : S)
    (h : bcompose ops d l s = .ok y) : bcompose ops d' l s = .ok y ∧ ∀ q ∈ l, ∃ c, d.read q.filename = some c := by
  induction l generalizing s with
  | nil => exact ⟨h, fun q hq => by cases hq⟩
  | cons q l ih =>
    rw [bcompose] at h ⊢
    cases hr : d.read q.filename with
    | none => rw [hr] at h; cases h
    | some c =>
      rw [hr] at h
      rw [hsub _ _ hr]
      simp only at h ⊢
      obtain ⟨r, h1, h⟩ := bind_ok_inv _ _ _ h
      obtain ⟨s', h2, h⟩ := bind_ok_inv _ _ _ h
      rw [h1]
      simp only [Res.bind_ok]
      rw [h2]
      obtain ⟨g1, g2⟩ := ih s' h
      refine ⟨g1, fun x hx => ?_⟩
      rcases List.mem_cons.1 hx with rfl | hx
      · exact ⟨c, hr⟩
      · exact g2 x hx

theorem bcompose_there (ops : Ops S) (d d' : BDir) (hsub : ∀ n c, d.read n = some c → d'.read n = some c) (l : List Props)
    (hl : ∀ a ∈ l, ∃ c, d.read a.filename = some c) (s : S) : bcompose ops d l s = bcompose ops d' l s := by
  induction l generalizing s with
  | nil => rfl
  | cons a l ih =>
    obtain ⟨f, hf⟩ := hl a (by simp)
    rw [bcompose, bcompose, hf, hsub _ _ hf]
    simp only
    congr 1
    funext t
    congr 1
    funext t
    exact ih (fun b hb => hl b (by simp [hb])) t

/-! The four runs -/

/-- A run of byte strings with removals (`b`) beside the same one with whole files (`st`), that one without removals (`g`), and
the run of byte strings without removals (`gb`). -/
structure BSim (may : Hist → List Props → Prop) (o : Opts) (k : KOps S) (b : BSt) (st g : St) (gb : BSt) (log : List (Props × S))
    (torn : List Props) : Prop where
  reach : ReachR may o k.ops st log
  rem : Sim o k.ops st g log
  crash : History.Sim o k gb g log torn
  base : b.base = st.base
  names : b.dir.map (·.1) = st.dir.map (·.1)
  sub : ∀ n c, b.dir.read n = some c → gb.dir.read n = some c

variable {may : Hist → List Props → Prop} {o : Opts} {k : KOps S} {b : BSt} {st g : St} {gb : BSt} {log : List (Props × S)} {torn : List Props}

theorem BSim.history (hs : BSim may o k b st g gb log torn) : b.history = st.history := by
  unfold BSt.history St.history
  rw [hs.names]

theorem BSim.there (hs : BSim may o k b st g gb log torn) (p : Props) : BThere b p ↔ There st p := by
  unfold BThere There
  rw [bread_name, read_name, hs.names]

theorem BSim.nodup (hs : BSim may o k b st g gb log torn) : (b.dir.map (·.1)).Nodup := by
  rw [hs.names]
  exact hs.rem.nodup

/-- The plan of a save is the same in all four runs. -/
theorem BSim.plan (hlaw : k.Lawful) (hs : BSim may o k b st g gb log torn) (hl : log.length < 10 ^ 8 - 1) (shift : Shift) (rid : Nat)
    (s : S) (name : Bytes) (f : File) (r : Res Props) (hp : bplan o shift k.ops b rid none s = .ok (name, f, r)) :
    ∃ p, r = .ok p ∧ name = p.filename ∧ IsDiff k f.2 ∧ (∀ t ∈ torn, p.control ≠ t.control) ∧
      save o shift k.ops g rid none s = (⟨g.dir.write p.filename f, some (rid, p)⟩, .ok p) ∧
      save o shift k.ops st rid none s = (⟨st.dir.write p.filename f, some (rid, p)⟩, .ok p) := by
  obtain ⟨h, hh, hk⟩ := hs.rem.history
  obtain ⟨hg, hhg, hkg⟩ := hs.rem.reach.inv.history
  have hnw := hs.rem.newest h hg hh hhg
  have hx := hs.rem.extends h hg hh hhg
  have hbh : createHistory (b.dir.map (·.1)) .empty = .ok h := by rw [hs.names]; exact hh
  have hgh : createHistory (gb.dir.map (·.1)) .empty = .ok hg := by rw [hs.crash.names]; exact hhg
  have hbg : gb.base = b.base := by rw [hs.crash.base, hs.base, hs.rem.base]
  have hgp : bplan o shift k.ops gb rid none s = .ok (name, f, r) := by
    unfold bplan at hp ⊢
    rw [hbg]
    refine plan_on h hg hbh hgh hx hnw (fun _ _ f _ _ d hd => ?_) (fun _ _ f _ _ rev _ l _ c hc => ?_) (fun c hc => hc) hp
    · unfold bstat at hd ⊢
      cases hr : b.dir.read f.filename with
      | none => rw [hr] at hd; cases hd
      | some c =>
        rw [hr] at hd
        rw [hs.sub _ _ hr]
        exact hd
    · exact (bcompose_congr _ _ _ hs.sub l _ _ hc).1
  obtain ⟨p, rfl, rfl, h1, h2, h3⟩ := hs.crash.plan_shape hlaw hl shift rid s name f r hgp
  refine ⟨p, rfl, rfl, h1, h3, h2, ?_⟩
  have hsv := save_plan o shift k.ops st rid none s
  generalize hX : History.plan o shift k.ops _ st.base _ _ rid none s = X at hsv
  have key : X = .ok (p.filename, f, .ok p) := by
    rw [← hX]
    have hcomplete : ∀ bp newest f, baseFor st.base rid = some bp → fromFile o h bp newest = some f → (∃ e ∈ log, e.1 = f) ∧ f ∉ torn := by
      intro bp newest f hb hf
      have hfg : fromFile o hg bp newest = some f := by
        unfold fromFile at hf ⊢
        split
        · rename_i hc; rw [if_pos hc] at hf; exact hx _ _ _ hf
        · rename_i hc; rw [if_neg hc] at hf; exact hf
      refine hs.crash.from_complete hlaw hg hhg rid bp newest f ?_ hfg
      rw [hs.rem.base] at hb
      exact hb
    unfold bplan at hp
    rw [hs.base] at hp
    refine plan_on h h hbh hh (fun _ _ _ h => h) rfl (fun bp newest f hb hf d hd => ?_)
      (fun bp newest f hb hf rev hrev l hlr c hc => ?_) (fun c hc => hc) hp
    · obtain ⟨⟨e, he, rfl⟩, ht⟩ := hcomplete bp newest f hb hf
      obtain ⟨file, c, g1, g2, _, g4, g5, _⟩ := hs.crash.files e he
      unfold bstat at hd
      cases hr : b.dir.read e.1.filename with
      | none => rw [hr] at hd; cases hd
      | some c' =>
        have := hs.sub _ _ hr
        rw [g5 ht] at this
        cases this
        rw [hr] at hd
        simp only [(file_whole g2 g4).1, Res.map_ok, Res.ok.injEq] at hd
        obtain ⟨file', hf'⟩ := (hs.there e.1).1 ⟨c, hr⟩
        have := hs.rem.sub _ _ hf'
        rw [g1] at this
        cases this
        simp only [hf']
        rw [← hd]
    · obtain ⟨⟨e, he, rfl⟩, ht⟩ := hcomplete bp newest f hb hf
      obtain ⟨c1, c2⟩ := bcompose_congr _ _ _ hs.sub l _ _ hc
      have hrg := ancestorsRev_mono h hg hx _ _ _ _ hrev
      rw [hs.crash.comp l (fun q hq => ⟨chain_logged hkg e he _ _ rev hrg q (hlr q hq),
        fun hqt => ht (hs.crash.clean hg hhg e he rev hrg q (hlr q hq) hqt ▸ hqt)⟩)] at c1
      rw [← compose_there k.ops st.dir g.dir hs.rem.sub l (fun a ha => (hs.there a).1 (c2 a ha))] at c1
      exact c1
  rw [key] at hsv
  exact hsv

/-- A new file, complete or not. -/
theorem BSim.add (hlaw : k.Lawful) (hs : BSim may o k b st g gb log torn) (hl : log.length < 10 ^ 8 - 1) (shift : Shift) (rid : Nat)
    (s : S) (p : Props) (f : File) (hsg : save o shift k.ops g rid none s = (⟨g.dir.write p.filename f, some (rid, p)⟩, .ok p))
    (hss : save o shift k.ops st rid none s = (⟨st.dir.write p.filename f, some (rid, p)⟩, .ok p))
    (hctl : ∀ t ∈ torn, p.control ≠ t.control) (hf : FileOk f) (hd : IsDiff k f.2) (c : Bytes) (hc : phaseFile f.1 f.2 = .ok c)
    (torn' : List Props) (c' : Bytes) (base' : Option (Nat × Props))
    (hcase : (torn' = torn ∧ c' = c ∧ base' = some (rid, p)) ∨ (torn' = torn ∧ c' = c ∧ base' = g.base) ∨
      (torn' = p :: torn ∧ (∃ n < c.length, c' = c.take n) ∧ base' = g.base)) :
    BSim may o k ⟨b.dir.write p.filename c', base'⟩ ⟨st.dir.write p.filename f, base'⟩ ⟨g.dir.write p.filename f, base'⟩
      ⟨gb.dir.write p.filename c', base'⟩ ((p, s) :: log) torn' := by
  have hcr := hs.crash.add hlaw hl shift rid s p f hsg hctl hf hd c hc torn' c' base' hcase
  obtain ⟨g', g1, g2, g3, g4, g5, _⟩ := hs.rem.save hl shift rid s p _ hss
  rw [hsg] at g1
  cases g1
  refine ⟨?_, ⟨hcr.ideal, rfl, g3, g4, fun e he => by cases he; exact g5⟩, hcr, rfl, ?_, fun n d hn => ?_⟩
  · rcases hcase with ⟨_, _, rfl⟩ | ⟨_, _, rfl⟩ | ⟨_, _, rfl⟩
    · exact .save shift st _ log rid s p hs.reach hl hss
    · rw [← hs.rem.base]; exact .unfinished shift st _ log rid s p hs.reach hl hss
    · rw [← hs.rem.base]; exact .unfinished shift st _ log rid s p hs.reach hl hss
  · have hfresh := (save_inv hs.rem.reach.inv hl shift k.ops rid s p hsg).1
    have hno : p.filename ∉ st.dir.map (·.1) := by
      intro hm
      obtain ⟨f, hf⟩ := (read_name _ _).2 hm
      exact hfresh (mem_of_read _ _ _ (hs.rem.sub _ _ hf))
    simp only
    rw [bwrite_names, hs.names, if_neg hno, names_write _ _ _ hno]
  · simp only at hn ⊢
    rw [bread_write] at hn ⊢
    split
    · rename_i hc; rw [if_pos hc] at hn; exact hn
    · rename_i hc; rw [if_neg hc] at hn; exact hs.sub _ _ hn

/-- Loading a listed file is what it is with whole files, if it is complete, and an error otherwise. -/
theorem BSim.load (hlaw : k.Lawful) (hs : BSim may o k b st g gb log torn) (h : Hist) (hh : st.history = .ok h) (p : Props)
    (hp : p ∈ h.listFiles) :
    (p ∉ torn → bload o k.ops b.dir h p = load o k.ops st.dir h p) ∧ (p ∈ torn → bload o k.ops b.dir h p = .err) := by
  obtain ⟨hg, hhg, hkg⟩ := hs.rem.reach.inv.history
  have hx := hs.rem.extends h hg hh hhg
  obtain ⟨⟨e, he, rfl⟩, ht⟩ := (hs.rem.listed h hh p).1 hp
  have hbl : bload o k.ops b.dir h e.1 = (ancestorsRev h e.1 o.maxPhase o.cumulative.isSome).bind
      fun rev => bcompose k.ops b.dir rev.reverse k.ops.src := by
    unfold bload
    rw [hs.rem.reach.inv.analyze_file e he]
    rfl
  cases hl : ancestorsRev h e.1 o.maxPhase o.cumulative.isSome with
  | panic => exact absurd hl (ancestorsRev_total _ _ _ _)
  | err =>
    rw [hl] at hbl
    refine ⟨fun _ => ?_, fun _ => hbl⟩
    rw [hbl]
    rcases hs.rem.load_cases h hg hh hhg e.1 hp with ⟨_, h1, _⟩ | ⟨h1, _⟩
    · rw [hl] at h1; cases h1
    · exact h1.symm
  | ok l =>
    have hlg := ancestorsRev_mono h hg hx _ _ _ _ hl
    have hb : bload o k.ops b.dir h e.1 = bload o k.ops gb.dir hg e.1 := by
      rw [hbl, hl]
      unfold bload
      rw [hs.rem.reach.inv.analyze_file e he]
      simp only [Res.bind_ok]
      rw [hlg]
      simp only [Res.bind_ok]
      exact bcompose_there _ _ _ hs.sub _ (fun a ha => (hs.there a).2
        (hs.rem.chain_there h hh e.1 ht l hl a (List.mem_reverse.1 ha))) _
    rw [hb]
    refine ⟨fun hnt => ?_, fun ht => hs.crash.load_torn hlaw hg hhg e he ht⟩
    rw [hs.crash.load_complete hg hhg e he hnt]
    rcases hs.rem.load_cases h hg hh hhg e.1 hp with ⟨_, _, _, h1⟩ | ⟨_, h1⟩
    · exact h1.symm
    · rw [hl] at h1; cases h1

/-- Every run of byte strings with removals has the other three. -/
theorem bsim_of (hlaw : k.Lawful)
    (hmay : ∀ {st g : St} {log : List (Props × S)} (h : Hist), Sim o k.ops st g log → st.history = .ok h → ∀ gone, may h gone → Others h gone)
    (hr : BReachR may o k.ops b log torn) : ∃ st g gb, BSim may o k b st g gb log torn := by
  induction hr with
  | start dir hn hf =>
    obtain ⟨st, hc⟩ := BReach.sim hlaw (BReach.start (o := o) (ops := k.ops) dir hn hf)
    have hb : st.base = none := hc.base.symm
    have hrr : ReachR may o k.ops st [] := by
      have h1 : ∀ e ∈ st.dir, analyze e.1 = .ok none := by
        intro e he
        have : e.1 ∈ dir.map (·.1) := by rw [hc.names]; exact List.mem_map_of_mem he
        obtain ⟨x, hx, hxe⟩ := List.mem_map.1 this
        rw [← hxe]
        exact hf x hx
      have := ReachR.start (may := may) (o := o) (ops := k.ops) st.dir (by rw [← hc.names]; exact hn) h1
      rw [← hb] at this
      exact this
    exact ⟨st, st, _, hrr, ⟨hc.ideal, rfl, hc.ideal.inv.nodup, fun _ _ h => h, fun e he => by cases he⟩, hc, hc.base, hc.names,
      fun _ _ h => h⟩
  | save shift b b' log torn rid s p hr hl hf hs ih =>
    obtain ⟨st, g, gb, ih⟩ := ih
    unfold bsave at hs
    cases hp : bplan o shift k.ops b rid none s with
    | err => rw [hp] at hs; simp at hs
    | panic => rw [hp] at hs; simp at hs
    | ok x =>
      obtain ⟨name, f, r⟩ := x
      obtain ⟨p', rfl, rfl, h1, h2, h3, h4⟩ := ih.plan hlaw hl shift rid s name f r hp
      rw [hp] at hs
      simp only [Res.bind_ok] at hs
      cases hc : phaseFile f.1 f.2 with
      | err => rw [hc] at hs; simp at hs
      | panic => rw [hc] at hs; simp at hs
      | ok c =>
        rw [hc] at hs
        simp only [Res.map_ok, Prod.mk.injEq, Res.ok.injEq] at hs
        obtain ⟨rfl, rfl⟩ := hs
        exact ⟨_, _, _, ih.add hlaw hl shift rid s p' f h3 h4 h2 (hf _ hp) h1 c hc torn c _ (Or.inl ⟨rfl, rfl, rfl⟩)⟩
  | fail shift b b' log torn rid s r hr hl hs hne ih =>
    obtain ⟨st, g, gb, ih⟩ := ih
    refine ⟨st, g, gb, ?_⟩
    unfold bsave at hs
    cases hp : bplan o shift k.ops b rid none s with
    | err => rw [hp] at hs; cases hs; exact ih
    | panic => rw [hp] at hs; cases hs; exact ih
    | ok x =>
      obtain ⟨name, f, r'⟩ := x
      obtain ⟨p', rfl, rfl, h1, h2, h3, h4⟩ := ih.plan hlaw hl shift rid s name f r' hp
      rw [hp] at hs
      simp only [Res.bind_ok] at hs
      cases hc : phaseFile f.1 f.2 with
      | err => rw [hc] at hs; cases hs; exact ih
      | panic => rw [hc] at hs; cases hs; exact ih
      | ok c =>
        rw [hc] at hs
        simp only [Res.map_ok, Prod.mk.injEq] at hs
        exact absurd hs.2.symm (hne p')
  | interrupt shift b log torn rid s name c f p n hr hl hp hf hc ih =>
    obtain ⟨st, g, gb, ih⟩ := ih
    obtain ⟨p', h0, rfl, h1, h2, h3, h4⟩ := ih.plan hlaw hl shift rid s name f _ hp
    cases h0
    unfold interrupted
    rw [ih.base, ih.rem.base]
    by_cases hn : n < c.length
    · rw [if_pos hn]
      exact ⟨_, _, _, ih.add hlaw hl shift rid s p f h3 h4 h2 hf h1 c hc _ _ _ (Or.inr (Or.inr ⟨rfl, ⟨n, hn, rfl⟩, rfl⟩))⟩
    · rw [if_neg hn, List.take_of_length_le (by omega)]
      exact ⟨_, _, _, ih.add hlaw hl shift rid s p f h3 h4 h2 hf h1 c hc _ _ _ (Or.inr (Or.inl ⟨rfl, rfl, rfl⟩))⟩
  | load b log torn h p rid hr hh hp ih =>
    obtain ⟨st, g, gb, ih⟩ := ih
    have hh' : st.history = .ok h := by rw [← ih.history]; exact hh
    obtain ⟨l1, l2⟩ := ih.load hlaw h hh' p hp
    obtain ⟨⟨e, he, rfl⟩, _⟩ := (ih.rem.listed h hh' p).1 hp
    by_cases ht : e.1 ∈ torn
    · refine ⟨st, g, gb, ?_⟩
      unfold bloadFile
      rw [l2 ht]
      exact ih
    · unfold bloadFile
      rw [l1 ht]
      have hr2 := ReachR.load st log h e.1 rid ih.reach hh' hp
      unfold loadFile at hr2
      cases hload : History.load o k.ops st.dir h e.1 with
      | err => exact ⟨st, g, gb, ih⟩
      | panic => exact ⟨st, g, gb, ih⟩
      | ok s =>
        rw [hload] at hr2
        refine ⟨_, ⟨g.dir, some (rid, e.1)⟩, ⟨gb.dir, some (rid, e.1)⟩, hr2,
          ⟨.other g log rid e ih.rem.reach he, rfl, ih.rem.nodup, ih.rem.sub, ih.rem.head⟩,
          ⟨.other g log rid e ih.rem.reach he, ih.crash.names, rfl, fun r q hq => ?_, ih.crash.files, ih.crash.logged,
            (fun h hh => ih.crash.clean h hh), ih.crash.top⟩, rfl, ih.names, ih.sub⟩
        cases hq
        exact ht
  | list b dir log torn hr hp ih =>
    obtain ⟨st, g, gb, ih⟩ := ih
    have hnd := ih.nodup
    have hdir : b.dir.map (fun e => (e.1, (st.dir.read e.1).getD ([], []))) = st.dir := by
      have h1 : b.dir.map (fun e => (e.1, (st.dir.read e.1).getD ([], []))) =
          (b.dir.map (·.1)).map (fun n => (n, (st.dir.read n).getD ([], []))) := by
        simp [List.map_map, Function.comp_def]
      rw [h1, ih.names, List.map_map]
      conv_rhs => rw [← List.map_id st.dir]
      refine List.map_congr_left (fun e he => ?_)
      have := (read_mem st.dir ih.rem.nodup e.1 e.2).2 he
      simp [this]
    have hperm : (dir.map (fun e => (e.1, (st.dir.read e.1).getD ([], [])))).Perm st.dir := by
      conv => arg 2; rw [← hdir]
      exact hp.map _
    have hr2 := ReachR.list st _ log ih.reach hperm
    have hread := fun n => read_perm _ _ hperm ih.rem.nodup n
    refine ⟨_, g, gb, hr2, ⟨ih.rem.reach, ih.rem.base, (hperm.map _).nodup_iff.2 ih.rem.nodup, fun n f hf => ?_, fun e he => ?_⟩, ih.crash,
      ih.base, ?_, fun n c hn => ?_⟩
    · rw [hread] at hf
      exact ih.rem.sub _ _ hf
    · obtain ⟨f, hf⟩ := ih.rem.head e he
      exact ⟨f, by simp only; rw [hread]; exact hf⟩
    · simp [List.map_map, Function.comp_def]
    · simp only at hn
      rw [bread_perm _ _ hp hnd] at hn
      exact ih.sub _ _ hn
  | restart b log torn hr ih =>
    obtain ⟨st, g, gb, ih⟩ := ih
    exact ⟨⟨st.dir, none⟩, ⟨g.dir, none⟩, ⟨gb.dir, none⟩, .restart st log ih.reach,
      ⟨.restart g log ih.rem.reach, rfl, ih.rem.nodup, ih.rem.sub, ih.rem.head⟩,
      ⟨.restart g log ih.rem.reach, ih.crash.names, rfl, (fun r p h => nomatch h), ih.crash.files, ih.crash.logged,
        (fun h hh => ih.crash.clean h hh), ih.crash.top⟩, rfl, ih.names, ih.sub⟩
  | other b log torn r e hr he ht ih =>
    obtain ⟨st, g, gb, ih⟩ := ih
    refine ⟨⟨st.dir, some (r, e.1)⟩, ⟨g.dir, some (r, e.1)⟩, ⟨gb.dir, some (r, e.1)⟩, .other st log r e ih.reach he,
      ⟨.other g log r e ih.rem.reach he, rfl, ih.rem.nodup, ih.rem.sub, ih.rem.head⟩,
      ⟨.other g log r e ih.rem.reach he, ih.crash.names, rfl, fun r' q hq => ?_, ih.crash.files, ih.crash.logged,
        (fun h hh => ih.crash.clean h hh), ih.crash.top⟩, rfl, ih.names, ih.sub⟩
    cases hq
    exact ht
  | remove b log torn h gone hr hh hm ih =>
    obtain ⟨st, g, gb, ih⟩ := ih
    have hh' : st.history = .ok h := by rw [← ih.history]; exact hh
    refine ⟨⟨removeFiles gone st.dir, st.base⟩, g, gb, .remove st log h gone ih.reach hh' hm,
      ih.rem.remove h hh' gone (hmay h ih.rem hh' gone hm), ih.crash, ih.base, ?_, fun n c hn => ?_⟩
    · simp only
      unfold bremoveFiles removeFiles
      have h1 := List.filter_map (f := (·.1)) (l := b.dir) (p := fun n : Bytes => !decide (n ∈ gone.map (·.filename)))
      have h2 := List.filter_map (f := (·.1)) (l := st.dir) (p := fun n : Bytes => !decide (n ∈ gone.map (·.filename)))
      rw [ih.names] at h1
      exact h1.symm.trans h2
    · simp only [bread_remove] at hn
      split at hn
      · cases hn
      · exact ih.sub _ _ hn

theorem BReachR.sim (hlaw : k.Lawful) (hr : BReachR Others o k.ops b log torn) : ∃ st g gb, BSim Others o k b st g gb log torn :=
  bsim_of hlaw (fun _ _ _ _ hm => hm) hr

theorem BReachR.simOld (hlaw : k.Lawful) (hr : BReachR (Old o) o k.ops b log torn) : ∃ st g gb, BSim (Old o) o k b st g gb log torn :=
  bsim_of hlaw (fun h hs hh gone hm => hs.old h hh gone hm) hr

end
end Verif.Removal
