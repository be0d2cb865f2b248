import Verif.Lemmas.Crash
import Verif.Lemmas.CodecEval
import Verif.Props.History
import Verif.Props.ApplyItems
/-!
# Property C38 (interrupted saves of history files)
-/
namespace Verif.History
open VarInt FileName FileHistory Phase Codec Compaction

section
variable {S : Type}

/-- C38: after any run of saves and loads in which any number of saves was interrupted, each after any number of bytes, every
file that was created is listed; the complete ones are loaded as saved (but for the files of C29, which the code loses without
any interruption), and every incomplete one gives an error. (Loading with one thread.) -/
theorem C38_interrupted_saves (o : Opts) (k : KOps S) (hlaw : k.Lawful) (st : BSt) (log : List (Props × S)) (torn : List Props)
    (hr : BReach o k.ops st log torn) :
    ∃ h, st.history = .ok h ∧ h.listFiles = (log.map (·.1)).reverse ∧ (∀ t ∈ torn, t ∈ h.listFiles) ∧
      ∀ p s, (p, s) ∈ log →
        (p ∉ torn → ¬ Lost o log p → bload o k.ops st.dir h p = .ok s) ∧
        (p ∉ torn → Lost o log p → bload o k.ops st.dir h p = .err) ∧
        (p ∈ torn → bload o k.ops st.dir h p = .err) := by
  obtain ⟨ist, hs⟩ := hr.sim hlaw
  obtain ⟨h, hh, hlist⟩ := C31_listing_partial o k.ops ist log hs.ideal
  obtain ⟨h', hh', hload⟩ := C29_load_saved_partial o k.ops hlaw.ops ist log hs.ideal
  rw [hh] at hh'
  cases hh'
  refine ⟨h, hs.history ▸ hh, hlist, fun t ht => ?_, fun p s he => ⟨fun h1 h2 => ?_, fun h1 h2 => ?_, fun h1 => ?_⟩⟩
  · obtain ⟨e, he, rfl⟩ := hs.logged t ht
    rw [hlist, List.mem_reverse]
    exact List.mem_map_of_mem he
  · rw [hs.load_complete h hh (p, s) he h1]
    exact (hload p s he).1 h2
  · rw [hs.load_complete h hh (p, s) he h1]
    exact (hload p s he).2 h2
  · exact hs.load_torn hlaw h hh (p, s) he h1

/-- C38: a save that is interrupted after any number of bytes changes what is loaded from no file that was listed before. -/
theorem C38_earlier_files (o : Opts) (k : KOps S) (hlaw : k.Lawful) (st : BSt) (log : List (Props × S)) (torn : List Props)
    (hr : BReach o k.ops st log torn) (hl : log.length < 10 ^ 8 - 1) (shift : Shift) (rid : Nat) (s : S) (name c : Bytes)
    (f : File) (r : Res Props) (n : Nat) (hp : bplan o shift k.ops st rid none s = .ok (name, f, r)) (hf : FileOk f)
    (hc : phaseFile f.1 f.2 = .ok c) :
    ∃ h h', st.history = .ok h ∧ (interrupted st name c n).history = .ok h' ∧
      ∀ q ∈ h.listFiles, q ∈ h'.listFiles ∧
        bload o k.ops (interrupted st name c n).dir h' q = bload o k.ops st.dir h q := by
  obtain ⟨ist, hs⟩ := hr.sim hlaw
  obtain ⟨p, rfl, rfl, hd, hsv, hctl⟩ := hs.plan_shape hlaw hl shift rid s name f r hp
  obtain ⟨h, hh, hlist⟩ := C31_listing_partial o k.ops ist log hs.ideal
  obtain ⟨h0, hh0, hk⟩ := hs.ideal.inv.history
  rw [hh] at hh0
  cases hh0
  obtain ⟨torn', hsub, hs'⟩ : ∃ torn', (∀ q ∈ log.map (·.1), (q ∈ torn' ↔ q ∈ torn)) ∧
      Sim o k (interrupted st p.filename c n) ⟨ist.dir.write p.filename f, ist.base⟩ ((p, s) :: log) torn' := by
    unfold interrupted
    rw [hs.base]
    by_cases hn : n < c.length
    · refine ⟨p :: torn, fun q hq => ?_, hs.add hlaw hl shift rid s p f hsv hctl hf hd c hc _ _ _
        (Or.inr (Or.inr ⟨rfl, ⟨n, hn, rfl⟩, rfl⟩))⟩
      obtain ⟨e, he, rfl⟩ := List.mem_map.1 hq
      rw [List.mem_cons]
      refine ⟨fun h => h.resolve_left fun h2 => ?_, Or.inr⟩
      have hfresh := (save_inv hs.ideal.inv hl shift k.ops rid s p hsv).1
      obtain ⟨g, hg, _⟩ := hs.ideal.inv.files e he
      rw [h2] at hg
      exact hfresh (mem_of_read _ _ _ hg)
    · rw [List.take_of_length_le (by omega)]
      exact ⟨torn, fun q hq => Iff.rfl, hs.add hlaw hl shift rid s p f hsv hctl hf hd c hc _ _ _
        (Or.inr (Or.inl ⟨rfl, rfl, rfl⟩))⟩
  obtain ⟨h', hh', hlist'⟩ := C31_listing_partial o k.ops _ _ hs'.ideal
  obtain ⟨h0, hh0, hk'⟩ := hs'.ideal.inv.history
  rw [hh'] at hh0
  cases hh0
  refine ⟨h, h', hs.history ▸ hh, hs'.history ▸ hh', fun q hq => ⟨?_, ?_⟩⟩
  · rw [hlist, List.mem_reverse] at hq
    rw [hlist', List.mem_reverse]
    exact List.mem_cons_of_mem _ hq
  · rw [hlist, List.mem_reverse] at hq
    have hq2 := hq
    obtain ⟨e, he, rfl⟩ := List.mem_map.1 hq
    have he' : e ∈ (p, s) :: log := List.mem_cons_of_mem _ he
    by_cases ht : e.1 ∈ torn
    · rw [hs.load_torn hlaw h hh e he ht, hs'.load_torn hlaw h' hh' e he' ((hsub _ hq2).2 ht)]
    · rw [hs.load_complete h hh e he ht, hs'.load_complete h' hh' e he' (fun h3 => ht ((hsub _ hq2).1 h3))]
      rcases hs.ideal.loads hlaw.ops h hh e he with hlo | hlo
      · rw [load_of_loads hs.ideal.inv h e he e.2 hlo]
        refine load_of_loads hs'.ideal.inv h' e he' e.2 ?_
        refine hlo.mono (hk.extends hk' (fun e he => by simp [he])) ?_
        intro m g hg
        have hfresh := (save_inv hs.ideal.inv hl shift k.ops rid s p hsv).1
        simp only
        rw [read_write, if_neg, hg]
        rintro rfl
        exact hfresh (mem_of_read _ _ _ hg)
      · rw [lost_not_loaded hs.ideal h hh e he hlo,
          lost_not_loaded hs'.ideal h' hh' e he' (hlo.mono (fun e he => by simp [he]))]

/-- A new process can save an object of which there is a diff. -/
theorem go_on (o : Opts) (k : KOps S) (hlaw : k.Lawful) (st : BSt) (log : List (Props × S))
    (torn : List Props) (hr : BReach o k.ops st log torn) (hl : log.length < 10 ^ 8 - 1) (shift : Shift) (rid : Nat) (s : S) (d : Bytes)
    (hd : k.ops.diff k.ops.src s = .ok d) (hf : ∀ x, bplan o shift k.ops ⟨st.dir, none⟩ rid none s = .ok x → FileOk x.2.1) :
    ∃ st' p h', bsave o shift k.ops ⟨st.dir, none⟩ rid none s = (st', .ok p) ∧ st'.history = .ok h' ∧ h'.newest = some p ∧
      bload o k.ops st'.dir h' p = .ok s := by
  have hr0 := BReach.restart st log torn hr
  obtain ⟨ist, hs⟩ := hr0.sim hlaw
  obtain ⟨h, hh, hk⟩ := hs.ideal.inv.history
  have hp : ∃ x, bplan o shift k.ops ⟨st.dir, none⟩ rid none s = .ok x := by
    have hbh : createHistory (st.dir.map (·.1)) .empty = .ok h := by
      have := hs.history
      rw [hh] at this
      exact this
    unfold bplan plan
    simp only
    rw [hbh]
    simp only [Res.bind_ok, baseFor, planNew, bcompose, hd]
    exact ⟨_, rfl⟩
  obtain ⟨⟨name, f, r⟩, hp⟩ := hp
  obtain ⟨p, rfl, rfl, hd2, hsv, hctl⟩ := hs.plan_shape hlaw hl shift rid s name f r hp
  have hfo := hf _ hp
  obtain ⟨head, hc, _⟩ := C48_statistics_survive f.1 hfo.1 hfo.2.1 f.2
  have hbs : bsave o shift k.ops ⟨st.dir, none⟩ rid none s =
      (⟨st.dir.write p.filename (head ++ f.2), some (rid, p)⟩, .ok p) := by
    unfold bsave
    rw [hp]
    simp only [Res.bind_ok]
    rw [hc]
    rfl
  have hr2 := BReach.save shift _ _ log torn rid s p hr0 hl hf hbs
  have hs2 := hs.add hlaw hl shift rid s p f hsv hctl hfo hd2 _ hc torn _ _ (Or.inl ⟨rfl, rfl, rfl⟩)
  obtain ⟨h', hh', hk'⟩ := hs2.ideal.inv.history
  refine ⟨_, p, h', hbs, hs2.history ▸ hh', ?_, ?_⟩
  · exact hk'.newest hs2.ideal.inv.sorted
  · have hpt : p ∉ torn := fun h => hctl p h rfl
    refine (hs2.load_complete h' hh' (p, s) (by simp) hpt).trans ?_
    rcases save_loads hs.ideal.inv hl shift k.ops hlaw.ops rid s p hsv h' hh' with hlo | hlo
    · exact load_of_loads hs2.ideal.inv h' (p, s) (by simp) s hlo
    · exfalso
      obtain ⟨h0, _, _, ⟨_, _, _, _, _, b, _, hb, _⟩ | ⟨_, _, hp0, _⟩⟩ := save_ok hs.ideal.inv hl shift k.ops rid s p hsv
      · unfold St.baseFor at hb
        rw [← hs.base] at hb
        cases hb
      · obtain ⟨_, hm, _, q, _, _, _, hq, ho⟩ := hlo
        rw [hp0] at ho
        have := congrArg List.length ho
        simp only [List.length_singleton, List.length_append, List.length_dropLast] at this
        omega

/-- C38: after any number of interruptions, a new process can save; what it saved is the newest file and can be loaded. -/
theorem C38_go_on (o : Opts) (k : KOps S) (hlaw : k.Lawful) (ht : k.ops.Total) (st : BSt) (log : List (Props × S))
    (torn : List Props) (hr : BReach o k.ops st log torn) (hl : log.length < 10 ^ 8 - 1) (shift : Shift) (rid : Nat) (s : S)
    (hf : ∀ x, bplan o shift k.ops ⟨st.dir, none⟩ rid none s = .ok x → FileOk x.2.1) :
    ∃ st' p h', bsave o shift k.ops ⟨st.dir, none⟩ rid none s = (st', .ok p) ∧ st'.history = .ok h' ∧ h'.newest = some p ∧
      bload o k.ops st'.dir h' p = .ok s := by
  obtain ⟨d, hd⟩ := ht k.ops.src s
  exact go_on o k hlaw st log torn hr hl shift rid s d hd hf

/-! ### Worker threads -/

open ApplyItems in
/-- One thread, in the words of `Model/ApplyItems.lean`. -/
theorem applySt_openAll {R : Type} (k : KOps S) (x : Halves S R) (hx : ∀ s v, k.app s v = (x.read v).bind (x.app s)) (dir : BDir)
    (l : List Props) (hl : ∀ p ∈ l, ∀ c, dir.read p.filename = some c → decodeVals c ≠ .panic) (s : S) :
    (applySt x.fns (openAll dir l) s).2 = bcompose k.ops dir l s := by
  induction l generalizing s with
  | nil => rfl
  | cons p l ih =>
    have ih := ih (fun q hq => hl q (by simp [hq]))
    unfold openAll at ih ⊢
    rw [List.map_cons, bcompose]
    conv_lhs => rw [openOne]
    cases hc : dir.read p.filename with
    | none => rfl
    | some c =>
      simp only
      cases hd : decodeVals c with
      | err => rfl
      | panic => exact absurd hd (hl p (by simp) c hc)
      | ok r =>
        simp only [Res.bind_ok, applySt, Halves.fns, KOps.ops, hx]
        cases h1 : decodeVals r.2 with
        | err => rfl
        | panic => rfl
        | ok v =>
          simp only [Res.bind_ok]
          cases h2 : x.read v.1 with
          | err => rfl
          | panic => rfl
          | ok d =>
            simp only [Res.bind_ok]
            cases h3 : x.app s d with
            | err => rfl
            | panic => rfl
            | ok s' =>
              have := ih s'
              simp only [Halves.fns, KOps.ops] at this
              simpa [hx] using this

theorem Sim.no_panic (hlaw : k.Lawful) {o : Opts} {bst : BSt} {st : St} {log : List (Props × S)} {torn : List Props}
    (hs : Sim o k bst st log torn) (e : Props × S) (he : e ∈ log) (c : Bytes) (hc : bst.dir.read e.1.filename = some c) :
    decodeVals c ≠ .panic := by
  obtain ⟨f, c0, h1, h2, h3, h4, h5, h6⟩ := hs.files e he
  by_cases ht : e.1 ∈ torn
  · obtain ⟨n, hn, h6⟩ := h6 ht
    rw [h6] at hc
    cases hc
    rcases file_torn hlaw h2 h3 h4 n hn with h | ⟨v, d, h, _⟩ <;> rw [h] <;> simp
  · rw [h5 ht] at hc
    cases hc
    obtain ⟨v, h⟩ := (file_whole h2 h4).2
    rw [h]
    simp

open ApplyItems in
/-- C38 with worker threads: in whatever order they finish, an object is loaded from a file exactly if one thread loads it, so
never a wrong one. -/
theorem C38_threads {R : Type} (o : Opts) (k : KOps S) (hlaw : k.Lawful) (x : Halves S R)
    (hx : ∀ s v, k.app s v = (x.read v).bind (x.app s)) (st : BSt) (log : List (Props × S)) (torn : List Props)
    (hr : BReach o k.ops st log torn) (h : Hist) (hh : st.history = .ok h) (p : Props) (hp : p ∈ h.listFiles) (rev : List Props)
    (hrev : ancestorsRev h p o.maxPhase o.cumulative.isSome = .ok rev) (out : List S × Res S)
    (hm : Mt x.fns (openAll st.dir rev.reverse) k.src out) (s : S) :
    out.2 = .ok s ↔ bload o k.ops st.dir h p = .ok s := by
  obtain ⟨ist, hs⟩ := hr.sim hlaw
  rw [hs.history] at hh
  obtain ⟨h0, hh0, hk⟩ := hs.ideal.inv.history
  rw [hh] at hh0
  cases hh0
  rw [mem_listFiles h hk.1, hk.2] at hp
  obtain ⟨⟨e, he, rfl⟩, _⟩ := hp
  rw [C37_same_object x.fns _ k.src out hm s, applySt_openAll k x hx st.dir rev.reverse]
  · unfold bload
    rw [hs.ideal.inv.analyze_file e he]
    simp only [Res.bind_ok]
    rw [hrev]
    rfl
  · intro q hq c hc
    rw [List.mem_reverse] at hq
    obtain ⟨eq, heq, rfl⟩ := chain_logged hk e he _ _ _ hrev q hq
    exact hs.no_panic hlaw eq heq c hc

open ApplyItems in
/-- C38 is false with worker threads (the default): a file that is cut within its diff is an error when it is loaded with one
thread, and can end the process when it is loaded with worker threads. -/
theorem C38_negation_threads {R : Type} (o : Opts) (k : KOps S) (hlaw : k.Lawful) (x : Halves S R) (st : BSt)
    (log : List (Props × S)) (torn : List Props) (hr : BReach o k.ops st log torn) (h : Hist) (hh : st.history = .ok h) (p : Props)
    (hp : p ∈ torn) (rev : List Props) (hrev : ancestorsRev h p o.maxPhase o.cumulative.isSome = .ok rev)
    (c : Bytes) (hc : st.dir.read p.filename = some c) (v : List KVal) (d : Bytes) (hd : decodeVals c = .ok (v, d)) :
    bload o k.ops st.dir h p = .err ∧ ∃ tr, Mt x.fns (openAll st.dir rev.reverse) k.src (tr, .panic) := by
  obtain ⟨ist, hs⟩ := hr.sim hlaw
  rw [hs.history] at hh
  obtain ⟨e, he, rfl⟩ := hs.logged p hp
  obtain ⟨h0, hh0, hk⟩ := hs.ideal.inv.history
  rw [hh] at hh0
  cases hh0
  refine ⟨hs.load_torn hlaw h hh e he hp, [], .abort [] fun hprep => ?_⟩
  have hdt : decodeVals d = .err := by
    obtain ⟨f, c0, _, h2, h3, h4, _, h6⟩ := hs.files e he
    obtain ⟨n, hn, h6⟩ := h6 hp
    rw [hc] at h6
    cases h6
    rcases file_torn hlaw h2 h3 h4 n hn with h | ⟨v', d', h, h'⟩
    · rw [h] at hd; cases hd
    · rw [h] at hd; cases hd; exact h'
  have hopen : ∀ q ∈ rev, ∃ b, openOne st.dir q = some b := by
    intro q hq
    unfold openOne
    obtain ⟨eq, heq, rfl⟩ := chain_logged hk e he _ _ _ hrev q hq
    by_cases hqt : eq.1 ∈ torn
    · rw [hs.clean h hh e he rev hrev _ hq hqt, hc]
      simp only
      rw [hd]
      exact ⟨_, rfl⟩
    · obtain ⟨f, c0, _, h2, _, h4, h5, _⟩ := hs.files eq heq
      obtain ⟨v', h7⟩ := (file_whole h2 h4).2
      rw [h5 hqt]
      simp only
      rw [h7]
      exact ⟨_, rfl⟩
  have hreadable : ∀ l : List Props, (∀ q ∈ l, q ∈ rev) → e.1 ∈ l → d ∈ readable (openAll st.dir l) := by
    intro l
    induction l with
    | nil => intro _ h; simp at h
    | cons q l ih =>
      intro hsub hmem
      obtain ⟨b, hb⟩ := hopen q (hsub q (by simp))
      unfold openAll at ih ⊢
      rw [List.map_cons, hb, readable]
      rcases List.mem_cons.1 hmem with rfl | hmem
      · unfold openOne at hb
        rw [hc] at hb
        simp only [hd, Option.some.injEq] at hb
        rw [hb]
        simp
      · exact List.mem_cons_of_mem _ (ih (fun q hq => hsub q (by simp [hq])) hmem)
  obtain ⟨r, hrr, _⟩ := ancestorsRev_shape _ _ _ _ _ hrev
  obtain ⟨y, hy⟩ := hprep d (hreadable rev.reverse (fun q hq => List.mem_reverse.1 hq) (by simp [hrr]))
  simp only [Halves.fns, hdt] at hy
  cases hy

end

/-! ### A run -/

/-- Objects are bits; a diff tells whether the bit changes. -/
def bitK : KOps Bool where
  src := false
  diff a b := .ok [.bit (a != b)]
  app s v := match v with | [.bit x] => .ok (s != x) | _ => .err

theorem enc_bit (b : Bool) : encodeVals [.bit b] = .ok [1, 1, 1, 1, if b then 192 else 128] :=
  encodeVals_small 1 _ _ (by cases b <;> decide +kernel)

theorem bitK_lawful : bitK.Lawful := by
  intro a b v hv
  cases hv
  refine ⟨?_, by simp, ?_, ?_⟩
  · intro x hx
    simp only [List.mem_singleton] at hx
    subst hx
    trivial
  · intro out ho
    rw [enc_bit] at ho
    cases ho
    simp
  · cases a <;> cases b <;> rfl

/-- the first file -/
def bitFile : Props := ⟨0, 0, [0], none⟩

theorem bitPlan : bplan plain shiftExact bitK.ops ⟨[], none⟩ 0 none true =
    .ok (bitFile.filename, (Data.new 5, [1, 1, 1, 1, 192]), .ok bitFile) := by
  have h : analyze (calcFilename none 0 none [0]) = .ok (some bitFile) := by decide +kernel
  have hd : bitK.ops.diff bitK.ops.src true = .ok [1, 1, 1, 1, 192] := enc_bit true
  have hn : newControl FileHistory.History.empty = 0 := by decide +kernel
  unfold bplan plan
  simp only [List.map_nil, createHistory, Res.bind_ok, baseFor, planNew, bcompose, hd, hn, h]
  rfl

theorem bitContents : phaseFile (Data.new 5) [1, 1, 1, 1, 192] = .ok [1, 4, 1, 2, 221, 0, 5, 1, 1, 1, 1, 192] := by
  have h0 : (Data.new 5).encode = [KVal.bit true, KVal.byte 5, KVal.bit false, KVal.bit false] := by decide +kernel
  unfold phaseFile
  rw [h0, encodeVals_small 2 _ [1, 4, 1, 2, 221, 0, 5] (by decide +kernel)]
  rfl

theorem bitFileOk : FileOk (Data.new 5, [1, 1, 1, 1, 192]) := by
  refine ⟨?_, by decide, ?_⟩
  · intro it hit
    simp only [Data.new, List.mem_singleton] at hit
    subst hit
    decide
  · intro c hc
    rw [bitContents] at hc
    cases hc
    decide

/-- the first save, cut after nine bytes: the head is complete, of the diff two bytes are there -/
def bitCut : BSt := interrupted ⟨[], none⟩ bitFile.filename [1, 4, 1, 2, 221, 0, 5, 1, 1, 1, 1, 192] 9

theorem bitReach : BReach plain bitK.ops bitCut [(bitFile, true)] [bitFile] :=
  BReach.interrupt shiftExact ⟨[], none⟩ [] [] 0 true _ _ _ bitFile 9 (.start [] (by simp) (by simp)) (by decide) bitPlan bitFileOk
    bitContents

/-- C38 is false with worker threads: a concrete run. -/
theorem C38_negation_threads_run : ∃ h rev, bitCut.history = .ok h ∧ bitFile ∈ h.listFiles ∧
    ancestorsRev h bitFile plain.maxPhase plain.cumulative.isSome = .ok rev ∧
    bload plain bitK.ops bitCut.dir h bitFile = .err ∧
    ∃ tr, ApplyItems.Mt (Halves.fns ⟨fun v => .ok v, bitK.app⟩) (openAll bitCut.dir rev.reverse) false (tr, .panic) := by
  obtain ⟨h, h1, _, h2, h3⟩ := C38_interrupted_saves plain bitK bitK_lawful bitCut _ _ bitReach
  obtain ⟨rev, hrev⟩ : ∃ rev, ancestorsRev h bitFile plain.maxPhase plain.cumulative.isSome = .ok rev :=
    ⟨[bitFile], rfl⟩
  have hd : decodeVals [1, 4, 1, 2, 221, 0, 5, 1, 1] = .ok ([.bit true, .byte 5, .bit false, .bit false], [1, 1]) := by
    decide +kernel
  have := C38_negation_threads plain bitK bitK_lawful ⟨fun v => .ok v, bitK.app⟩ bitCut _ _ bitReach h h1 bitFile (by simp) rev
    hrev _ (by decide +kernel) _ _ hd
  exact ⟨h, rev, h1, h2 _ (by simp), hrev, this⟩

/-- The hypotheses of C38 are met: after the cut file a complete one is saved by a new process. -/
example : ∃ st log torn, BReach plain bitK.ops st log torn ∧ torn = [bitFile] ∧ (bitFile, true) ∈ log :=
  ⟨_, _, _, .restart _ _ _ bitReach, rfl, by simp⟩

end Verif.History
