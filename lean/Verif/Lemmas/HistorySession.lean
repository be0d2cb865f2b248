import Verif.Spec.HistorySession
import Verif.Lemmas.HistoryReal
import Verif.Lemmas.Lost
import Verif.Lemmas.Cache
import Verif.Props.Crash
/-!
# What sessions of edits keep, along the chains of a history
-/
namespace Verif.History
open VarInt FileName FileHistory Phase Codec Source

section
variable {S T : Type}

/-- If a file has a parent, the last of its siblings has the same one. -/
theorem sib_parent (h : Hist) {log : List (Props × S)} (hk : Knows h log) (hfk : Forked log) (base : List Nat) (k : Nat) (p : Props)
    (f : Props) (hf : h.getProps p.prevCtl base = some f) (l : List Props) (hl : siblings h base k p = .ok l) :
    (l.getLastD p).prevCtl = p.prevCtl := by
  induction k generalizing p l with
  | zero => cases hl; rfl
  | succ k ih =>
    rw [siblings] at hl
    cases hq : h.getProps p.prevCtl (base ++ [k]) with
    | none => rw [hq] at hl; cases hl
    | some q =>
      rw [hq] at hl
      obtain ⟨r, hr, rfl⟩ := map_inv hl
      obtain ⟨⟨eq, heq, rfl⟩, hqk⟩ := (hk.2 _ _ _).1 hq
      obtain ⟨⟨ef, hef, rfl⟩, hfk'⟩ := (hk.2 _ _ _).1 hf
      simp only [key, List.cons.injEq] at hqk
      have hc : eq.1.prevCtl = p.prevCtl := by
        by_contra hne
        have := hfk eq heq (by rw [hqk.1]; exact hne) base.length (by rw [hqk.2]; simp) ef hef
        rw [hqk.2, hqk.1, List.take_left] at this
        exact this hfk'
      rw [List.getLastD_cons, ih eq.1 (by rw [hc]; exact hf) r hr, hc]

/-- The chain of the file that a save starts from is the end of the chain of the base file. -/
theorem fromFile_chain (o : Opts) (h : Hist) {log : List (Props × S)} (hk : Knows h log) (hfk : Forked log) (b : Props) (hb : b.order ≠ [])
    (hlog : ∀ e ∈ log, e.1.order ≠ []) (newest f : Props) (hff : fromFile o h b newest = some f) (rev : List Props)
    (hr : ancestorsRev h b o.maxPhase o.cumulative.isSome = .ok rev) :
    ∃ pre revf, rev = pre ++ revf ∧ ancestorsRev h f o.maxPhase o.cumulative.isSome = .ok revf := by
  have hkd := keyed_of_hwf h hk.1
  unfold fromFile at hff
  split at hff
  · rename_i hc
    have hgp : h.getProps b.prevCtl b.order.dropLast = some f := hff
    obtain ⟨⟨ef, hef, rfl⟩, hfk'⟩ := (hk.2 _ _ _).1 hgp
    simp only [key, List.cons.injEq] at hfk'
    have hfo := hlog ef hef
    have h2 : 2 ≤ b.order.length := by
      have := congrArg List.length hfk'.2
      rw [List.length_dropLast] at this
      have : ef.1.order.length ≠ 0 := by simpa using hfo
      omega
    obtain ⟨sib, t, rfl, hs, ht, w1, w2⟩ := ancestorsRev_parts h hkd b hb _ _ rev hr
    obtain ⟨q, t', hq, ht', rfl⟩ := par_cons h hkd _ (by omega) t ht
    have hw : (sib.getLastD b).prevCtl = b.prevCtl := by
      rcases hs with rfl | hs
      · rfl
      · exact sib_parent h hk hfk _ _ b ef.1 hgp sib hs
    have hqf : q = ef.1 := by
      have : h.getProps (sib.getLastD b).prevCtl (sib.getLastD b).order.dropLast = some q := hq
      rw [hw, w2, hgp] at this
      exact (Option.some.inj this).symm
    subst hqf
    refine ⟨b :: sib, ef.1 :: t', by simp, ?_⟩
    rw [ancestorsRev_plain h ef.1 hfo _ _ (.inl ?_), ht']
    · rfl
    · rintro ⟨h3, _⟩
      have h4 := congrArg List.length hfk'.2
      rw [List.length_dropLast] at h4
      have h5 : phase b = o.maxPhase := hc.1
      unfold phase at h5
      omega
  · cases hff
    exact ⟨[], rev, rfl, hr⟩

/-- What sessions keep (`K`) of objects (`Ok`), seen through the functions that `Simulates` compares. -/
structure Keeping (k : KOps S) (α : S → T) (Inv Ok : S → Prop) (K Edits Fine Good : S → S → Prop) : Prop where
  src : Ok k.src
  refl : ∀ a, Ok a → K a a
  trans : ∀ a b c, Ok a → K a b → K b c → K a c
  edit : ∀ a b, Ok a → Edits a b → Ok b ∧ K a b
  same : ∀ s y, Ok s → Inv y → α y = α s → Ok y ∧ K s y ∧ K y s
  good : ∀ a s, Ok a → Ok s → K a s → Fine a s → Good a s

variable {k : KOps S} {k' : KOps T} {α : S → T} {Inv Ok : S → Prop} {K Edits Fine Good : S → S → Prop}

/-- What is kept along the chains of a history. -/
structure EInv (o : Opts) (k : KOps S) (Ok : S → Prop) (K : S → S → Prop) (st : BSt) (live : Live S) (log : List (Props × S)) : Prop where
  lives : ∀ rid s, live rid = some s → Ok s ∧ K k.src s
  logs : ∀ e ∈ log, Ok e.2 ∧ K k.src e.2
  chain : ∀ h, st.history = .ok h → ∀ e ∈ log, ∀ rev, ancestorsRev h e.1 o.maxPhase o.cumulative.isSome = .ok rev →
    ∀ q ∈ rev, ∃ e' ∈ log, e'.1 = q ∧ K e'.2 e.2
  base : ∀ rid p, st.base = some (rid, p) → ∃ e ∈ log, e.1 = p ∧ ∃ s, live rid = some s ∧ K e.2 s

theorem seen_mem {log : List (Props × S)} {e : Props × S} (he : e ∈ log) : (e.1, α e.2) ∈ seen α log := List.mem_map.mpr ⟨e, he, rfl⟩

theorem seen_names (α : S → T) (log : List (Props × S)) : (seen α log).map (·.1) = log.map (·.1) := by
  simp [seen]

theorem mem_seen {log : List (Props × S)} {e : Props × T} (he : e ∈ seen α log) : ∃ e' ∈ log, e = (e'.1, α e'.2) := by
  obtain ⟨e', h1, h2⟩ := List.mem_map.mp he
  exact ⟨e', h1, h2.symm⟩

/-- what is loaded from a file is what was saved -/
theorem loaded_keeps (hsim : Simulates k k' α Inv Good) (hlaw : k'.Lawful) (hK : Keeping k α Inv Ok K Edits Fine Good) {o : Opts} {st : BSt}
    {live : Live S} {log : List (Props × S)} {torn : List Props} (hr : BReach o k'.ops st (seen α log) torn) (hi : EInv o k Ok K st live log)
    (h : Hist) (hh : st.history = .ok h) (e : Props × S) (he : e ∈ log) (y : S) (hy : bload o k.ops st.dir h e.1 = .ok y) :
    (Ok y ∧ K e.2 y ∧ K y e.2) ∧ Inv y ∧ α y = α e.2 := by
  obtain ⟨h0, hh0, _, _, hl⟩ := C38_interrupted_saves o k' hlaw st _ torn hr
  rw [hh] at hh0
  cases hh0
  obtain ⟨g1, g2, g3⟩ := hl e.1 (α e.2) (seen_mem he)
  obtain ⟨g4, g5⟩ := hsim.load o st.dir h e.1
  rw [hy] at g4
  have hyk : bload o k'.ops st.dir h e.1 = .ok (α y) := g4.symm
  by_cases ht : e.1 ∈ torn
  · rw [g3 ht] at hyk; cases hyk
  · by_cases hlo : Lost o (seen α log) e.1
    · rw [g2 ht hlo] at hyk; cases hyk
    · rw [g1 ht hlo] at hyk
      exact ⟨hK.same e.2 y (hi.logs e he).1 (g5 y hy) (Res.ok.inj hyk).symm, g5 y hy, (Res.ok.inj hyk).symm⟩

/-- The base file has a chain, of which the chain of the file that a save starts from is the end. -/
theorem base_chain (hlaw : k'.Lawful) {o : Opts} {st : BSt} {log : List (Props × T)} {torn : List Props} (hr : BReach o k'.ops st log torn)
    (h : Hist) (hh : st.history = .ok h) (e : Props × T) (he : e ∈ log) (newest f : Props) (hff : fromFile o h e.1 newest = some f)
    (revf : List Props) (hrf : ancestorsRev h f o.maxPhase o.cumulative.isSome = .ok revf) :
    ∃ rev, ancestorsRev h e.1 o.maxPhase o.cumulative.isSome = .ok rev ∧ (∀ q ∈ revf, q ∈ rev) ∧ f.order ≠ [] ∧ f.order.length ≤ o.maxPhase + 1 := by
  obtain ⟨ist, hs⟩ := hr.sim hlaw
  rw [hs.history] at hh
  obtain ⟨h0, hh0, hk⟩ := hs.ideal.inv.history
  rw [hh] at hh0
  cases hh0
  have hkd := keyed_of_hwf h hk.1
  have hsm := hs.ideal.inv.small
  obtain ⟨_, s2, s3, _⟩ := hsm e he
  have hex : ∃ rev, ancestorsRev h e.1 o.maxPhase o.cumulative.isSome = .ok rev := by
    rcases hs.ideal.loads hlaw.ops h hh e he with ⟨rev, hl, _⟩ | hl
    · exact ⟨rev, hl⟩
    · unfold fromFile at hff
      split at hff
      · rw [lost_no_parent hs.ideal h hh e.1 hl] at hff; cases hff
      · cases hff; exact ⟨revf, hrf⟩
  obtain ⟨rev, hrev⟩ := hex
  obtain ⟨pre, revf', h1, h2⟩ := fromFile_chain o h hk hs.ideal.forked e.1 s2 (fun e he => (hsm e he).2.1) newest f hff rev hrev
  rw [hrf] at h2
  cases h2
  refine ⟨rev, hrev, fun q hq => by rw [h1]; exact List.mem_append_right _ hq, ?_⟩
  unfold fromFile at hff
  split at hff
  · have hgp : h.getProps e.1.prevCtl e.1.order.dropLast = some f := hff
    obtain ⟨⟨ef, hef, rfl⟩, _⟩ := (hk.2 _ _ _).1 hgp
    exact ⟨(hsm ef hef).2.1, (hsm ef hef).2.2.1⟩
  · cases hff
    exact ⟨s2, s3⟩

theorem baseFor_inv {base : Option (Nat × Props)} {rid : Nat} {b : Props} (hb : baseFor base rid = some b) : base = some (rid, b) := by
  unfold baseFor at hb
  split at hb
  · rename_i i q
    split at hb
    · rename_i hi'
      cases hb
      rw [hi']
    · cases hb
  · cases hb

/-- What a save compares with is kept by what is saved; it is the object of the source, or the same as one that was saved. -/
theorem compared_keeps (hsim : Simulates k k' α Inv Good) (hlaw : k'.Lawful) (hK : Keeping k α Inv Ok K Edits Fine Good) {o : Opts} {st : BSt}
    {live : Live S} {log : List (Props × S)} {torn : List Props} (hr : BReach o k'.ops st (seen α log) torn) (hi : EInv o k Ok K st live log)
    {shift : Shift} {rid : Nat} {s a : S} (hs : live rid = some s) (ha : Compared o shift k.ops st rid a) :
    (Ok a ∧ K a s) ∧ (a = k.src ∨ ∃ e ∈ log, Inv a ∧ α a = α e.2) := by
  have src : ∀ {dir : BDir}, bcompose k.ops dir [] k.ops.src = .ok a → (Ok a ∧ K a s) ∧ (a = k.src ∨ ∃ e ∈ log, Inv a ∧ α a = α e.2) := by
    intro dir h
    cases h
    exact ⟨⟨hK.src, (hi.lives rid s hs).2⟩, .inl rfl⟩
  unfold Compared planBase at ha
  obtain ⟨h, hh, ha⟩ := bind_inv ha
  have hh : st.history = .ok h := hh
  cases hb : baseFor st.base rid with
  | none => rw [hb] at ha; exact src ha
  | some b =>
    rw [hb] at ha
    cases hn : h.newest with
    | none => rw [hn] at ha; exact src ha
    | some newest =>
      rw [hn] at ha
      simp only at ha
      cases hf : fromFile o h b newest with
      | none => rw [hf] at ha; cases ha
      | some f =>
        rw [hf] at ha
        obtain ⟨data, _, ha⟩ := bind_inv ha
        obtain ⟨next, _, ha⟩ := bind_inv ha
        obtain ⟨revf, hrf, ha⟩ := bind_inv ha
        obtain ⟨dp, hdp, ha⟩ := bind_inv ha
        have hbase := baseFor_inv hb
        obtain ⟨eb, heb, rfl, s', hs', hkb⟩ := hi.base rid b hbase
        rw [hs] at hs'
        cases hs'
        obtain ⟨rev, hrev, hsub, hfo, hfl⟩ := base_chain hlaw hr h hh (eb.1, α eb.2) (seen_mem heb) newest f hf revf hrf
        have hpre : ∃ n, dp.1 = revf.reverse.take n := by
          obtain ⟨r, rfl, _⟩ := ancestorsRev_shape _ _ _ _ _ hrf
          obtain ⟨ord, prev, _, _, hdeps⟩ := createDependencies_ok _ f (by simp) _ _ _ _ _ _ _ hdp
          rw [hdeps]
          split
          · exact ⟨(f :: r).reverse.length, (List.take_length).symm⟩
          · exact ⟨next, rfl⟩
        obtain ⟨n, hn'⟩ := hpre
        by_cases hnil : dp.1 = []
        · rw [hnil] at ha; exact src ha
        · obtain ⟨j, hj, hdj⟩ : ∃ j, j < revf.reverse.length ∧ dp.1 = revf.reverse.take (j + 1) := by
            have h0 : n ≠ 0 := by rintro rfl; exact hnil (by rw [hn', List.take_zero])
            have h1 : revf.reverse ≠ [] := by intro hc; exact hnil (by rw [hn', hc, List.take_nil])
            have h1' : revf.reverse.length ≠ 0 := by simpa using h1
            by_cases hle : n ≤ revf.reverse.length
            · exact ⟨n - 1, by omega, by rw [hn']; congr 1; omega⟩
            · exact ⟨revf.reverse.length - 1, by omega, by
                rw [hn', List.take_of_length_le (by omega), List.take_of_length_le (by omega)]⟩
          obtain ⟨ist, hsm⟩ := hr.sim hlaw
          obtain ⟨h0, hh0, hkn⟩ := hsm.ideal.inv.history
          have hhi := hh
          rw [hsm.history, hh0] at hhi
          cases hhi
          have hkd := keyed_of_hwf h hkn.1
          obtain ⟨hq, _⟩ := ancestorsRev_get h hkd _ _ f revf hfo hfl hrf j _ (List.getElem?_eq_getElem hj)
          have hqm : revf.reverse[j] ∈ rev := hsub _ (List.mem_reverse.1 (List.getElem_mem hj))
          obtain ⟨e', he', heq, hke⟩ := hi.chain h hh eb heb rev hrev _ hqm
          rw [← heq, ← hdj] at hq
          have hload : bload o k.ops st.dir h e'.1 = .ok a := by
            unfold bload
            rw [hsm.ideal.inv.analyze_file (e'.1, α e'.2) (seen_mem he')]
            simp only [Res.bind_ok]
            rw [hq, Res.bind_ok, List.reverse_reverse]
            exact ha
          obtain ⟨⟨g1, _, g3⟩, g4⟩ := loaded_keeps hsim hlaw hK hr hi h hh e' he' a hload
          exact ⟨⟨g1, hK.trans _ _ _ g1 g3 (hK.trans _ _ _ (hi.logs e' he').1 hke hkb)⟩, .inr ⟨e', he', g4⟩⟩

theorem knows_of (hlaw : k'.Lawful) {o : Opts} {st : BSt} {log : List (Props × T)} {torn : List Props} (hr : BReach o k'.ops st log torn) (h : Hist)
    (hh : st.history = .ok h) : Knows h log := by
  obtain ⟨ist, hs⟩ := hr.sim hlaw
  rw [hs.history] at hh
  obtain ⟨h0, hh0, hk⟩ := hs.ideal.inv.history
  rw [hh] at hh0
  cases hh0
  exact hk

/-- Chains of files that were there before stay as they were. -/
theorem chain_old (hlaw : k'.Lawful) {o : Opts} {st st' : BSt} {log log' : List (Props × T)} {torn torn' : List Props}
    (hr : BReach o k'.ops st log torn) (hr' : BReach o k'.ops st' log' torn') (hsub : ∀ e ∈ log, e ∈ log') (h h' : Hist)
    (hh : st.history = .ok h) (hh' : st'.history = .ok h') (e : Props × T) (he : e ∈ log) (rev : List Props)
    (hrev : ancestorsRev h' e.1 o.maxPhase o.cumulative.isSome = .ok rev) : ancestorsRev h e.1 o.maxPhase o.cumulative.isSome = .ok rev := by
  have hk := knows_of hlaw hr h hh
  have hk' := knows_of hlaw hr' h' hh'
  obtain ⟨ist, hs⟩ := hr.sim hlaw
  obtain ⟨ist', hs'⟩ := hr'.sim hlaw
  rw [hs.history] at hh
  rw [hs'.history] at hh'
  rcases hs.ideal.loads hlaw.ops h hh e he with ⟨r, hl, _⟩ | hl
  · have := ancestorsRev_mono h h' (hk.extends hk' hsub) _ _ _ _ hl
    rw [hrev] at this
    cases this
    exact hl
  · rw [lost_no_chain hs'.ideal h' hh' e (hsub e he) (hl.mono hsub)] at hrev
    cases hrev

/-- A save keeps what is kept along chains. -/
theorem chain_add (hlaw : k'.Lawful) (hK : Keeping k α Inv Ok K Edits Fine Good) {o : Opts} {st st' : BSt} {live : Live S}
    {log : List (Props × S)} {torn torn' : List Props} (hr : BReach o k'.ops st (seen α log) torn) (hi : EInv o k Ok K st live log)
    (hl : log.length < 10 ^ 8 - 1) {shift : Shift} {rid : Nat} {s : S} (hs : live rid = some s) {name : Bytes} {f : File} {p : Props}
    (hp : bplan o shift k'.ops st rid none (α s) = .ok (name, f, .ok p)) {c : Bytes} (hd : st'.dir = st.dir.write name c)
    (hr' : BReach o k'.ops st' (seen α ((p, s) :: log)) torn') :
    ∀ h, st'.history = .ok h → ∀ e ∈ (p, s) :: log, ∀ rev, ancestorsRev h e.1 o.maxPhase o.cumulative.isSome = .ok rev →
      ∀ q ∈ rev, ∃ e' ∈ (p, s) :: log, e'.1 = q ∧ K e'.2 e.2 := by
  intro h' hh' e he rev hrev q hq
  obtain ⟨ist, hsm⟩ := hr.sim hlaw
  have hl' : (seen α log).length < 10 ^ 8 - 1 := (seen_length α log).trans_lt hl
  obtain ⟨p', hpp, rfl, _, hsv, _⟩ := hsm.plan_shape hlaw hl' shift rid (α s) name f _ hp
  cases hpp
  obtain ⟨h, hh, hkn⟩ := hsm.ideal.inv.history
  have hhb : st.history = .ok h := by rw [hsm.history, hh]
  rcases List.mem_cons.1 he with rfl | he
  · have hfresh := (save_inv hsm.ideal.inv hl' shift k'.ops rid (α s) p hsv).1
    have hri := Reach.save shift ist _ _ rid (α s) p hsm.ideal hl' hsv
    have hhi : St.history ⟨ist.dir.write p.filename f, some (rid, p)⟩ = .ok h' := by
      rw [← hh']
      unfold St.history BSt.history
      simp only
      rw [hd, bwrite_names, hsm.names, if_neg hfresh, names_write _ _ _ hfresh]
    rcases save_chain hsm.ideal.inv hl' shift k'.ops rid (α s) p hsv h h' hh hhi with ⟨deps, _, _, _, h1, _, _, _, h2⟩ | hlo
    · rw [hrev] at h1
      cases h1
      rcases List.mem_cons.1 hq with rfl | hq
      · exact ⟨_, List.mem_cons_self, rfl, hK.refl s (hi.lives rid s hs).1⟩
      · rcases h2 with rfl | ⟨b, newest, g, revf, hb, hnw, hff, hrf, hsub, _⟩
        · cases hq
        · have hbase : st.base = some (rid, b) := by
            rw [hsm.base]
            exact baseFor_inv hb
          obtain ⟨eb, heb, rfl, s', hs', hkb⟩ := hi.base rid b hbase
          rw [hs] at hs'
          cases hs'
          obtain ⟨rev', hrev', hsub', _⟩ := base_chain hlaw hr h hhb (eb.1, α eb.2) (seen_mem heb) newest g hff revf hrf
          obtain ⟨e', he', heq, hke⟩ := hi.chain h hhb eb heb rev' hrev' q (hsub' q (hsub q (List.mem_reverse.1 hq)))
          exact ⟨e', List.mem_cons_of_mem _ he', heq, hK.trans _ _ _ (hi.logs e' he').1 hke hkb⟩
    · have h3 := lost_no_chain hri h' hhi (p, α s) (by simp) hlo
      rw [hrev] at h3
      cases h3
  · have := chain_old hlaw hr hr' (fun e he => List.mem_cons_of_mem _ he) h h' hhb hh' (e.1, α e.2) (seen_mem he) rev hrev
    obtain ⟨e', he', h1, h2⟩ := hi.chain h hhb e he rev this q hq
    exact ⟨e', List.mem_cons_of_mem _ he', h1, h2⟩

theorem set_same (m : Live S) (rid : Nat) (s : S) : m.set rid s rid = some s := if_pos rfl
theorem set_ne (m : Live S) {rid n : Nat} (s : S) (h : n ≠ rid) : m.set rid s n = m n := if_neg h

theorem lives_set {m : Live S} {rid : Nat} {s : S} {P : S → Prop} (hm : ∀ n x, m n = some x → P x) (hs : P s) : ∀ n x, m.set rid s n = some x → P x := by
  intro n x hx
  by_cases hn : n = rid
  · subst hn
    rw [set_same] at hx
    cases hx
    exact hs
  · rw [set_ne m s hn] at hx
    exact hm n x hx

/-- **Sessions.** Runs with sessions of edits are runs in which what is saved can be expressed. -/
theorem EReach.reach (hsim : Simulates k k' α Inv Good) (hlaw : k'.Lawful) (hK : Keeping k α Inv Ok K Edits Fine Good) {o : Opts} {st : BSt}
    {live : Live S} {log : List (Props × S)} {torn : List Props} (hr : EReach o k.ops Edits Fine st live log torn) :
    RReach o k.ops Good st log torn ∧ EInv o k Ok K st live log := by
  induction hr with
  | start dir hn hf =>
    refine ⟨.start dir hn hf, ⟨?_, ?_, ?_, ?_⟩⟩
    · intro _ _ h; cases h
    · intro _ h; cases h
    · intro _ _ _ h; cases h
    · intro _ _ h; cases h
  | create st live log torn rid _ hn ih =>
    obtain ⟨h1, h2⟩ := ih
    refine ⟨h1, lives_set h2.lives ⟨hK.src, hK.refl _ hK.src⟩, h2.logs, h2.chain, fun r p hb => ?_⟩
    obtain ⟨e, he, hp, s, hs, hk⟩ := h2.base r p hb
    refine ⟨e, he, hp, s, ?_, hk⟩
    rw [set_ne, hs]
    rintro rfl
    rw [hn] at hs
    cases hs
  | copy st live log torn rid new s _ hs hn ih =>
    obtain ⟨h1, h2⟩ := ih
    refine ⟨h1, lives_set h2.lives (h2.lives rid s hs), h2.logs, h2.chain, fun r p hb => ?_⟩
    obtain ⟨e, he, hp, x, hx, hk⟩ := h2.base r p hb
    refine ⟨e, he, hp, x, ?_, hk⟩
    rw [set_ne, hx]
    rintro rfl
    rw [hn] at hx
    cases hx
  | edit st live log torn rid s t _ hs he ih =>
    obtain ⟨h1, h2⟩ := ih
    obtain ⟨g1, g2⟩ := h2.lives rid s hs
    obtain ⟨g3, g4⟩ := hK.edit s t g1 he
    refine ⟨h1, lives_set h2.lives ⟨g3, hK.trans _ _ _ hK.src g2 g4⟩, h2.logs, h2.chain, fun r p hb => ?_⟩
    obtain ⟨e, he, hp, x, hx, hk⟩ := h2.base r p hb
    by_cases hrr : r = rid
    · subst hrr
      rw [hs] at hx
      cases hx
      exact ⟨e, he, hp, t, set_same _ _ _, hK.trans _ _ _ (h2.logs e he).1 hk g4⟩
    · exact ⟨e, he, hp, x, by rw [set_ne _ _ hrr, hx], hk⟩
  | save shift st st' live log torn rid s p _ hlv hl hg hf hs ih =>
    obtain ⟨h1, h2⟩ := ih
    have hgood : ∀ a, Compared o shift k.ops st rid a → Good a s := by
      intro a ha
      obtain ⟨⟨g1, g2⟩, _⟩ := compared_keeps hsim hlaw hK (hsim.reach h1) h2 hlv ha
      exact hK.good a s g1 (h2.lives rid s hlv).1 g2 (hg a ha)
    have h3 := RReach.save shift st st' log torn rid s p h1 hl hgood hf hs
    obtain ⟨name, f, c, hp, hd, hb⟩ : ∃ name f c, bplan o shift k.ops st rid none s = .ok (name, f, .ok p) ∧
        st'.dir = st.dir.write name c ∧ st'.base = some (rid, p) := by
      unfold bsave at hs
      cases hx : bplan o shift k.ops st rid none s with
      | err => rw [hx] at hs; cases hs
      | panic => rw [hx] at hs; cases hs
      | ok x =>
        obtain ⟨name, f, r⟩ := x
        rw [hx, Res.bind_ok] at hs
        cases hc : phaseFile f.1 f.2 with
        | err => rw [hc] at hs; cases hs
        | panic => rw [hc] at hs; cases hs
        | ok c =>
          rw [hc] at hs
          simp only [Res.map, Prod.mk.injEq] at hs
          obtain ⟨rfl, rfl⟩ := hs
          exact ⟨name, f, c, rfl, rfl, rfl⟩
    have hp' := hp
    rw [hsim.plan o shift st rid s hgood] at hp'
    refine ⟨h3, h2.lives, ?_, chain_add hlaw hK (hsim.reach h1) h2 hl hlv hp' hd (hsim.reach h3), fun r q hq => ?_⟩
    · intro e he
      rcases List.mem_cons.1 he with rfl | he
      · exact h2.lives rid s hlv
      · exact h2.logs e he
    · rw [hb] at hq
      cases hq
      exact ⟨_, List.mem_cons_self, rfl, s, hlv, hK.refl s (h2.lives _ s hlv).1⟩
  | fail shift st st' live log torn rid s r _ hlv hl hg hf hs hp ih =>
    obtain ⟨h1, h2⟩ := ih
    have hgood : ∀ a, Compared o shift k.ops st rid a → Good a s := by
      intro a ha
      obtain ⟨⟨g1, g2⟩, _⟩ := compared_keeps hsim hlaw hK (hsim.reach h1) h2 hlv ha
      exact hK.good a s g1 (h2.lives rid s hlv).1 g2 (hg a ha)
    have h3 := RReach.fail shift st st' log torn rid s r h1 hl hgood hf hs hp
    have hst : st' = st := by
      unfold bsave at hs
      cases hx : bplan o shift k.ops st rid none s with
      | err => rw [hx] at hs; cases hs; rfl
      | panic => rw [hx] at hs; cases hs; rfl
      | ok x =>
        obtain ⟨name, f, r'⟩ := x
        have hx' := hx
        rw [hsim.plan o shift st rid s hgood] at hx'
        obtain ⟨ist, hsm⟩ := (hsim.reach h1).sim hlaw
        obtain ⟨p', rfl, _⟩ := hsm.plan_shape hlaw ((seen_length α log).trans_lt hl) shift rid (α s) name f _ hx'
        rw [hx, Res.bind_ok] at hs
        cases hc : phaseFile f.1 f.2 with
        | err => rw [hc] at hs; cases hs; rfl
        | panic => rw [hc] at hs; cases hs; rfl
        | ok c =>
          rw [hc] at hs
          exact absurd (congrArg Prod.snd hs).symm (hp p')
    subst hst
    exact ⟨h3, h2⟩
  | interrupt shift st live log torn rid s name c f p n _ hlv hl hg hp hf hc ih =>
    obtain ⟨h1, h2⟩ := ih
    have hgood : ∀ a, Compared o shift k.ops st rid a → Good a s := by
      intro a ha
      obtain ⟨⟨g1, g2⟩, _⟩ := compared_keeps hsim hlaw hK (hsim.reach h1) h2 hlv ha
      exact hK.good a s g1 (h2.lives rid s hlv).1 g2 (hg a ha)
    have h3 := RReach.interrupt shift st log torn rid s name c f p n h1 hl hgood hp hf hc
    have hp' := hp
    rw [hsim.plan o shift st rid s hgood] at hp'
    refine ⟨h3, h2.lives, ?_, chain_add hlaw hK (hsim.reach h1) h2 hl hlv hp' rfl (hsim.reach h3), fun r q hq => ?_⟩
    · intro e he
      rcases List.mem_cons.1 he with rfl | he
      · exact h2.lives rid s hlv
      · exact h2.logs e he
    · obtain ⟨e, he, h4⟩ := h2.base r q hq
      exact ⟨e, List.mem_cons_of_mem _ he, h4⟩
  | load st live log torn h p rid y _ hh hp hn hy ih =>
    obtain ⟨h1, h2⟩ := ih
    have h3 := RReach.load st log torn h p rid h1 hh hp
    have hst : (bloadFile o k.ops st h p rid).1 = ⟨st.dir, some (rid, p)⟩ := by
      unfold bloadFile
      rw [hy]
    obtain ⟨e, he, rfl⟩ : ∃ e ∈ log, e.1 = p := by
      obtain ⟨h0, hh0, hlist, _⟩ := C38_interrupted_saves o k' hlaw st _ torn (hsim.reach h1)
      rw [hh] at hh0
      cases hh0
      rw [hlist, List.mem_reverse] at hp
      obtain ⟨e, he, hep⟩ := List.mem_map.1 hp
      obtain ⟨e', he', rfl⟩ := mem_seen he
      exact ⟨e', he', hep⟩
    obtain ⟨⟨g1, g2, _⟩, _⟩ := loaded_keeps hsim hlaw hK (hsim.reach h1) h2 h hh e he y hy
    refine ⟨h3, lives_set h2.lives ⟨g1, hK.trans _ _ _ hK.src (h2.logs e he).2 g2⟩, h2.logs, ?_, fun r q hq => ?_⟩
    · rw [hst]
      exact h2.chain
    · rw [hst] at hq
      cases hq
      exact ⟨e, he, rfl, y, set_same _ _ _, g2⟩
  | unloaded st live log torn h p rid _ hh hp hn hy ih =>
    obtain ⟨h1, h2⟩ := ih
    have h3 := RReach.load st log torn h p rid h1 hh hp
    have hst : (bloadFile o k.ops st h p rid).1 = st := by
      unfold bloadFile
      cases hb : bload o k.ops st.dir h p with
      | ok y => exact absurd hb (hy y)
      | err => rfl
      | panic => rfl
    rw [hst] at h3 ⊢
    exact ⟨h3, h2⟩
  | list st dir live log torn _ hp ih =>
    obtain ⟨h1, h2⟩ := ih
    have h3 := RReach.list st dir log torn h1 hp
    refine ⟨h3, h2.lives, h2.logs, fun h' hh' e he rev hrev => ?_, h2.base⟩
    obtain ⟨h, hh, _⟩ := C38_interrupted_saves o k' hlaw st _ torn (hsim.reach h1)
    have := chain_old hlaw (hsim.reach h1) (hsim.reach h3) (fun e he => he) h h' hh hh' (e.1, α e.2) (seen_mem he) rev hrev
    exact h2.chain h hh e he rev this
  | restart st live log torn _ ih =>
    obtain ⟨h1, h2⟩ := ih
    refine ⟨.restart st log torn h1, ⟨?_, h2.logs, h2.chain, ?_⟩⟩
    · intro _ _ h; cases h
    · intro _ _ h; cases h

end
end Verif.History
