import Verif.Lemmas.HistorySession
/-!
# Histories whose diffs do not restore what was saved

A diff need not give back what was saved. What it gives back is what the history holds: a run of the real functions is a run of functions
on what the diffs give back, together with the diffs themselves, and those are lawful whatever the real ones are.
-/
namespace Verif.History
open VarInt FileName FileHistory Phase Codec Source

section
variable {S : Type}

/-! ## What is stored -/

theorem norm_norm (x : KVal) : norm (norm x) = norm x := by cases x <;> rfl

theorem valid_norm {x : KVal} (h : Valid x) : Valid (norm x) := by cases x <;> exact h

theorem encode_norm (l : List KVal) : encodeVals (l.map norm) = encodeVals l := by
  have h1 : ∀ x, encodePanics (norm x) = encodePanics x := fun x => by cases x <;> rfl
  have h2 : ∀ x, tagBits (norm x) = tagBits x := fun x => by cases x <;> rfl
  have h3 : ∀ x, dataBytes (norm x) = dataBytes x := fun x => by cases x <;> rfl
  unfold encodeVals
  rw [List.length_map, List.any_map, List.flatMap_map, List.flatMap_map]
  have e1 : (encodePanics ∘ norm) = encodePanics := funext h1
  simp only [e1, h2, h3]

/-- An object that files are composed to, the last of the diffs, and what it was applied to. -/
abbrev Stored (S : Type) := S × List KVal × S

/-- the values can be encoded, and what is encoded is not too long -/
def Short (d : List KVal) : Prop := (∀ x ∈ d, Valid x) ∧ d.length < 2 ^ 63 ∧ ∀ out, encodeVals d = .ok out → out.length < 2 ^ 63

/-- `b` is stored by applying its diff to `a` -/
def Writes (k : KOps S) (a b : Stored S) : Prop := b.2.1.map norm = b.2.1 ∧ Short b.2.1 ∧ b.2.2 = a.1 ∧ k.app a.1 b.2.1 = .ok b.1

open Classical in
/-- The functions of a history on what it stores. -/
noncomputable def storeOps (k : KOps S) : KOps (Stored S) where
  src := (k.src, [], k.src)
  diff a b := if Writes k a b then .ok b.2.1 else .err
  app a v := (k.app a.1 v).map fun r => (r, v, a.1)

theorem storeOps_lawful (k : KOps S) : (storeOps k).Lawful := by
  intro a b v h
  unfold storeOps at h
  simp only at h
  split at h
  · rename_i hw
    cases h
    obtain ⟨h1, h2, h3, h4⟩ := hw
    refine ⟨h2.1, h2.2.1, h2.2.2, ?_⟩
    unfold storeOps
    simp only
    rw [h1, h4, Res.map_ok, ← h3]
  · cases h

theorem store_simulates (k : KOps S) : Simulates (storeOps k) k Prod.fst (fun _ => True) (fun _ _ => False) where
  src := rfl
  inv := trivial
  keep _ _ _ _ _ := trivial
  app a v _ := by
    unfold storeOps
    simp only
    cases k.app a.1 v <;> rfl
  diff _ _ _ h := h.elim

/-- What a save does, in terms of what is stored. -/
theorem store_plan {k : KOps S} {o : Opts} {shift : Shift} {st : BSt} {rid : Nat} {s : S} {x : Bytes × File × Res Props}
    (h : bplan o shift k.ops st rid none s = .ok x) : ∃ a vals, Compared o shift k.ops st rid a ∧ k.diff a s = .ok vals ∧
      ∀ r, Short vals → k.app a (vals.map norm) = .ok r → bplan o shift (storeOps k).ops st rid none (r, vals.map norm, a) = .ok x := by
  unfold bplan at h
  rw [plan_eq] at h
  obtain ⟨a, ha, h⟩ := bind_inv h
  obtain ⟨d, hd, h⟩ := bind_inv h
  obtain ⟨vals, hv, he⟩ := bind_inv hd
  refine ⟨a, vals, ha, hv, fun r hs hr => ?_⟩
  have hm := planBase_map (α := Prod.fst) o shift (st.dir.map (·.1)) st.base (bstat st.dir)
    (fun l => bcompose (storeOps k).ops st.dir l (storeOps k).ops.src) (fun l => bcompose k.ops st.dir l k.ops.src)
    (fun l => ((store_simulates k).composeSrc st.dir l).1) rid none
  rw [ha] at hm
  obtain ⟨c, hc, hca⟩ := map_inv hm
  have hw : Writes k c (r, vals.map norm, a) := by
    refine ⟨?_, ⟨?_, ?_, ?_⟩, hca.symm, ?_⟩
    · simp only [List.map_map]
      exact List.map_congr_left fun x _ => norm_norm x
    · intro x hx
      obtain ⟨y, hy, rfl⟩ := List.mem_map.1 hx
      exact valid_norm (hs.1 y hy)
    · simpa using hs.2.1
    · intro out ho
      rw [encode_norm] at ho
      exact hs.2.2 out ho
    · rw [hca]; exact hr
  unfold bplan
  rw [plan_eq, hc, Res.bind_ok]
  have : (storeOps k).ops.diff c (r, vals.map norm, a) = .ok d := by
    show ((storeOps k).diff c _).bind encodeVals = _
    unfold storeOps
    simp only
    rw [if_pos hw, Res.bind_ok, encode_norm]
    exact he
  rw [this, Res.bind_ok]
  exact h

/-! ## Runs -/

/-- What sessions keep (`K`) of objects (`Ok`), and what a diff restores (`Loose`). -/
structure Rough (k : KOps S) (Ok : S → Prop) (K Edits Fine Loose : S → S → Prop) : Prop where
  src : Ok k.src
  refl : ∀ a, Ok a → K a a
  trans : ∀ a b c, Ok a → K a b → K b c → K a c
  edit : ∀ a b, Ok a → Edits a b → Ok b ∧ K a b
  diff : ∀ a s vals, Ok a → Ok s → K a s → Fine a s → k.diff a s = .ok vals →
    Short vals ∧ ∃ r, k.app a (vals.map norm) = .ok r ∧ Ok r ∧ K a r ∧ K r s ∧ Loose r s

/-- What is kept along the chains of a history, of what it stores. -/
structure LInv (o : Opts) (k : KOps S) (Ok : S → Prop) (K Loose : S → S → Prop) (st : BSt) (live : Live S) (log : List (Props × S))
    (store : List (Props × Stored S)) : Prop where
  lives : ∀ rid s, live rid = some s → Ok s ∧ K k.src s
  logs : ∀ e ∈ store, Ok e.2.1 ∧ K k.src e.2.1
  pairs : List.Forall₂ (fun e e' => e'.1 = e.1 ∧ Loose e'.2.1 e.2) log store
  chain : ∀ h, st.history = .ok h → ∀ e ∈ store, ∀ rev, ancestorsRev h e.1 o.maxPhase o.cumulative.isSome = .ok rev →
    ∀ q ∈ rev, ∃ e' ∈ store, e'.1 = q ∧ K e'.2.1 e.2.1
  base : ∀ rid p, st.base = some (rid, p) → ∃ e ∈ store, e.1 = p ∧ ∃ s, live rid = some s ∧ K e.2.1 s

variable {k : KOps S} {Ok : S → Prop} {K Edits Fine Loose : S → S → Prop} {o : Opts} {st st' : BSt} {live : Live S} {log : List (Props × S)}
  {store : List (Props × Stored S)} {torn torn' : List Props}

theorem LInv.length (hi : LInv o k Ok K Loose st live log store) : store.length = log.length := hi.pairs.length_eq.symm

theorem take_last {l m : List Props} {n : Nat} (h : m = l.take n) (hm : m ≠ []) : ∃ j, j < l.length ∧ m = l.take (j + 1) := by
  have h0 : n ≠ 0 := by rintro rfl; exact hm (by rw [h, List.take_zero])
  have h1 : l.length ≠ 0 := by
    intro hc
    rw [List.length_eq_zero_iff] at hc
    exact hm (by rw [h, hc, List.take_nil])
  by_cases hle : n ≤ l.length
  · exact ⟨n - 1, by omega, by rw [h]; congr 1; omega⟩
  · exact ⟨l.length - 1, by omega, by rw [h, List.take_of_length_le (by omega), List.take_of_length_le (by omega)]⟩

/-- What is loaded from a file is what is stored. -/
theorem loaded_stored (hr : BReach o (storeOps k).ops st store torn) (h : Hist) (hh : st.history = .ok h) (e : Props × Stored S) (he : e ∈ store)
    (y : S) (hy : bload o k.ops st.dir h e.1 = .ok y) : y = e.2.1 := by
  obtain ⟨h0, hh0, _, _, hl⟩ := C38_interrupted_saves o _ (storeOps_lawful k) st _ torn hr
  rw [hh] at hh0
  cases hh0
  obtain ⟨g1, g2, g3⟩ := hl e.1 e.2 he
  have g4 := ((store_simulates k).load o st.dir h e.1).1
  rw [hy] at g4
  obtain ⟨z, hz, rfl⟩ := map_inv g4
  by_cases ht : e.1 ∈ torn
  · rw [g3 ht] at hz; cases hz
  · by_cases hlo : Lost o store e.1
    · rw [g2 ht hlo] at hz; cases hz
    · rw [g1 ht hlo] at hz
      cases hz
      rfl

/-- What a save compares with is the object of the source or one that is stored, and kept by what is saved. -/
theorem compared_stored (hK : Rough k Ok K Edits Fine Loose) (hr : BReach o (storeOps k).ops st store torn) (hi : LInv o k Ok K Loose st live log store)
    {shift : Shift} {rid : Nat} {s a : S} (hs : live rid = some s) (ha : Compared o shift k.ops st rid a) :
    Ok a ∧ K k.src a ∧ K a s ∧ (a = k.src ∨ ∃ e ∈ store, a = e.2.1) := by
  have hlaw := storeOps_lawful k
  have src : ∀ {dir : BDir}, bcompose k.ops dir [] k.ops.src = .ok a → Ok a ∧ K k.src a ∧ K a s ∧ (a = k.src ∨ ∃ e ∈ store, a = e.2.1) := by
    intro dir h
    cases h
    exact ⟨hK.src, hK.refl _ hK.src, (hi.lives rid s hs).2, .inl rfl⟩
  unfold Compared planBase at ha
  obtain ⟨h, hh, ha⟩ := bind_inv ha
  have hh : st.history = .ok h := hh
  cases hb : baseFor st.base rid with
  | none => rw [hb] at ha; exact src ha
  | some b =>
    rw [hb] at ha
    cases hn : h.newest with
    | none => rw [hn] at ha; exact src ha
    | some newest =>
      rw [hn] at ha
      simp only at ha
      cases hf : fromFile o h b newest with
      | none => rw [hf] at ha; cases ha
      | some f =>
        rw [hf] at ha
        obtain ⟨data, _, ha⟩ := bind_inv ha
        obtain ⟨next, _, ha⟩ := bind_inv ha
        obtain ⟨revf, hrf, ha⟩ := bind_inv ha
        obtain ⟨dp, hdp, ha⟩ := bind_inv ha
        have hbase := baseFor_inv hb
        obtain ⟨eb, heb, rfl, s', hs', hkb⟩ := hi.base rid b hbase
        rw [hs] at hs'
        cases hs'
        obtain ⟨rev, hrev, hsub, hfo, hfl⟩ := base_chain hlaw hr h hh eb heb newest f hf revf hrf
        have hpre : ∃ n, dp.1 = revf.reverse.take n := by
          obtain ⟨r, rfl, _⟩ := ancestorsRev_shape _ _ _ _ _ hrf
          obtain ⟨ord, prev, _, _, hdeps⟩ := createDependencies_ok _ f (by simp) _ _ _ _ _ _ _ hdp
          rw [hdeps]
          split
          · exact ⟨(f :: r).reverse.length, (List.take_length).symm⟩
          · exact ⟨next, rfl⟩
        obtain ⟨n, hn'⟩ := hpre
        by_cases hnil : dp.1 = []
        · rw [hnil] at ha; exact src ha
        · obtain ⟨j, hj, hdj⟩ := take_last hn' hnil
          obtain ⟨ist, hsm⟩ := hr.sim hlaw
          obtain ⟨h0, hh0, hkn⟩ := hsm.ideal.inv.history
          have hhi := hh
          rw [hsm.history, hh0] at hhi
          cases hhi
          have hkd := keyed_of_hwf h hkn.1
          obtain ⟨hq, _⟩ := ancestorsRev_get h hkd _ _ f revf hfo hfl hrf j _ (List.getElem?_eq_getElem hj)
          have hqm : revf.reverse[j] ∈ rev := hsub _ (List.mem_reverse.1 (List.getElem_mem hj))
          obtain ⟨e', he', heq, hke⟩ := hi.chain h hh eb heb rev hrev _ hqm
          rw [← heq, ← hdj] at hq
          have hload : bload o k.ops st.dir h e'.1 = .ok a := by
            unfold bload
            rw [hsm.ideal.inv.analyze_file e' he']
            simp only [Res.bind_ok]
            rw [hq, Res.bind_ok, List.reverse_reverse]
            exact ha
          have := loaded_stored hr h hh e' he' a hload
          subst this
          exact ⟨(hi.logs e' he').1, (hi.logs e' he').2, hK.trans _ _ _ (hi.logs e' he').1 hke hkb, .inr ⟨e', he', rfl⟩⟩

/-- What a save stores. -/
theorem plan_stored (hK : Rough k Ok K Edits Fine Loose) (hr : BReach o (storeOps k).ops st store torn) (hi : LInv o k Ok K Loose st live log store)
    {shift : Shift} {rid : Nat} {s : S} (hs : live rid = some s) (hg : ∀ a, Compared o shift k.ops st rid a → Fine a s)
    {x : Bytes × File × Res Props} (hp : bplan o shift k.ops st rid none s = .ok x) :
    ∃ b : Stored S, bplan o shift (storeOps k).ops st rid none b = .ok x ∧ Ok b.1 ∧ K k.src b.1 ∧ K b.2.2 b.1 ∧ K b.1 s ∧ Loose b.1 s := by
  obtain ⟨a, vals, ha, hv, h⟩ := store_plan hp
  obtain ⟨g1, g2, g3, _⟩ := compared_stored hK hr hi hs ha
  obtain ⟨h1, r, h2, h3, h4, h5, h6⟩ := hK.diff a s vals g1 (hi.lives rid s hs).1 g3 (hg a ha) hv
  exact ⟨(r, vals.map norm, a), h r h1 h2, h3, hK.trans _ _ _ hK.src g2 h4, h4, h5, h6⟩

/-- A save keeps what is kept along chains. -/
theorem chain_stored (hK : Rough k Ok K Edits Fine Loose) (hr : BReach o (storeOps k).ops st store torn) (hi : LInv o k Ok K Loose st live log store)
    (hl : log.length < 10 ^ 8 - 1) {shift : Shift} {rid : Nat} {b : Stored S} {name : Bytes} {f : File} {p : Props}
    (hp : bplan o shift (storeOps k).ops st rid none b = .ok (name, f, .ok p)) (hb : Ok b.1) (hkb : K b.2.2 b.1) {c : Bytes}
    (hd : st'.dir = st.dir.write name c) (hr' : BReach o (storeOps k).ops st' ((p, b) :: store) torn') :
    ∀ h, st'.history = .ok h → ∀ e ∈ (p, b) :: store, ∀ rev, ancestorsRev h e.1 o.maxPhase o.cumulative.isSome = .ok rev →
      ∀ q ∈ rev, ∃ e' ∈ (p, b) :: store, e'.1 = q ∧ K e'.2.1 e.2.1 := by
  have hlaw := storeOps_lawful k
  intro h' hh' e he rev hrev q hq
  obtain ⟨ist, hsm⟩ := hr.sim hlaw
  have hl' : store.length < 10 ^ 8 - 1 := hi.length.trans_lt hl
  obtain ⟨p', hpp, rfl, _, hsv, _⟩ := hsm.plan_shape hlaw hl' shift rid b name f _ hp
  cases hpp
  obtain ⟨h, hh, hkn⟩ := hsm.ideal.inv.history
  have hhb : st.history = .ok h := by rw [hsm.history, hh]
  rcases List.mem_cons.1 he with rfl | he
  · have hfresh := (save_inv hsm.ideal.inv hl' shift (storeOps k).ops rid b p hsv).1
    have hri := Reach.save shift ist _ _ rid b p hsm.ideal hl' hsv
    have hhi : St.history ⟨ist.dir.write p.filename f, some (rid, p)⟩ = .ok h' := by
      rw [← hh']
      unfold St.history BSt.history
      simp only
      rw [hd, bwrite_names, hsm.names, if_neg hfresh, names_write _ _ _ hfresh]
    rcases save_chain hsm.ideal.inv hl' shift (storeOps k).ops rid b p hsv h h' hh hhi with ⟨deps, c0, d, _, h1, hc0, hdf, _, h2⟩ | hlo
    · rw [hrev] at h1
      cases h1
      rcases List.mem_cons.1 hq with rfl | hq
      · exact ⟨_, List.mem_cons_self, rfl, hK.refl _ hb⟩
      · rcases h2 with rfl | ⟨b0, newest, g, revf, hb0, hnw, hff, hrf, hsub, n, hn⟩
        · cases hq
        · have hbase : st.base = some (rid, b0) := by
            rw [hsm.base]
            exact baseFor_inv hb0
          obtain ⟨eb, heb, rfl, _⟩ := hi.base rid b0 hbase
          obtain ⟨rev', hrev', hsub', hfo, hfl⟩ := base_chain hlaw hr h hhb eb heb newest g hff revf hrf
          have hnil : deps ≠ [] := by rintro rfl; cases hq
          obtain ⟨j, hj, hdj⟩ := take_last hn hnil
          have hkd := keyed_of_hwf h hkn.1
          obtain ⟨hq', _⟩ := ancestorsRev_get h hkd _ _ g revf hfo hfl hrf j _ (List.getElem?_eq_getElem hj)
          have hqm : revf.reverse[j] ∈ rev' := hsub' _ (List.mem_reverse.1 (List.getElem_mem hj))
          obtain ⟨e', he', heq, _⟩ := hi.chain h hhb eb heb rev' hrev' _ hqm
          rw [← heq, ← hdj] at hq'
          -- what is compared is what is stored for `e'`
          have hload : load o (storeOps k).ops ist.dir h e'.1 = .ok c0 := by
            unfold load
            rw [hsm.ideal.inv.analyze_file e' he']
            simp only [Res.bind_ok]
            rw [hq', Res.bind_ok, List.reverse_reverse]
            exact hc0
          obtain ⟨h9, hh9, hl9⟩ := C29_load_saved_partial o (storeOps k).ops hlaw.ops ist store hsm.ideal
          rw [hh] at hh9
          cases hh9
          have hce : c0 = e'.2 := by
            by_cases hlo : Lost o store e'.1
            · rw [(hl9 e'.1 e'.2 he').2 hlo] at hload; cases hload
            · rw [(hl9 e'.1 e'.2 he').1 hlo] at hload; cases hload; rfl
          have hbc : b.2.2 = c0.1 := by
            obtain ⟨v, hv, _⟩ := bind_inv hdf
            unfold storeOps at hv
            simp only at hv
            split at hv
            · rename_i hw; exact hw.2.2.1
            · cases hv
          obtain ⟨e'', he'', h4, h5⟩ := hi.chain h hhb e' he' _ hq' q hq
          refine ⟨e'', List.mem_cons_of_mem _ he'', h4, hK.trans _ _ _ (hi.logs e'' he'').1 h5 ?_⟩
          rw [← hce, ← hbc]
          exact hkb
    · have h3 := lost_no_chain hri h' hhi (p, b) (by simp) hlo
      rw [hrev] at h3
      cases h3
  · have := chain_old hlaw hr hr' (fun e he => List.mem_cons_of_mem _ he) h h' hhb hh' e he rev hrev
    obtain ⟨e', he', h1, h2⟩ := hi.chain h hhb e he rev this q hq
    exact ⟨e', List.mem_cons_of_mem _ he', h1, h2⟩

/-- **Sessions.** A run with sessions of edits is a run of what is stored. -/
theorem EReach.stored (hK : Rough k Ok K Edits Fine Loose) (hr : EReach o k.ops Edits Fine st live log torn) :
    ∃ store, BReach o (storeOps k).ops st store torn ∧ LInv o k Ok K Loose st live log store := by
  have hlaw := storeOps_lawful k
  induction hr with
  | start dir hn hf =>
    refine ⟨[], .start dir hn hf, ⟨?_, ?_, .nil, ?_, ?_⟩⟩
    · intro _ _ h; cases h
    · intro _ h; cases h
    · intro _ _ _ h; cases h
    · intro _ _ h; cases h
  | create st live log torn rid _ hn ih =>
    obtain ⟨store, h1, h2⟩ := ih
    refine ⟨store, h1, lives_set h2.lives ⟨hK.src, hK.refl _ hK.src⟩, h2.logs, h2.pairs, h2.chain, fun r p hb => ?_⟩
    obtain ⟨e, he, hp, s, hs, hk⟩ := h2.base r p hb
    refine ⟨e, he, hp, s, ?_, hk⟩
    rw [set_ne, hs]
    rintro rfl
    rw [hn] at hs
    cases hs
  | copy st live log torn rid new s _ hs hn ih =>
    obtain ⟨store, h1, h2⟩ := ih
    refine ⟨store, h1, lives_set h2.lives (h2.lives rid s hs), h2.logs, h2.pairs, h2.chain, fun r p hb => ?_⟩
    obtain ⟨e, he, hp, x, hx, hk⟩ := h2.base r p hb
    refine ⟨e, he, hp, x, ?_, hk⟩
    rw [set_ne, hx]
    rintro rfl
    rw [hn] at hx
    cases hx
  | edit st live log torn rid s t _ hs he ih =>
    obtain ⟨store, h1, h2⟩ := ih
    obtain ⟨g1, g2⟩ := h2.lives rid s hs
    obtain ⟨g3, g4⟩ := hK.edit s t g1 he
    refine ⟨store, h1, lives_set h2.lives ⟨g3, hK.trans _ _ _ hK.src g2 g4⟩, h2.logs, h2.pairs, h2.chain, fun r p hb => ?_⟩
    obtain ⟨e, he, hp, x, hx, hk⟩ := h2.base r p hb
    by_cases hrr : r = rid
    · subst hrr
      rw [hs] at hx
      cases hx
      exact ⟨e, he, hp, t, set_same _ _ _, hK.trans _ _ _ (h2.logs e he).1 hk g4⟩
    · exact ⟨e, he, hp, x, by rw [set_ne _ _ hrr, hx], hk⟩
  | save shift st st' live log torn rid s p _ hlv hl hg hf hs ih =>
    obtain ⟨store, h1, h2⟩ := ih
    obtain ⟨name, f, c, hp, hc, rfl⟩ : ∃ name f c, bplan o shift k.ops st rid none s = .ok (name, f, .ok p) ∧
        phaseFile f.1 f.2 = .ok c ∧ st' = ⟨st.dir.write name c, some (rid, p)⟩ := by
      unfold bsave at hs
      cases hx : bplan o shift k.ops st rid none s with
      | err => rw [hx] at hs; cases hs
      | panic => rw [hx] at hs; cases hs
      | ok x =>
        obtain ⟨name, f, r⟩ := x
        rw [hx, Res.bind_ok] at hs
        cases hc : phaseFile f.1 f.2 with
        | err => rw [hc] at hs; cases hs
        | panic => rw [hc] at hs; cases hs
        | ok c =>
          rw [hc] at hs
          simp only [Res.map, Prod.mk.injEq] at hs
          obtain ⟨rfl, rfl⟩ := hs
          exact ⟨name, f, c, rfl, hc, rfl⟩
    obtain ⟨b, hpb, g1, g2, g3, g4, g5⟩ := plan_stored hK h1 h2 hlv hg hp
    have hsb : bsave o shift (storeOps k).ops st rid none b = (⟨st.dir.write name c, some (rid, p)⟩, .ok p) := by
      unfold bsave
      rw [hpb, Res.bind_ok]
      simp only [hc]
      rfl
    have h3 := BReach.save shift st _ store torn rid b p h1 (h2.length.trans_lt hl)
      (fun x hx => by rw [hpb] at hx; cases hx; exact hf _ hp) hsb
    refine ⟨_, h3, h2.lives, ?_, .cons ⟨rfl, g5⟩ h2.pairs, chain_stored hK h1 h2 hl hpb g1 g3 rfl h3, fun r q hq => ?_⟩
    · intro e he
      rcases List.mem_cons.1 he with rfl | he
      · exact ⟨g1, g2⟩
      · exact h2.logs e he
    · cases hq
      exact ⟨_, List.mem_cons_self, rfl, s, hlv, g4⟩
  | fail shift st st' live log torn rid s r _ hlv hl hg hf hs hp ih =>
    obtain ⟨store, h1, h2⟩ := ih
    have hst : st' = st := by
      unfold bsave at hs
      cases hx : bplan o shift k.ops st rid none s with
      | err => rw [hx] at hs; cases hs; rfl
      | panic => rw [hx] at hs; cases hs; rfl
      | ok x =>
        obtain ⟨name, f, r'⟩ := x
        obtain ⟨b, hpb, _⟩ := plan_stored hK h1 h2 hlv hg hx
        obtain ⟨ist, hsm⟩ := h1.sim hlaw
        obtain ⟨p', rfl, _⟩ := hsm.plan_shape hlaw (h2.length.trans_lt hl) shift rid b name f _ hpb
        rw [hx, Res.bind_ok] at hs
        cases hc : phaseFile f.1 f.2 with
        | err => rw [hc] at hs; cases hs; rfl
        | panic => rw [hc] at hs; cases hs; rfl
        | ok c =>
          rw [hc] at hs
          exact absurd (congrArg Prod.snd hs).symm (hp p')
    subst hst
    exact ⟨store, h1, h2⟩
  | interrupt shift st live log torn rid s name c f p n _ hlv hl hg hp hf hc ih =>
    obtain ⟨store, h1, h2⟩ := ih
    obtain ⟨b, hpb, g1, g2, g3, g4, g5⟩ := plan_stored hK h1 h2 hlv hg hp
    have h3 := BReach.interrupt shift st store torn rid b name c f p n h1 (h2.length.trans_lt hl) hpb hf hc
    refine ⟨_, h3, h2.lives, ?_, .cons ⟨rfl, g5⟩ h2.pairs, chain_stored hK h1 h2 hl hpb g1 g3 rfl h3, fun r q hq => ?_⟩
    · intro e he
      rcases List.mem_cons.1 he with rfl | he
      · exact ⟨g1, g2⟩
      · exact h2.logs e he
    · obtain ⟨e, he, h4⟩ := h2.base r q hq
      exact ⟨e, List.mem_cons_of_mem _ he, h4⟩
  | load st live log torn h p rid y _ hh hp hn hy ih =>
    obtain ⟨store, h1, h2⟩ := ih
    have h3 := BReach.load st store torn h p rid h1 hh hp
    rw [(store_simulates k).loadFile] at h3
    have hst : (bloadFile o k.ops st h p rid).1 = ⟨st.dir, some (rid, p)⟩ := by
      unfold bloadFile
      rw [hy]
    obtain ⟨e, he, rfl⟩ : ∃ e ∈ store, e.1 = p := by
      obtain ⟨h0, hh0, hlist, _⟩ := C38_interrupted_saves o _ hlaw st _ torn h1
      rw [hh] at hh0
      cases hh0
      rw [hlist, List.mem_reverse] at hp
      exact List.mem_map.1 hp
    have := loaded_stored h1 h hh e he y hy
    subst this
    refine ⟨store, h3, lives_set h2.lives (h2.logs e he), h2.logs, h2.pairs, ?_, fun r q hq => ?_⟩
    · rw [hst]
      exact h2.chain
    · rw [hst] at hq
      cases hq
      exact ⟨e, he, rfl, _, set_same _ _ _, hK.refl _ (h2.logs e he).1⟩
  | unloaded st live log torn h p rid _ hh hp hn hy ih =>
    obtain ⟨store, h1, h2⟩ := ih
    have hst : (bloadFile o k.ops st h p rid).1 = st := by
      unfold bloadFile
      cases hb : bload o k.ops st.dir h p with
      | ok y => exact absurd hb (hy y)
      | err => rfl
      | panic => rfl
    rw [hst]
    exact ⟨store, h1, h2⟩
  | list st dir live log torn _ hp ih =>
    obtain ⟨store, h1, h2⟩ := ih
    have h3 := BReach.list st dir store torn h1 hp
    refine ⟨store, h3, h2.lives, h2.logs, h2.pairs, fun h' hh' e he rev hrev => ?_, h2.base⟩
    obtain ⟨h, hh, _⟩ := C38_interrupted_saves o _ hlaw st _ torn h1
    have := chain_old hlaw h1 h3 (fun e he => he) h h' hh hh' e he rev hrev
    exact h2.chain h hh e he rev this
  | restart st live log torn _ ih =>
    obtain ⟨store, h1, h2⟩ := ih
    refine ⟨store, .restart st store torn h1, ⟨?_, h2.logs, h2.pairs, h2.chain, ?_⟩⟩
    · intro _ _ h; cases h
    · intro _ _ h; cases h

end
end Verif.History
