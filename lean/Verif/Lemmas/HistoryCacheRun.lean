import Verif.Lemmas.HistoryCache
/-!
# Runs with the cache

A run of a program that keeps a cache is a run, without a cache, on what the files give when nothing is taken from a cache.
-/
namespace Verif.History
open VarInt FileName FileHistory Phase Codec Source

section
variable {S I : Type} {k : KOps S} {diffs : I → S → S → Res (List KVal)} {Ok : S → Prop} {K Edits : S → S → Prop} {Fine : I → S → S → Prop} {Alike : S → S → Prop} {o : Opts}
  {st st' : BSt} {c c' : Cache S} {live : Live S} {log : List (Props × S)} {store : List (Props × Stored S)} {torn torn' : List Props}

theorem CInv.length (hi : CInv o k Ok K Alike st c live log store torn) : store.length = log.length := hi.pairs.length_eq.symm

theorem bapplyCaching_withDiff (k : KOps S) (d : S → S → Res (List KVal)) (dir : BDir) (m : Nat) (l : List Props) (cur : Nat) (s : S)
    (c : Cache S) : bapplyCaching (k.withDiff d).ops dir m l cur s c = bapplyCaching k.ops dir m l cur s c := by
  induction l generalizing cur s c with
  | nil => rfl
  | cons p l ih =>
    rw [bapplyCaching, bapplyCaching]
    have : bapplyOne (k.withDiff d).ops dir p s = bapplyOne k.ops dir p s := rfl
    rw [this]
    cases bapplyOne k.ops dir p s with
    | err => rfl
    | panic => rfl
    | ok s' =>
      simp only
      rw [ih, ih]

theorem bapplyForSave_withDiff (k : KOps S) (d : S → S → Res (List KVal)) (dir : BDir) (l : List Props) (c : Cache S) :
    bapplyForSave o (k.withDiff d).ops dir l c = bapplyForSave o k.ops dir l c := by
  unfold bapplyForSave
  have : (k.withDiff d).ops.src = k.ops.src := rfl
  rw [this]
  cases getCachedItem k.ops.src c l o.maxPhase with
  | err => rfl
  | panic => rfl
  | ok r => exact bapplyCaching_withDiff k d dir _ _ _ _ _

/-- The files that a save depends on are a chain of complete files, which the saved object keeps. -/
theorem deps_good (hr : BReach o (storeOps k).ops st store torn) (hi : CInv o k Ok K Alike st c live log store torn)
    {shift : Shift} {rid : Nat} {s : S} (hs : live rid = some s) {l : List Props} (hl : planDeps o shift st rid = .ok l) (h : Hist)
    (hh : st.history = .ok h) :
    BGood o k st h store torn l ∧ (∀ q ∈ l, q ∉ torn) ∧ ∀ q ∈ l, ∃ e ∈ store, e.1 = q ∧ K e.2.1 s := by
  have hlaw := storeOps_lawful k
  have nil : BGood o k st h store torn [] ∧ (∀ q ∈ ([] : List Props), q ∉ torn) ∧
      ∀ q ∈ ([] : List Props), ∃ e ∈ store, e.1 = q ∧ K e.2.1 s :=
    ⟨fun j a ha => (nomatch ha), fun q hq => (nomatch hq), fun q hq => (nomatch hq)⟩
  unfold planDeps planBase at hl
  obtain ⟨h0, hh0, hl⟩ := bind_inv hl
  have hh0 : st.history = .ok h0 := hh0
  rw [hh] at hh0
  cases hh0
  cases hb : baseFor st.base rid with
  | none => rw [hb] at hl; cases hl; exact nil
  | some b =>
    rw [hb] at hl
    cases hn : h.newest with
    | none => rw [hn] at hl; cases hl; exact nil
    | some newest =>
      rw [hn] at hl
      simp only at hl
      cases hf : fromFile o h b newest with
      | none => rw [hf] at hl; cases hl
      | some f =>
        rw [hf] at hl
        obtain ⟨data, _, hl⟩ := bind_inv hl
        obtain ⟨next, _, hl⟩ := bind_inv hl
        obtain ⟨revf, hrf, hl⟩ := bind_inv hl
        obtain ⟨dp, hdp, hl⟩ := bind_inv hl
        cases hl
        have hbase := baseFor_inv hb
        obtain ⟨eb, heb, rfl, s', hs', hkb⟩ := hi.base rid b hbase
        rw [hs] at hs'
        cases hs'
        obtain ⟨rev, hrev, hsub, _, _⟩ := base_chain hlaw hr h hh eb heb newest f hf revf hrf
        obtain ⟨n, hn'⟩ : ∃ n, dp.1 = revf.reverse.take n := by
          obtain ⟨r, rfl, _⟩ := ancestorsRev_shape _ _ _ _ _ hrf
          obtain ⟨ord, prev, _, _, hdeps⟩ := createDependencies_ok _ f (by simp) _ _ _ _ _ _ _ hdp
          rw [hdeps]
          split
          · exact ⟨(f :: r).reverse.length, (List.take_length).symm⟩
          · exact ⟨next, rfl⟩
        obtain ⟨ist, hsm⟩ := hr.sim hlaw
        have hhi : ist.history = .ok h := by rw [← hsm.history]; exact hh
        obtain ⟨⟨ef, hef, rfl⟩, hft⟩ := hsm.from_complete hlaw h hhi rid eb.1 newest f (by
          rw [hsm.base] at hb
          exact hb) hf
        obtain ⟨g1, g2⟩ := chain_good hr h hh ef hef revf hrf
        have hmem : ∀ q ∈ dp.1, q ∈ revf := fun q hq => by
          rw [hn'] at hq
          exact List.mem_reverse.1 (List.mem_of_mem_take hq)
        refine ⟨?_, fun q hq hqt => ?_, fun q hq => hkb h hh rev hrev q (hsub q (hmem q hq))⟩
        · rw [hn']
          exact g1.take n
        · have := g2 q (hmem q hq) hqt
          rw [this] at hqt
          exact hft hqt

/-- What a save plans. -/
theorem planC_stored (hK : RoughC k diffs Ok K Edits Fine Alike) (hr : BReach o (storeOps k).ops st store torn)
    (hi : CInv o k Ok K Alike st c live log store torn) (hlen : log.length < 10 ^ 8 - 1) (i : I) {shift : Shift} {rid : Nat} {s : S}
    (hs : live rid = some s) (hg : ∀ a, ComparedC o shift k.ops st c rid a → Fine i a s) :
    CacheV o k Ok K Alike st store torn (bplanC o shift (k.withDiff (diffs i)).ops st c rid none s).1 ∧
    ∀ x ph, (bplanC o shift (k.withDiff (diffs i)).ops st c rid none s).2 = .ok (x, ph) →
      (∃ b : Stored S, bplan o shift (storeOps k).ops st rid none b = .ok x ∧ Ok b.1 ∧ Alike b.1 s ∧ Resp k Ok K Alike b s) ∧
      ∀ p, x.2.2 = .ok p → p.order.length = ph + 1 := by
  have hlaw := storeOps_lawful k
  obtain ⟨h, hh, _⟩ := C38_interrupted_saves o _ hlaw st _ torn hr
  obtain ⟨q1, q2⟩ := bplanC_eq o shift (k.withDiff (diffs i)).ops st c rid s
  have hsave : (fun l => (bapplyForSave o (k.withDiff (diffs i)).ops st.dir l c).2) = fun l => (bapplyForSave o k.ops st.dir l c).2 := by
    funext l
    rw [bapplyForSave_withDiff]
  rw [hsave, plan_eq, planBase_bind] at q1
  have hcmp := planBase_bind o shift (st.dir.map (·.1)) st.base (bstat st.dir) (fun l => (bapplyForSave o k.ops st.dir l c).2) rid none
  refine ⟨?_, fun x ph hx => ?_⟩
  · rw [q2]
    cases hl : planDeps o shift st rid with
    | err => exact hi.cache
    | panic => exact hi.cache
    | ok l =>
      simp only
      rw [bapplyForSave_withDiff]
      obtain ⟨g1, g2, g3⟩ := deps_good hr hi hs hl h hh
      exact (bapplyForSave_at hK hr hi.resp hi.stored h hh g1 g2 hi.cache).2
  · rw [hx, Res.map_ok] at q1
    simp only at q1
    have q1 := q1.symm
    obtain ⟨a, ha, q1⟩ := bind_inv q1
    obtain ⟨l, hl, ha⟩ := bind_inv ha
    obtain ⟨d, hd, q1⟩ := bind_inv q1
    obtain ⟨vals, hv, he⟩ := bind_inv hd
    have hv : diffs i a s = .ok vals := hv
    obtain ⟨g1, g2, g3⟩ := deps_good hr hi hs hl h hh
    obtain ⟨⟨a', ha', hat⟩, _⟩ := bapplyForSave_at hK hr hi.resp hi.stored h hh g1 g2 hi.cache
    rw [ha'] at ha
    cases ha
    have hfine : Fine i a s := hg a (by
      unfold ComparedC
      rw [hcmp]
      rw [show planBase o shift (st.dir.map (·.1)) st.base (bstat st.dir) (fun l => Res.ok l) rid none = .ok l from hl, Res.bind_ok, ha'])
    obtain ⟨y, hy, hay⟩ := hat.alike
    rw [List.take_length] at hy
    have hlv := hi.lives rid s hs
    have hyk : Ok y.1 ∧ K y.1 s := by
      by_cases hnil : l = []
      · subst hnil
        cases hy
        exact ⟨hK.src, hlv.2⟩
      · have hj : l.length - 1 < l.length := by
          have := List.length_pos_iff.2 hnil
          omega
        obtain ⟨e, he1, he2, _, _, hc⟩ := g1 (l.length - 1) _ (List.getElem?_eq_getElem hj)
        have hc := hc (g2 _ (List.getElem_mem hj))
        rw [List.take_of_length_le (by omega), hy] at hc
        cases hc
        obtain ⟨e', he', heq, hke⟩ := g3 _ (List.getElem_mem hj)
        have : e' = e := store_unique hr e' he' e he1 (by rw [heq, he2])
        subst this
        exact ⟨hi.stored e' he1, hke⟩
    obtain ⟨hsh, happ⟩ := hK.diff i a s vals hat.ok hlv.1 (hK.left _ _ _ hay hyk.2) hfine hv
    obtain ⟨r, r1, r2, r3, r4⟩ := happ y.1 hyk.1 (hK.symm _ _ hay)
    refine ⟨⟨(r, vals.map norm, y.1), ?_, r2, r3, fun x' hx1 hx2 => ?_⟩, fun p hp => ?_⟩
    · have hw : Writes k y (r, vals.map norm, y.1) := by
        refine ⟨?_, ⟨?_, ?_, ?_⟩, rfl, r1⟩
        · simp only [List.map_map]
          exact List.map_congr_left fun x _ => norm_norm x
        · intro z hz
          obtain ⟨w, hw, rfl⟩ := List.mem_map.1 hz
          exact valid_norm (hsh.1 w hw)
        · simpa using hsh.2.1
        · intro out ho
          rw [encode_norm] at ho
          exact hsh.2.2 out ho
      unfold bplan
      rw [plan_eq, planBase_bind,
        show planBase o shift (st.dir.map (·.1)) st.base (bstat st.dir) (fun l => Res.ok l) rid none = .ok l from hl, Res.bind_ok]
      have hy' : bcompose (storeOps k).ops st.dir l (storeOps k).ops.src = .ok y := hy
      rw [hy', Res.bind_ok]
      have : (storeOps k).ops.diff y (r, vals.map norm, y.1) = .ok d := by
        show ((storeOps k).diff y _).bind encodeVals = _
        unfold storeOps
        simp only
        rw [if_pos hw, Res.bind_ok, encode_norm]
        exact he
      rw [this, Res.bind_ok]
      exact q1
    · obtain ⟨r', t1, t2, t3, t4⟩ := happ x' hx1 (hK.trans _ _ _ hx2 (hK.symm _ _ hay))
      exact ⟨r', t1, t2, hK.trans _ _ _ t3 (hK.symm _ _ r3), t4⟩
    · -- the phase
      obtain ⟨ist, hsm⟩ := hr.sim hlaw
      have hhi : ist.history = .ok h := by rw [← hsm.history]; exact hh
      obtain ⟨h0, hh0, hkn⟩ := hsm.ideal.inv.history
      rw [hhi] at hh0
      cases hh0
      have new : (planNewC o (k.withDiff (diffs i)).ops none (newControl h) s st.dir c).2 = .ok (x, ph) → p.order.length = ph + 1 := by
        intro hx
        unfold planNewC at hx
        simp only at hx
        obtain ⟨_, _, hx⟩ := bind_inv hx
        obtain ⟨_, _, hx⟩ := bind_inv hx
        cases hx
        simp only at hp
        rw [(start_new_props hsm.ideal.inv (hi.length.trans_lt hlen) h hkn).1] at hp
        cases hp
        rfl
      unfold bplanC at hx
      rw [hh] at hx
      simp only at hx
      cases hb : baseFor st.base rid with
      | none => rw [hb] at hx; exact new hx
      | some b =>
        rw [hb] at hx
        cases hn : h.newest with
        | none => rw [hn] at hx; exact new hx
        | some newest =>
          rw [hn] at hx
          simp only at hx
          cases hf : fromFile o h b newest with
          | none => rw [hf] at hx; cases hx
          | some f =>
            rw [hf] at hx
            simp only at hx
            unfold planDeriveC at hx
            rw [hn] at hx
            simp only at hx
            split at hx
            · cases hx
            · cases hx
            · rename_i data next dp hq
              simp only at hx
              obtain ⟨_, _, hx⟩ := bind_inv hx
              obtain ⟨_, _, hx⟩ := bind_inv hx
              cases hx
              obtain ⟨data', hdata, hq⟩ := bind_inv hq
              obtain ⟨next', hnext, hq⟩ := bind_inv hq
              obtain ⟨revf, hrf, hq⟩ := bind_inv hq
              obtain ⟨dp', hdp, hq⟩ := bind_inv hq
              cases hq
              cases hp
              obtain ⟨⟨ef, hef, rfl⟩, hft⟩ := hsm.from_complete hlaw h hhi rid b newest f (by
                rw [hsm.base] at hb
                exact hb) hf
              obtain ⟨file, cc, h1, h2, h3, h4, h5, _⟩ := hsm.files ef hef
              obtain ⟨file', h1', h6⟩ := hsm.ideal.inv.files ef hef
              rw [h1] at h1'
              cases h1'
              unfold bstat at hdata
              rw [h5 hft] at hdata
              simp only [(file_whole h2 h4).1, Res.map_ok] at hdata
              cases hdata
              obtain ⟨_, hne, hl2, _⟩ := hsm.ideal.inv.small ef hef
              obtain ⟨t, rfl⟩ := ancestorsRev_head _ _ _ _ _ hrf
              obtain ⟨ord, prev, e1, e2, e3⟩ := createDependencies_ok (ef.1 :: t).reverse ef.1 (by simp) _ _ _ _ _ _ _ hdp
              rw [e2]
              exact nextOrder_phase o shift _ ef.1 _ _ hne hl2 h6 hnext ord prev e1

/-! ## Versions stay versions -/

theorem KeptBy.mono (hr : BReach o (storeOps k).ops st store torn) {store' : List (Props × Stored S)}
    (hr' : BReach o (storeOps k).ops st' store' torn') (hsub : ∀ e ∈ store, e ∈ store') {e : Props × Stored S} (he : e ∈ store) {s : S}
    (hk : KeptBy o K st store e.1 s) : KeptBy o K st' store' e.1 s := by
  intro h' hh' rev hrev q hq
  obtain ⟨h, hh, _⟩ := C38_interrupted_saves o _ (storeOps_lawful k) st _ torn hr
  have := chain_old (storeOps_lawful k) hr hr' hsub h h' hh hh' e he rev hrev
  obtain ⟨e', he', h1⟩ := hk h hh rev this q hq
  exact ⟨e', hsub e' he', h1⟩

theorem Version.mono (hr : BReach o (storeOps k).ops st store torn) {store' : List (Props × Stored S)}
    (hr' : BReach o (storeOps k).ops st' store' torn') (hsub : ∀ e ∈ store, e ∈ store') {e : Props × Stored S} (he : e ∈ store) {s : S}
    (hv : Version o k Ok K Alike st store e s) : Version o k Ok K Alike st' store' e s :=
  ⟨hv.ok, hv.alike, hv.src, hv.kept.mono hr hr' hsub he⟩

theorem CacheV.mono (hr : BReach o (storeOps k).ops st store torn) {store' : List (Props × Stored S)}
    (hr' : BReach o (storeOps k).ops st' store' torn') (hsub : ∀ e ∈ store, e ∈ store') (ht : ∀ e ∈ store, e.1 ∉ torn → e.1 ∉ torn')
    (hc : CacheV o k Ok K Alike st store torn c) : CacheV o k Ok K Alike st' store' torn' c := by
  refine ⟨hc.asc, fun x hx => ?_⟩
  obtain ⟨e, he, h1, h2, h3, h4⟩ := hc.entry x hx
  exact ⟨e, hsub e he, ht e he h1, h2, h3, h4.mono hr hr' hsub he⟩

/-- What is kept of the files of the chain of the new file. -/
theorem kept_new (hK : RoughC k diffs Ok K Edits Fine Alike) (hr : BReach o (storeOps k).ops st store torn)
    (hi : CInv o k Ok K Alike st c live log store torn)
    (hl : log.length < 10 ^ 8 - 1) {shift : Shift} {rid : Nat} {s : S} (hlv : live rid = some s) {b : Stored S} {name : Bytes} {f : File} {p : Props}
    (hp : bplan o shift (storeOps k).ops st rid none b = .ok (name, f, .ok p)) (hal : Alike b.1 s) {cb : Bytes}
    (hd : st'.dir = st.dir.write name cb) : KeptBy o K st' ((p, b) :: store) p s := by
  have hlaw := storeOps_lawful k
  intro h' hh' rev hrev q hq
  obtain ⟨ist, hsm⟩ := hr.sim hlaw
  have hl' : store.length < 10 ^ 8 - 1 := hi.length.trans_lt hl
  obtain ⟨p', hpp, rfl, _, hsv, _⟩ := hsm.plan_shape hlaw hl' shift rid b name f _ hp
  cases hpp
  obtain ⟨h, hh, hkn⟩ := hsm.ideal.inv.history
  have hhb : st.history = .ok h := by rw [hsm.history, hh]
  have hfresh := (save_inv hsm.ideal.inv hl' shift (storeOps k).ops rid b p hsv).1
  have hri := Reach.save shift ist _ _ rid b p hsm.ideal hl' hsv
  have hhi : St.history ⟨ist.dir.write p.filename f, some (rid, p)⟩ = .ok h' := by
    rw [← hh']
    unfold St.history BSt.history
    simp only
    rw [hd, bwrite_names, hsm.names, if_neg hfresh, names_write _ _ _ hfresh]
  rcases save_chain hsm.ideal.inv hl' shift (storeOps k).ops rid b p hsv h h' hh hhi with ⟨deps, c0, d, _, h1, hc0, hdf, _, h2⟩ | hlo
  · rw [hrev] at h1
    cases h1
    rcases List.mem_cons.1 hq with rfl | hq
    · exact ⟨_, List.mem_cons_self, rfl, hK.hold _ _ (hi.lives rid s hlv).1 hal⟩
    · rcases h2 with rfl | ⟨b0, newest, g, revf, hb0, hnw, hff, hrf, hsub, n, hn⟩
      · cases hq
      · have hbase : st.base = some (rid, b0) := by
          rw [hsm.base]
          exact baseFor_inv hb0
        obtain ⟨eb, heb, rfl, s', hs', hkb⟩ := hi.base rid b0 hbase
        rw [hlv] at hs'
        cases hs'
        obtain ⟨rev', hrev', hsub', _, _⟩ := base_chain hlaw hr h hhb eb heb newest g hff revf hrf
        obtain ⟨e', he', h3⟩ := hkb h hhb rev' hrev' q (hsub' q (hsub q (List.mem_reverse.1 hq)))
        exact ⟨e', List.mem_cons_of_mem _ he', h3⟩
  · have h3 := lost_no_chain hri h' hhi (p, b) (by simp) hlo
    rw [hrev] at h3
    cases h3

theorem read_names (d : Dir) (n : Bytes) (f : File) (h : d.read n = some f) : n ∈ d.map (·.1) := by
  induction d with
  | nil => cases h
  | cons e d ih =>
    rw [Dir.read] at h
    split at h
    · rename_i he
      simp [he]
    · exact List.mem_cons_of_mem _ (ih h)

theorem fresh_plan (hr : BReach o (storeOps k).ops st store torn) (hl : store.length < 10 ^ 8 - 1) {shift : Shift} {rid : Nat} {b : Stored S}
    {name : Bytes} {f : File} {r : Res Props} (hp : bplan o shift (storeOps k).ops st rid none b = .ok (name, f, r)) :
    ∃ p, r = .ok p ∧ name = p.filename ∧ p ∉ torn ∧ ∀ e ∈ store, e.1 ≠ p := by
  have hlaw := storeOps_lawful k
  obtain ⟨ist, hsm⟩ := hr.sim hlaw
  obtain ⟨p, rfl, rfl, _, hsv, ht⟩ := hsm.plan_shape hlaw hl shift rid b name f _ hp
  have hfresh := (save_inv hsm.ideal.inv hl shift (storeOps k).ops rid b p hsv).1
  refine ⟨p, rfl, rfl, fun h => ht p h rfl, fun e he hep => hfresh ?_⟩
  obtain ⟨f', hf', _⟩ := hsm.ideal.inv.files e he
  rw [← hep]
  exact read_names _ _ _ hf'

/-- **The cache.** A run with the cache is a run of what is stored. -/
theorem CReach.stored (hK : RoughC k diffs Ok K Edits Fine Alike) (hr : CReach o k diffs Edits Fine st c live log torn) :
    ∃ store, BReach o (storeOps k).ops st store torn ∧ CInv o k Ok K Alike st c live log store torn := by
  have hlaw := storeOps_lawful k
  have empty : ∀ {st : BSt} {store : List (Props × Stored S)} {torn : List Props}, CacheV o k Ok K Alike st store torn [] := by
    intro _ _ _
    exact ⟨.nil, fun _ h => (nomatch h)⟩
  induction hr with
  | start dir hn hf =>
    exact ⟨[], .start dir hn hf, fun _ _ h => (nomatch h), .nil, fun _ h => (nomatch h), fun _ h => (nomatch h), fun _ _ h => (nomatch h), empty⟩
  | create st c live log torn rid _ hn ih =>
    obtain ⟨store, h1, h2⟩ := ih
    refine ⟨store, h1, lives_set h2.lives ⟨hK.src, hK.hold _ _ hK.src (hK.refl _ hK.src)⟩, h2.pairs, h2.stored, h2.resp, fun r p hb => ?_, h2.cache⟩
    obtain ⟨e, he, hp, s, hs, hk⟩ := h2.base r p hb
    refine ⟨e, he, hp, s, ?_, hk⟩
    rw [set_ne, hs]
    rintro rfl
    rw [hn] at hs
    cases hs
  | copy st c live log torn rid new s _ hs hn ih =>
    obtain ⟨store, h1, h2⟩ := ih
    refine ⟨store, h1, lives_set h2.lives (h2.lives rid s hs), h2.pairs, h2.stored, h2.resp, fun r p hb => ?_, h2.cache⟩
    obtain ⟨e, he, hp, x, hx, hk⟩ := h2.base r p hb
    refine ⟨e, he, hp, x, ?_, hk⟩
    rw [set_ne, hx]
    rintro rfl
    rw [hn] at hx
    cases hx
  | edit st c live log torn rid s t _ hs he ih =>
    obtain ⟨store, h1, h2⟩ := ih
    obtain ⟨g1, g2⟩ := h2.lives rid s hs
    obtain ⟨g3, g4⟩ := hK.edit s t g1 he
    refine ⟨store, h1, lives_set h2.lives ⟨g3, g4 _ hK.src g2⟩, h2.pairs, h2.stored, h2.resp, fun r p hb => ?_, h2.cache⟩
    obtain ⟨e, he, hp, x, hx, hk⟩ := h2.base r p hb
    by_cases hrr : r = rid
    · subst hrr
      rw [hs] at hx
      cases hx
      refine ⟨e, he, hp, t, set_same _ _ _, fun h hh rev hrev q hq => ?_⟩
      obtain ⟨e', he', h3, h4⟩ := hk h hh rev hrev q hq
      exact ⟨e', he', h3, g4 _ (h2.stored e' he') h4⟩
    · exact ⟨e, he, hp, x, by rw [set_ne _ _ hrr, hx], hk⟩
  | save i shift st st' c c' live log torn rid s p _ hlv hl hg hf hs ih =>
    obtain ⟨store, h1, h2⟩ := ih
    obtain ⟨q1, q2⟩ := planC_stored hK h1 h2 hl i hlv hg
    have hl' : store.length < 10 ^ 8 - 1 := h2.length.trans_lt hl
    unfold bsaveC at hs
    simp only at hs
    generalize hx : bplanC o shift (k.withDiff (diffs i)).ops st c rid none s = x at hs q1 q2 hf
    obtain ⟨c1, rr⟩ := x
    cases rr with
    | err => cases hs
    | panic => cases hs
    | ok y =>
      obtain ⟨⟨name, f, r⟩, ph⟩ := y
      simp only [Res.bind_ok] at hs
      cases hc : phaseFile f.1 f.2 with
      | err => rw [hc] at hs; cases hs
      | panic => rw [hc] at hs; cases hs
      | ok cb =>
        rw [hc, Res.map_ok] at hs
        simp only [Prod.mk.injEq] at hs
        obtain ⟨rfl, rfl, rfl⟩ := hs
        obtain ⟨⟨b, hpb, g1, g2, g3⟩, hph⟩ := q2 _ _ rfl
        have hph := hph p rfl
        have hsb : bsave o shift (storeOps k).ops st rid none b = (⟨st.dir.write name cb, some (rid, p)⟩, .ok p) := by
          unfold bsave
          rw [hpb, Res.bind_ok]
          simp only [hc]
          rfl
        have h3 := BReach.save shift st _ store torn rid b p h1 hl' (fun x hx => by rw [hpb] at hx; cases hx; exact hf _ rfl) hsb
        obtain ⟨p', hpp, hname, hnt, hfresh⟩ := fresh_plan h1 hl' hpb
        cases hpp
        have hsub : ∀ e ∈ store, e ∈ (p, b) :: store := fun e he => List.mem_cons_of_mem _ he
        have hlive := h2.lives rid s hlv
        have hver : Version o k Ok K Alike ⟨st.dir.write name cb, some (rid, p)⟩ ((p, b) :: store) (p, b) s :=
          ⟨hlive.1, hK.symm _ _ g2, hlive.2, kept_new hK h1 h2 hl hlv hpb g2 rfl⟩
        refine ⟨_, h3, h2.lives, .cons ⟨rfl, g2⟩ h2.pairs, ?_, ?_, fun r q hq => ?_, ?_⟩
        · intro e he
          rcases List.mem_cons.1 he with rfl | he
          · exact g1
          · exact h2.stored e he
        · intro e he
          rcases List.mem_cons.1 he with rfl | he
          · exact ⟨s, hver, g3⟩
          · obtain ⟨s', v1, v2⟩ := h2.resp e he
            exact ⟨s', v1.mono h1 h3 hsub he, v2⟩
        · cases hq
          exact ⟨_, List.mem_cons_self, rfl, s, hlv, hver.kept⟩
        · rw [hname]
          have := (q1.mono h1 h3 hsub (fun _ _ h => h)).removeUpper ph
          rw [hname] at this hver
          exact this.insert (e := (p, b)) List.mem_cons_self hnt hph hver
  | fail i shift st st' c c' live log torn rid s r _ hlv hl hg hs hp ih =>
    obtain ⟨store, h1, h2⟩ := ih
    obtain ⟨q1, q2⟩ := planC_stored hK h1 h2 hl i hlv hg
    have key : st' = st ∧ CacheV o k Ok K Alike st store torn c' := by
      unfold bsaveC at hs
      simp only at hs
      generalize hx : bplanC o shift (k.withDiff (diffs i)).ops st c rid none s = x at hs q1 q2
      obtain ⟨c1, rr⟩ := x
      cases rr with
      | err => cases hs; exact ⟨rfl, q1⟩
      | panic => cases hs; exact ⟨rfl, q1⟩
      | ok y =>
        obtain ⟨⟨name, f, r'⟩, ph⟩ := y
        simp only [Res.bind_ok] at hs
        cases hc : phaseFile f.1 f.2 with
        | err => rw [hc] at hs; cases hs; exact ⟨rfl, q1⟩
        | panic => rw [hc] at hs; cases hs; exact ⟨rfl, q1⟩
        | ok cb =>
          rw [hc, Res.map_ok] at hs
          simp only [Prod.mk.injEq] at hs
          obtain ⟨rfl, rfl, rfl⟩ := hs
          obtain ⟨⟨b, hpb, _⟩, _⟩ := q2 _ _ rfl
          obtain ⟨p', hpp, _⟩ := fresh_plan h1 (h2.length.trans_lt hl) hpb
          exact absurd hpp (hp p')
    obtain ⟨rfl, hc⟩ := key
    exact ⟨store, h1, h2.lives, h2.pairs, h2.stored, h2.resp, h2.base, hc⟩
  | interrupt i shift st c c' live log torn rid s name cb f p ph n _ hlv hl hg hp hf hc ih =>
    obtain ⟨store, h1, h2⟩ := ih
    obtain ⟨q1, q2⟩ := planC_stored hK h1 h2 hl i hlv hg
    rw [hp] at q1 q2
    obtain ⟨⟨b, hpb, g1, g2, g3⟩, _⟩ := q2 _ _ rfl
    have hl' : store.length < 10 ^ 8 - 1 := h2.length.trans_lt hl
    have h3 := BReach.interrupt shift st store torn rid b name cb f p n h1 hl' hpb hf hc
    obtain ⟨p', hpp, hname, hnt, hfresh⟩ := fresh_plan h1 hl' hpb
    cases hpp
    have hsub : ∀ e ∈ store, e ∈ (p, b) :: store := fun e he => List.mem_cons_of_mem _ he
    have hlive := h2.lives rid s hlv
    have hver : Version o k Ok K Alike (interrupted st name cb n) ((p, b) :: store) (p, b) s :=
      ⟨hlive.1, hK.symm _ _ g2, hlive.2, kept_new hK h1 h2 hl hlv hpb g2 rfl⟩
    refine ⟨_, h3, h2.lives, .cons ⟨rfl, g2⟩ h2.pairs, ?_, ?_, fun r q hq => ?_, ?_⟩
    · intro e he
      rcases List.mem_cons.1 he with rfl | he
      · exact g1
      · exact h2.stored e he
    · intro e he
      rcases List.mem_cons.1 he with rfl | he
      · exact ⟨s, hver, g3⟩
      · obtain ⟨s', v1, v2⟩ := h2.resp e he
        exact ⟨s', v1.mono h1 h3 hsub he, v2⟩
    · obtain ⟨e, he, rfl, x, hx, hk⟩ := h2.base r q hq
      exact ⟨e, hsub e he, rfl, x, hx, hk.mono h1 h3 hsub he⟩
    · refine q1.mono h1 h3 hsub fun e he ht => ?_
      split
      · intro hm
        rcases List.mem_cons.1 hm with hm | hm
        · exact hfresh e he hm
        · exact ht hm
      · exact ht
  | load st c live log torn h p rid y _ hh hp hn hy ih =>
    obtain ⟨store, h1, h2⟩ := ih
    obtain ⟨h0, hh0, hlist, _, hl⟩ := C38_interrupted_saves o _ hlaw st _ torn h1
    rw [hh] at hh0
    cases hh0
    obtain ⟨e, he, rfl⟩ : ∃ e ∈ store, e.1 = p := by
      rw [hlist, List.mem_reverse] at hp
      exact List.mem_map.1 hp
    obtain ⟨g1, g2, g3⟩ := (bloadC_version hK h1 h2.resp h2.stored h hh h2.cache e he).1 y hy
    have h3 := BReach.load st store torn h e.1 rid h1 hh hp
    have hst : (bloadFileC o k.ops st c h e.1 rid).1 = ⟨st.dir, some (rid, e.1)⟩ := by
      unfold bloadFileC
      rw [hy]
    have hst' : (bloadFile o (storeOps k).ops st h e.1 rid).1 = ⟨st.dir, some (rid, e.1)⟩ := by
      unfold bloadFile
      rw [(hl e.1 e.2 he).1 g1 g2]
    rw [hst'] at h3
    rw [hst]
    have hsub : ∀ e ∈ store, e ∈ store := fun e he => he
    refine ⟨store, h3, lives_set h2.lives ⟨g3.ok, g3.src⟩, h2.pairs, h2.stored, fun e he => ?_, fun r q hq => ?_, h2.cache.mono h1 h3 hsub fun _ _ h => h⟩
    · obtain ⟨s', v1, v2⟩ := h2.resp e he
      exact ⟨s', v1.mono h1 h3 hsub he, v2⟩
    · cases hq
      exact ⟨e, he, rfl, _, set_same _ _ _, (g3.mono h1 h3 hsub he).kept⟩
  | unloaded st c live log torn h p rid _ hh hp hn hy ih =>
    obtain ⟨store, h1, h2⟩ := ih
    have hst : (bloadFileC o k.ops st c h p rid).1 = st := by
      unfold bloadFileC
      cases hb : bloadC o k.ops st.dir c h p with
      | ok y => exact absurd hb (hy y)
      | err => rfl
      | panic => rfl
    rw [hst]
    exact ⟨store, h1, h2⟩
  | list st dir c live log torn _ hp ih =>
    obtain ⟨store, h1, h2⟩ := ih
    have h3 := BReach.list st dir store torn h1 hp
    have hsub : ∀ e ∈ store, e ∈ store := fun e he => he
    refine ⟨store, h3, h2.lives, h2.pairs, h2.stored, fun e he => ?_, fun r q hq => ?_, h2.cache.mono h1 h3 hsub fun _ _ h => h⟩
    · obtain ⟨s', v1, v2⟩ := h2.resp e he
      exact ⟨s', v1.mono h1 h3 hsub he, v2⟩
    · obtain ⟨e, he, rfl, x, hx, hk⟩ := h2.base r q hq
      exact ⟨e, he, rfl, x, hx, hk.mono h1 h3 hsub he⟩
  | restart st c live log torn _ ih =>
    obtain ⟨store, h1, h2⟩ := ih
    have h3 := BReach.restart st store torn h1
    have hsub : ∀ e ∈ store, e ∈ store := fun e he => he
    refine ⟨store, h3, fun _ _ h => (nomatch h), h2.pairs, h2.stored, fun e he => ?_, fun _ _ h => (nomatch h), empty⟩
    obtain ⟨s', v1, v2⟩ := h2.resp e he
    exact ⟨s', v1.mono h1 h3 hsub he, v2⟩

theorem CReach.logs_ok (hK : RoughC k diffs Ok K Edits Fine Alike) (hr : CReach o k diffs Edits Fine st c live log torn) : ∀ e ∈ log, Ok e.2 := by
  have add : ∀ {st c live log torn rid s p}, CReach o k diffs Edits Fine st c live log torn → live rid = some s → (∀ e ∈ log, Ok e.2) →
      ∀ e ∈ (p, s) :: log, Ok e.2 := by
    intro st c live log torn rid s p hr hlv ih e he
    obtain ⟨_, _, h2⟩ := hr.stored hK
    rcases List.mem_cons.1 he with rfl | he
    · exact (h2.lives rid s hlv).1
    · exact ih e he
  induction hr with
  | start => exact fun e he => (nomatch he)
  | create _ _ _ _ _ _ _ _ ih => exact ih
  | copy _ _ _ _ _ _ _ _ _ _ _ ih => exact ih
  | edit _ _ _ _ _ _ _ _ _ _ _ ih => exact ih
  | save _ _ _ _ _ _ _ _ _ _ _ _ hr hlv _ _ _ _ ih => exact add hr hlv ih
  | fail _ _ _ _ _ _ _ _ _ _ _ _ _ _ _ _ _ _ ih => exact ih
  | interrupt _ _ _ _ _ _ _ _ _ _ _ _ _ _ _ _ hr hlv _ _ _ _ _ ih => exact add hr hlv ih
  | load _ _ _ _ _ _ _ _ _ _ _ _ _ _ ih => exact ih
  | unloaded _ _ _ _ _ _ _ _ _ _ _ _ _ ih => exact ih
  | list _ _ _ _ _ _ _ _ ih => exact ih
  | restart _ _ _ _ _ _ ih => exact ih

end
end Verif.History
