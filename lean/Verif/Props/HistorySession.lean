import Verif.Props.HistoryReal
import Verif.Lemmas.HistorySave
/-!
# Property C78 for sessions

Whatever a program does with a history through the interface, what it saves can be expressed as a diff to what it is compared with, but
for the two exceptions of C73.
-/
namespace Verif.Named
open Core Source Diff

theorem sameItem_trans {d : LDef} {a b : Item} (h : SameItem d a b) : ∀ {c}, SameItem d b c → SameItem d a c := by
  induction h with
  | @mk d a b s1 s2 s3 s4 s5 ih =>
    intro c h
    cases h with
    | mk t1 t2 t3 t4 t5 =>
    have pres : ∀ {x y z : Option SabVal}, SamePresence x y → SamePresence y z → SamePresence x z := by
      intro x y z h1 h2
      cases h1 <;> cases h2 <;> constructor
    have mid : ∀ k id d' u l ln, d.members.get k = some (id, .milDef d' u) → a.values.get k = some (.mil l ln) →
        ∃ m mn, b.values.get k = some (.mil m mn) := by
      intro k id d' u l ln hd hl
      have := s2 k id d' u hd
      rw [hl] at this
      cases hm : b.values.get k with
      | none => rw [hm] at this; cases this
      | some w => rw [hm] at this; cases this; exact ⟨_, _, rfl⟩
    refine .mk (fun k id p vt hd => (s1 k id p vt hd).trans (t1 k id p vt hd)) (fun k id d' u hd => pres (s2 k id d' u hd) (t2 k id d' u hd)) ?_ ?_
      (fun k x hx => (s5 k x hx).trans (t5 k x hx))
    · intro k id d' u l ln o on hd hl ho
      obtain ⟨m, mn, hm⟩ := mid k id d' u l ln hd hl
      obtain ⟨e1, e2⟩ := s3 k id d' u l ln m mn hd hl hm
      obtain ⟨e3, e4⟩ := t3 k id d' u m mn o on hd hm ho
      exact ⟨e1.trans e3, e2.trans e4⟩
    · intro k id d' u l ln o on hd hl ho i x z hx hz
      obtain ⟨m, mn, hm⟩ := mid k id d' u l ln hd hl
      obtain ⟨_, e2⟩ := s3 k id d' u l ln m mn hd hl hm
      obtain ⟨y, hy⟩ : ∃ y, m[i]? = some y := by
        have hlen := congrArg List.length e2
        rw [List.length_map, List.length_map] at hlen
        have hi := (List.getElem?_eq_some_iff.1 hx).1
        exact ⟨_, List.getElem?_eq_getElem (by omega)⟩
      exact ih k id d' u l ln m mn hd hl hm i x y hx hy (t4 k id d' u m mn o on hd hm ho i y z hy hz)

theorem sameItems_trans {d : LDef} {a b c : List (Nat × Item)} (h1 : SameItems d a b) (h2 : SameItems d b c) : SameItems d a c := by
  refine ⟨h1.1.trans h2.1, fun i x z hx hz => ?_⟩
  have hlen := congrArg List.length h1.1
  rw [List.length_map, List.length_map] at hlen
  have hi := (List.getElem?_eq_some_iff.1 hx).1
  have hy : b[i]? = some b[i] := List.getElem?_eq_getElem (by omega)
  exact sameItem_trans (h1.2 i x _ hx hy) (h2.2 i _ z hy hz)

/-- Whether a change is settled depends on what is the same in objects. -/
theorem settled_of_same {d : LDef} {a b : Item} (h : SameItem d a b) : ItemFits d a → ∀ {t : Item}, Settled d a t → Settled d b t := by
  induction h with
  | @mk d a b s1 s2 s3 s4 s5 ih =>
    intro ha t ht
    cases ht with
    | mk t1 t2 t3 =>
    have back : ∀ k id d' u m mn, d.members.get k = some (id, .milDef d' u) → b.values.get k = some (.mil m mn) →
        ∃ l ln, a.values.get k = some (.mil l ln) := by
      intro k id d' u m mn hd hm
      have := s2 k id d' u hd
      rw [hm] at this
      cases hl : a.values.get k with
      | none => rw [hl] at this; cases this
      | some w => rw [hl] at this; cases this; exact ⟨_, _, rfl⟩
    refine .mk (fun k id p vt q q' hd hq hq' => t1 k id p vt q q' hd ((s1 k id p vt hd).trans hq) hq') ?_ ?_
    · intro k id d' u m mn o on hd hm ho hs
      obtain ⟨l, ln, hl⟩ := back k id d' u m mn hd hm
      obtain ⟨e1, e2⟩ := s3 k id d' u l ln m mn hd hl hm
      rw [← e1]
      exact t2 k id d' u l ln o on hd hl ho (sameItems_trans ⟨e2, s4 k id d' u l ln m mn hd hl hm⟩ hs)
    · intro k id d' u m mn o on hd hm ho y hy z hz he
      obtain ⟨l, ln, hl⟩ := back k id d' u m mn hd hm
      obtain ⟨_, e2⟩ := s3 k id d' u l ln m mn hd hl hm
      cases ha with
      | mk h1 h2 h3 h4 h5 h6 h7 h8 =>
      obtain ⟨x, hx, hxy⟩ : ∃ x ∈ l, x.1 = y.1 := by
        have : y.1 ∈ l.map (·.1) := by rw [e2]; exact List.mem_map.2 ⟨y, hy, rfl⟩
        obtain ⟨x, hx, h⟩ := List.mem_map.1 this
        exact ⟨x, hx, h⟩
      obtain ⟨i, hi, hj⟩ := same_index e2 (h6 k l ln (AMap.mem_of_get hl)).1.1 hx hy hxy
      exact ih k id d' u l ln m mn hd hl hm i x y hi hj (h7 k l ln id d' u (AMap.mem_of_get hl) hd x hx)
        (t3 k id d' u l ln o on hd hl ho x hx z hz (hxy.trans he))

theorem rootSettled_of_same {defs : AMap (Nat × RootValI)} {a b t : AMap RootSab} (ha : RootFits defs a) (hs : SameRoot defs a b)
    (h : RootSettled defs a t) : RootSettled defs b t := by
  refine ⟨fun k id p vt q q' hd hq hq' => h.zeros k id p vt q q' hd ((hs.params k id p vt hd).trans hq) hq', ?_, ?_⟩
  · intro k id d u m o hd hm ho hi
    obtain ⟨l, hl⟩ := hs.back k id d u m hd hm
    obtain ⟨m', hm', hn, hsi⟩ := hs.lists k id d u l hd hl
    rw [hm] at hm'
    cases hm'
    rw [← hn]
    exact h.nexts k id d u l o hd hl ho (sameItems_trans hsi hi)
  · intro k id d u m o hd hm ho y hy z hz he
    obtain ⟨l, hl⟩ := hs.back k id d u m hd hm
    obtain ⟨m', hm', hn, hsi⟩ := hs.lists k id d u l hd hl
    rw [hm] at hm'
    cases hm'
    obtain ⟨g1, g2⟩ := ha.items k l id d u (AMap.mem_of_get hl) hd
    obtain ⟨x, hx, hxy⟩ : ∃ x ∈ l.1, x.1 = y.1 := by
      have : y.1 ∈ l.1.map (·.1) := by rw [hsi.1]; exact List.mem_map.2 ⟨y, hy, rfl⟩
      obtain ⟨x, hx, h⟩ := List.mem_map.1 this
      exact ⟨x, hx, h⟩
    obtain ⟨i, hi, hj⟩ := same_index hsi.1 g1.1 hx hy hxy
    exact settled_of_same (hsi.2 i x y hi hj) (g2 x hx) (h.items k id d u l o hd hl ho x hx z hz (hxy.trans he))

end Verif.Named

namespace Verif.Pipeline
open Codec VarInt Source Core Named Archive History FileName FileHistory Phase

section
variable {L : Lib}

/-- an object that sessions work with -/
structure Sound (r s : Root) : Prop where
  object : s = { r with sabun := s.sabun }
  fits : RootFits r.defs s.sabun
  fresh : ListsFresh s.sabun

theorem sessions_keep (he : L.env.Sound) {v : Src} (hu : Usable L v) {r : Root} {h : Nat} (hr : v.root L = .ok (r, h)) :
    Keeping (histOps L r) (byId r) (Held r) (Sound r) (fun a b => RootKeeps r.defs a.sabun b.sabun) (Edited r) (Fine L r) (Saveable L r) := by
  obtain ⟨ht, hf, hfr⟩ := usable_fits he hu hr
  have hl := levelOk_depth r.table
  refine ⟨⟨rfl, hf, hfr⟩, fun a ha => rootKeeps_refl ha.fresh, fun a b c ha h1 h2 => rootKeeps_trans ha.fresh h1 h2, ?_, ?_, ?_⟩
  · intro a b ha hb
    obtain ⟨g1, g2, g3⟩ := session_keeps hb.2 ha.fresh ha.fits
    exact ⟨⟨hb.1, g2, g1⟩, g3⟩
  · intro s y hs hy he
    have h1 : SameRoot r.defs s.sabun y.sabun := sameRoot_of ht hl hs.fits he.symm
    have h2 := rootFits_of_same hy.kept hs.fits h1
    exact ⟨⟨hy.object, h2, listsFresh_of_same hy.kept hs.fits hs.fresh h1⟩, rootKeeps_of_same hs.fits h1,
      rootKeeps_of_same h2 (sameRoot_of ht hl h2 he)⟩
  · intro a s ha hs hk hfn
    exact ⟨hs.object, rootFits_memory ha.fits, hs.fits, rootStep_of_keeps hk hfn.settled, hfn.short⟩

/-- **C78 (partial), sessions.** The files of a usable source are loaded. A program makes objects from the source, copies them, edits them,
saves them, loads what was saved and goes on with it, in any order and with any options; writing may be interrupted after any number of
bytes, processes may end. Then every file that was written completely is loaded as the object that was saved. Missing: objects which, when
saved, differ from what they are compared with in the sign of a zero or in nothing but a next id (`Fine`, see C78_negation), and files that
C29 finds lost. -/
theorem C78_sessions_partial (he : L.env.Sound) {v : Src} (hu : Usable L v) {r : Root} {hash : Nat} (hv : v.root L = .ok (r, hash)) (o : Phase.Opts)
    (st : BSt) (live : Live Root) (log : List (Props × Root)) (torn : List Props)
    (hr : EReach o (histOps L r).ops (Edited r) (Fine L r) st live log torn) :
    ∃ h, st.history = .ok h ∧ h.listFiles = (log.map (·.1)).reverse ∧ (∀ t ∈ torn, t ∈ h.listFiles) ∧
      ∀ p s, (p, s) ∈ log →
        (p ∉ torn → ¬ Lost o log p → ∃ y, bload o (histOps L r).ops st.dir h p = .ok y ∧ SameObject s y) ∧
        (p ∉ torn → Lost o log p → bload o (histOps L r).ops st.dir h p = .err) ∧
        (p ∈ torn → bload o (histOps L r).ops st.dir h p = .err) := by
  obtain ⟨hs, hlaw⟩ := hist_simulates he hu hv
  exact C78_history_partial he hu hv o st log torn (hr.reach hs hlaw (sessions_keep he hu hv)).1

/-- **C78: what is in memory.** Whatever is in memory during such a run, be it loaded or edited, fits its definition, and its lists have
distinct ids below their next ids; so is what was saved. -/
theorem C78_memory (he : L.env.Sound) {v : Src} (hu : Usable L v) {r : Root} {hash : Nat} (hv : v.root L = .ok (r, hash)) (o : Phase.Opts)
    (st : BSt) (live : Live Root) (log : List (Props × Root)) (torn : List Props)
    (hr : EReach o (histOps L r).ops (Edited r) (Fine L r) st live log torn) :
    (∀ rid s, live rid = some s → s = { r with sabun := s.sabun } ∧ RootFits r.defs s.sabun ∧ ListsFresh s.sabun) ∧
      ∀ e ∈ log, e.2 = { r with sabun := e.2.sabun } ∧ RootFits r.defs e.2.sabun ∧ ListsFresh e.2.sabun := by
  obtain ⟨hs, hlaw⟩ := hist_simulates he hu hv
  have hi := (hr.reach hs hlaw (sessions_keep he hu hv)).2
  exact ⟨fun rid s h => ⟨(hi.lives rid s h).1.object, (hi.lives rid s h).1.fits, (hi.lives rid s h).1.fresh⟩,
    fun e h => ⟨(hi.logs e h).1.object, (hi.logs e h).1.fits, (hi.logs e h).1.fresh⟩⟩

/-- What a save compares with is the object of the source or one that was saved: it is enough to look at those. -/
theorem fine_of_log (he : L.env.Sound) {v : Src} (hu : Usable L v) {r : Root} {hash : Nat} (hv : v.root L = .ok (r, hash)) {o : Phase.Opts}
    {st : BSt} {live : Live Root} {log : List (Props × Root)} {torn : List Props}
    (hr : EReach o (histOps L r).ops (Edited r) (Fine L r) st live log torn) {shift : Shift} {rid : Nat} {s : Root} (hs : live rid = some s)
    (hsrc : Fine L r r s) (hlog : ∀ e ∈ log, Fine L r e.2 s) : ∀ a, Compared o shift (histOps L r).ops st rid a → Fine L r a s := by
  intro a ha
  obtain ⟨hsim, hlaw⟩ := hist_simulates he hu hv
  have hK := sessions_keep he hu hv
  obtain ⟨hr', hi⟩ := hr.reach hsim hlaw hK
  obtain ⟨⟨g1, g2⟩, rfl | ⟨e, hel, g3, g4⟩⟩ := compared_keeps hsim hlaw hK (hsim.reach hr') hi hs ha
  · exact hsrc
  · obtain ⟨ht, _, _⟩ := usable_fits he hu hv
    have hl := levelOk_depth r.table
    have hes := (hi.logs e hel).1
    have hsame : SameRoot r.defs e.2.sabun a.sabun := sameRoot_of ht hl hes.fits g4.symm
    have hfn := hlog e hel
    have hst := rootSettled_of_same hes.fits hsame hfn.settled
    refine ⟨hst, ?_⟩
    obtain ⟨hno, c, hc, hsz⟩ := hu.lists r hash hv
    have hc' : c < 2 ^ 62 := hc
    have hs' : ∀ k id d u, r.defs.get k = some (id, .mlist d u) → Sized c c d :=
      fun k id d u hk => (hsz k id d u hk).sized
    have ho : ∀ s : AMap RootSab, OptUndefined r.defs s := fun s k id d hk => absurd hk (hno k id d)
    have hk : ∀ a : Root, Sound r a → (ops L).diff a s =
        Diff.getKvals L.float (tableDepth r.table) L.ptr (rootL (tableDepth r.table) r.table) (byId r a) (byId r s) := by
      intro a ha
      have h1 : a.table = r.table := by rw [ha.object]
      have h2 : a.defs = r.defs := by rw [ha.object]
      change kvals L _ a s = _
      unfold kvals Diff.getKvals byId
      rw [h1, h2, nRootDiff_eq hc' ht hl (hu.memory r hash hv).2 hs' L.ptr ha.fits (hi.lives rid s hs).1.fits (ho _) (ho _)]
    rw [hk a g1, g4, ← hk e.2 hes]
    exact hfn.short

/-- What can be saved has a diff. -/
theorem saveable_diff (he : L.env.Sound) {v : Src} (hu : Usable L v) {r : Root} {hash : Nat} (hv : v.root L = .ok (r, hash)) {a s : Root}
    (ha : Held r a) (hg : Saveable L r a s) : ∃ out, ((ops L).diff a s).bind encodeVals = .ok out := by
  obtain ⟨hsim, _⟩ := hist_simulates he hu hv
  obtain ⟨ht, _, _⟩ := usable_fits he hu hv
  have hl := levelOk_depth r.table
  obtain ⟨hno, c, hc, hsz⟩ := hu.lists r hash hv
  have hc' : c < 2 ^ 62 := hc
  have hs' : ∀ k id d u, r.defs.get k = some (id, .mlist d u) → Sized c c d :=
    fun k id d u hk => (hsz k id d u hk).sized
  have ho : ∀ s : AMap RootSab, OptUndefined r.defs s := fun s k id d hk => absurd hk (hno k id d)
  have hfa := ha.fits ht hg.memory
  have hlen := (hu.memory r hash hv).2
  have h1 : a.table = r.table := by rw [ha.object]
  have h2 : a.defs = r.defs := by rw [ha.object]
  have hk : (ops L).diff a s = Diff.getKvals L.float (tableDepth r.table) L.ptr (rootL (tableDepth r.table) r.table) (byId r a) (byId r s) := by
    change kvals L _ a s = _
    unfold kvals Diff.getKvals byId
    rw [h1, h2, nRootDiff_eq hc' ht hl hlen hs' L.ptr hfa hg.fits (ho _) (ho _)]
  rw [hk]
  obtain ⟨bytes, g1, _⟩ := Diff.C09_small_definitions_partial L.float (tableDepth r.table) L.ptr (rootL (tableDepth r.table) r.table) (byId r a) (byId r s)
    (legibleRoot_of ht hl hsz) (rootOk_of hc' ht hl hlen hs' hfa) (rootOk_of hc' ht hl hlen hs' hg.fits)
    (optUndefined_of ht hl (ho _)) (optUndefined_of ht hl (ho _)) (rootStep_of ht hl hfa hg.fits hg.step)
  exact ⟨bytes, g1⟩

/-- **C78 (partial), saving.** In any state of such a run, with any accepted options, any object in memory can be saved, be it new, copied,
loaded or edited, unless the file that it would continue is one of those of C50 (`Stuck`, see `C50_exact`); the file is the newest one, and
it is loaded as what was saved, unless it is one of those of C29 (`Lost`). Missing: computations of the phase that panic (C52), files
that do not fit into memory. -/
theorem C78_save_partial (he : L.env.Sound) {v : Src} (hu : Usable L v) {r : Root} {hash : Nat} (hv : v.root L = .ok (r, hash)) (o : Phase.Opts)
    (ho : o.build = .ok o) (shift : Shift) (hp : ∀ d, calcNextPhase o shift d ≠ .panic)
    (st : BSt) (live : Live Root) (log : List (Props × Root)) (torn : List Props)
    (hr : EReach o (histOps L r).ops (Edited r) (Fine L r) st live log torn) (hl : log.length < 10 ^ 8 - 1)
    (rid : Nat) (hnd : ∀ b, st.base = some (rid, b) → ¬ Stuck o log b) (s : Root) (hs : live rid = some s)
    (hg : ∀ a, Compared o shift (histOps L r).ops st rid a → Fine L r a s)
    (hf : ∀ x, bplan o shift (histOps L r).ops st rid none s = .ok x → FileOk x.2.1) :
    ∃ st' p h', bsave o shift (histOps L r).ops st rid none s = (st', .ok p) ∧
      EReach o (histOps L r).ops (Edited r) (Fine L r) st' live ((p, s) :: log) torn ∧ st'.history = .ok h' ∧ h'.newest = some p ∧
      (¬ Lost o ((p, s) :: log) p → ∃ y, bload o (histOps L r).ops st'.dir h' p = .ok y ∧ SameObject s y) ∧
      (Lost o ((p, s) :: log) p → bload o (histOps L r).ops st'.dir h' p = .err) := by
  obtain ⟨hsim, hlaw⟩ := hist_simulates he hu hv
  have hK := sessions_keep he hu hv
  obtain ⟨hrr, hi⟩ := hr.reach hsim hlaw hK
  have hb := hsim.reach hrr
  obtain ⟨ist, hsm⟩ := hb.sim hlaw
  obtain ⟨a', ha'⟩ := planBase_ok ho shift hp hlaw hsm rid fun b hb h => hnd b hb ((stuck_names (seen_names _ _) b).1 h)
  have hmap := planBase_map (α := byId r) o shift (st.dir.map (·.1)) st.base (bstat st.dir)
    (fun l => bcompose (histOps L r).ops st.dir l (histOps L r).ops.src) (fun l => bcompose (idHist L r).ops st.dir l (idHist L r).ops.src)
    (fun l => (hsim.composeSrc st.dir l).1) rid none
  rw [ha'] at hmap
  obtain ⟨a, ha, _⟩ := map_inv hmap
  have hcmp : Compared o shift (histOps L r).ops st rid a := ha
  have hgood : ∀ a, Compared o shift (histOps L r).ops st rid a → Saveable L r a s := by
    intro a ha
    obtain ⟨⟨g1, g2⟩, _⟩ := compared_keeps hsim hlaw hK hb hi hs ha
    exact hK.good a s g1 (hi.lives rid s hs).1 g2 (hg a ha)
  have hheld : Held r a := planBase_inv o shift _ _ _ _ (Held r) (fun l a => (hsim.composeSrc st.dir l).2 a) rid none a ha
  obtain ⟨out, hout⟩ := saveable_diff he hu hv hheld (hgood a hcmp)
  obtain ⟨⟨name, f, r'⟩, hrest⟩ := planRest_ok shift _ _ _ _ rid none a ha out
  have hplan : bplan o shift (histOps L r).ops st rid none s = .ok (name, f, r') := by
    unfold bplan
    rw [plan_eq, ha, Res.bind_ok]
    have : (histOps L r).ops.diff a s = .ok out := hout
    rw [this, Res.bind_ok, hrest]
  have hplan' := hplan
  rw [hsim.plan o shift st rid s hgood] at hplan'
  obtain ⟨p, rfl, rfl, _, hsv, hctl⟩ := hsm.plan_shape hlaw ((seen_length _ log).trans_lt hl) shift rid (byId r s) name f r' hplan'
  have hfo := hf _ hplan
  obtain ⟨head, hc, _⟩ := C48_statistics_survive f.1 hfo.1 hfo.2.1 f.2
  have hbs : bsave o shift (histOps L r).ops st rid none s = (⟨st.dir.write p.filename (head ++ f.2), some (rid, p)⟩, .ok p) := by
    unfold bsave
    rw [hplan]
    simp only [Res.bind_ok]
    rw [hc]
    rfl
  have hr' := EReach.save shift st _ live log torn rid s p hr hs hl hg hf hbs
  obtain ⟨h', hh', hlist, _, hload⟩ := C78_sessions_partial he hu hv o _ _ _ _ hr'
  have hpt : p ∉ torn := fun h => hctl p h rfl
  obtain ⟨hrr', _⟩ := hr'.reach hsim hlaw hK
  obtain ⟨ist', hsm'⟩ := (hsim.reach hrr').sim hlaw
  have hk' := knows_of hlaw (hsim.reach hrr') h' hh'
  obtain ⟨l1, l2, _⟩ := hload p s (by simp)
  exact ⟨_, p, h', hbs, hr', hh', hk'.newest hsm'.ideal.inv.sorted, l1 hpt, l2 hpt⟩

/-- **C78, saving in a history without branches.** If no file was derived from a file that was not the newest, and there is more than one
phase, then every file can be continued. -/
theorem C78_linear (he : L.env.Sound) {v : Src} (hu : Usable L v) {r : Root} {hash : Nat} (hv : v.root L = .ok (r, hash)) (o : Phase.Opts)
    (hm : o.maxPhase ≠ 0) (st : BSt) (live : Live Root) (log : List (Props × Root)) (torn : List Props)
    (hr : EReach o (histOps L r).ops (Edited r) (Fine L r) st live log torn) (hnd : ∀ e ∈ log, e.1.prevCtl = e.1.control) (rid : Nat)
    (b : Props) (hb : st.base = some (rid, b)) : ¬ Stuck o log b := by
  obtain ⟨hsim, hlaw⟩ := hist_simulates he hu hv
  obtain ⟨hrr, hi⟩ := hr.reach hsim hlaw (sessions_keep he hu hv)
  obtain ⟨ist, hsm⟩ := (hsim.reach hrr).sim hlaw
  rw [← stuck_names (seen_names (byId r) log)]
  refine hsm.free hlaw hm ?_ rid b hb
  rw [seen_names]
  simpa using hnd

/-- **C78, saving after a file that cannot be continued.** The save fails, and nothing changes. -/
theorem C78_save_stuck (he : L.env.Sound) {v : Src} (hu : Usable L v) {r : Root} {hash : Nat} (hv : v.root L = .ok (r, hash)) (o : Phase.Opts)
    (shift : Shift) (hp : ∀ d, calcNextPhase o shift d ≠ .panic) (st : BSt) (live : Live Root) (log : List (Props × Root))
    (torn : List Props) (hr : EReach o (histOps L r).ops (Edited r) (Fine L r) st live log torn) (rid : Nat) (b : Props)
    (hb : st.base = some (rid, b)) (hnd : Stuck o log b) (s : Root) :
    bsave o shift (histOps L r).ops st rid none s = (st, .err) := by
  obtain ⟨hsim, hlaw⟩ := hist_simulates he hu hv
  obtain ⟨hrr, hi⟩ := hr.reach hsim hlaw (sessions_keep he hu hv)
  obtain ⟨ist, hsm⟩ := (hsim.reach hrr).sim hlaw
  unfold bsave bplan
  rw [plan_eq, planBase_stuck _ shift hp hsm rid b hb ((stuck_names (seen_names _ _) b).2 hnd)]
  rfl

end
end Verif.Pipeline
