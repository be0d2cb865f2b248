import Verif.Spec.HistoryLoose
import Verif.Lemmas.HistoryLoose
import Verif.Props.SessionAny
import Verif.Props.HistorySession
/-!
# Property C79 for histories

Whatever a program does with a history through the interface, every file is loaded as what was saved, but for the order of items, next ids
and signs of zeros. C78 has it exactly, for changes that a diff can express.
-/
namespace Verif.Pipeline
open Codec VarInt Source Core Named Archive History FileName FileHistory Phase

section
variable {L : Lib}

/-- what sessions keep, by id -/
def Stays (r a b : Root) : Prop := Diff.RootStays (tableDepth r.table) (byId r a) (byId r b)

/-- the diff of real objects is that of the objects by id -/
theorem diff_byId (he : L.env.Sound) {v : Src} (hu : Usable L v) {r : Root} {h : Nat} (hr : v.root L = .ok (r, h)) {a s : Root}
    (ha : Sound r a) (hs : Sound r s) :
    (ops L).diff a s = Diff.getKvals L.float (tableDepth r.table) L.ptr (rootL (tableDepth r.table) r.table) (byId r a) (byId r s) := by
  obtain ⟨ht, _, _⟩ := usable_fits he hu hr
  have hl := levelOk_depth r.table
  obtain ⟨hno, c, hc, hsz⟩ := hu.lists r h hr
  have hc' : c < 2 ^ 62 := hc
  have hs' : ∀ k id d u, r.defs.get k = some (id, .mlist d u) → Sized c c d :=
    fun k id d u hk => (hsz k id d u hk).sized
  have ho : ∀ s : AMap RootSab, OptUndefined r.defs s := fun s k id d hk => absurd hk (hno k id d)
  have h1 : a.table = r.table := by rw [ha.object]
  have h2 : a.defs = r.defs := by rw [ha.object]
  change kvals L _ a s = _
  unfold kvals Diff.getKvals byId
  rw [h1, h2, nRootDiff_eq hc' ht hl (hu.memory r h hr).2 hs' L.ptr ha.fits hs.fits (ho _) (ho _)]

theorem rough_sessions (he : L.env.Sound) {v : Src} (hu : Usable L v) {r : Root} {h : Nat} (hr : v.root L = .ok (r, h)) :
    Rough (histOps L r) (Sound r) (Stays r) (EditedAny r) (ShortDiff L) LooseObject ∧
      ∀ a s, Sound r a → Sound r s → ∃ out, ((ops L).diff a s).bind encodeVals = .ok out := by
  obtain ⟨ht, hf, hfr⟩ := usable_fits he hu hr
  have hl := levelOk_depth r.table
  obtain ⟨hno, c, hc, hsz⟩ := hu.lists r h hr
  have hc' : c < 2 ^ 62 := hc
  have hs' : ∀ k id d u, r.defs.get k = some (id, .mlist d u) → Sized c c d :=
    fun k id d u hk => (hsz k id d u hk).sized
  have ho : ∀ s : AMap RootSab, OptUndefined r.defs s := fun s k id d hk => absurd hk (hno k id d)
  have hlen := (hu.memory r h hr).2
  have ok : ∀ a, Sound r a → Diff.RootOkF (tableDepth r.table) (rootL (tableDepth r.table) r.table) (byId r a) :=
    fun a ha => rootOkF_of hc' ht hl hlen hs' ha.fits ha.fresh
  have opt : ∀ a : Root, Diff.OptListsUndefined (tableDepth r.table) (rootL (tableDepth r.table) r.table) (byId r a) :=
    fun a => optUndefined_of ht hl (ho _)
  refine ⟨⟨⟨rfl, hf, hfr⟩, fun a ha => Diff.RootStays.refl (ok a ha), fun a b c ha h1 h2 => Diff.RootStays.trans (ok a ha) h1 h2, ?_, ?_⟩, ?_⟩
  · intro a b ha hb
    obtain ⟨g1, g2, _, g4⟩ := sessionAny_keeps hc' ht hl hlen hs' hb.2 ha.fresh ha.fits
    exact ⟨⟨hb.1, g2, g1⟩, g4⟩
  · intro a s vals ha hs hst hsh hv
    have hvb := hv
    change (ops L).diff a s = _ at hvb
    rw [diff_byId he hu hr ha hs] at hvb
    obtain ⟨d, hd, hw⟩ := bind_inv hvb
    have hok := Diff.getRootDiff_ok (ok a ha).1 (ok s hs).1 (opt a) (opt s) hd
    obtain ⟨bytes, g1, g2⟩ := Diff.good_bytes (Diff.good_root L.float _ _ d hok)
    obtain ⟨o, e1, e2, _⟩ := Diff.good_root L.float _ _ d hok
    rw [hw] at e1
    cases e1
    rw [hw, Res.bind_ok] at g1
    have hlt := hsh vals bytes hv g1
    have hlv := Diff.length_lt_of_encode g1 hlt
    obtain ⟨vals', g3, g4⟩ := g2 hlt
    have hdec := decode_encodeVals vals e2 hlv bytes g1 (by omega) []
    rw [List.append_nil, g3] at hdec
    cases hdec
    rw [if_pos (Diff.rootReadable_of_legible (legibleRoot_of ht hl hsz) hok)] at g4
    refine ⟨⟨e2, hlv, fun out hout => by rw [g1] at hout; cases hout; omega⟩, ?_⟩
    obtain ⟨z, z1, z2, z3, z4⟩ := Diff.applyRootDiff_loose (ok a ha) (ok a ha) (ok s hs) (opt a) (opt s) (Diff.RootLoose.refl (ok a ha)) hst hd
    have h6 := nApplyRoot_eq ht hl a.sabun d
    unfold byId at z1
    rw [z1] at h6
    obtain ⟨res, h7, h8⟩ := map_inv h6
    subst h8
    have hk := keptRoot_apply ht (held_of_fits ht ha.object ha.fits ha.fresh).kept h7
    obtain ⟨g5, g6⟩ := root_of_okF ht hl hk z2
    have h1 : a.table = r.table := by rw [ha.object]
    have hobj : ({ a with sabun := res } : Root) = { r with sabun := res } := by rw [ha.object]
    refine ⟨{ a with sabun := res }, ?_, ⟨hobj, g5, g6⟩, z4, Diff.RootStays.of_loose z3, ?_, ?_⟩
    · change applyVals L _ a _ = _
      unfold applyVals
      rw [h1]
      rw [g4, Res.bind_ok]
      simp only
      rw [h7]
      rfl
    · rw [hobj, hs.object]
    · have hsd : s.defs = r.defs := by rw [hs.object]
      rw [hsd]
      exact looseRoot_of ht hl g5 hs.fits z3
  · intro a s ha hs
    rw [diff_byId he hu hr ha hs]
    obtain ⟨d, bytes, _, g2, _⟩ := Diff.C13_written_diff_readable_partial L.float (tableDepth r.table) L.ptr _ _ _ (ok a ha).1 (ok s hs).1 (opt a) (opt s)
    exact ⟨bytes, g2⟩

theorem lost_pairs {S T : Type} {o : Phase.Opts} {R : Props × S → Props × T → Prop} (hR : ∀ e e', R e e' → e'.1 = e.1) {log : List (Props × S)}
    {log' : List (Props × T)} (h : List.Forall₂ R log log') (p : Props) : Lost o log' p ↔ Lost o log p := by
  have hm : log'.map (·.1) = log.map (·.1) := by
    induction h with
    | nil => rfl
    | cons h1 _ ih => rw [List.map_cons, List.map_cons, hR _ _ h1, ih]
  have key : ∀ {A B : Type} {l : List (Props × A)} {m : List (Props × B)}, l.map (·.1) = m.map (·.1) → Lost o l p → Lost o m p := by
    rintro A B l m hlm ⟨h1, h2, h3, q, hq, h4⟩
    have : q.1 ∈ m.map (·.1) := by rw [← hlm]; exact List.mem_map.2 ⟨q, hq, rfl⟩
    obtain ⟨q', hq', he⟩ := List.mem_map.1 this
    refine ⟨h1, h2, h3, q', hq', ?_⟩
    rw [he]
    exact h4
  exact ⟨key hm, key hm.symm⟩

/-- **C79 (partial), histories.** The files of a usable source are loaded. A program makes objects from the source, copies them, edits them in
any way (items may be moved, next ids raised), saves them, loads what was saved and goes on with it, in any order and with any options;
writing may be interrupted after any number of bytes, processes may end. Then every file that was written completely is loaded as an
object that fits its definition and is the one that was saved, but for the order of items, next ids and signs of zeros; torn files are
refused. Missing: changed enums (C73), and files that C29 finds lost. -/
theorem C79_history_partial (he : L.env.Sound) {v : Src} (hu : Usable L v) {r : Root} {hash : Nat} (hv : v.root L = .ok (r, hash)) (o : Phase.Opts)
    (st : BSt) (live : Live Root) (log : List (Props × Root)) (torn : List Props)
    (hr : EReach o (histOps L r).ops (EditedAny r) (ShortDiff L) st live log torn) :
    ∃ h, st.history = .ok h ∧ h.listFiles = (log.map (·.1)).reverse ∧ (∀ t ∈ torn, t ∈ h.listFiles) ∧
      ∀ p s, (p, s) ∈ log →
        (p ∉ torn → ¬ Lost o log p → ∃ y, bload o (histOps L r).ops st.dir h p = .ok y ∧ RootFits r.defs y.sabun ∧ ListsFresh y.sabun ∧
          LooseObject y s) ∧
        (p ∉ torn → Lost o log p → bload o (histOps L r).ops st.dir h p = .err) ∧
        (p ∈ torn → bload o (histOps L r).ops st.dir h p = .err) := by
  obtain ⟨store, h1, h2⟩ := hr.stored (rough_sessions he hu hv).1
  obtain ⟨h, hh, hlist, htorn, hload⟩ := C38_interrupted_saves o _ (storeOps_lawful (histOps L r)) st store torn h1
  have hnames : store.map (·.1) = log.map (·.1) := by
    have := h2.pairs
    clear * - this
    induction this with
    | nil => rfl
    | cons h _ ih => rw [List.map_cons, List.map_cons, h.1, ih]
  refine ⟨h, hh, by rw [hlist, hnames], htorn, fun p s hps => ?_⟩
  obtain ⟨i, hi, hx⟩ := List.getElem_of_mem hps
  have hi' : i < store.length := by rw [h2.length]; exact hi
  have hpair := List.forall₂_iff_get.1 h2.pairs |>.2 i hi hi'
  simp only [List.get_eq_getElem] at hpair
  rw [hx] at hpair
  obtain ⟨e1, e2⟩ := hpair
  have hmem : store[i] ∈ store := List.getElem_mem hi'
  generalize hz : store[i] = z at *
  obtain ⟨p', b⟩ := z
  simp only at e1 e2
  subst e1
  obtain ⟨l1, l2, l3⟩ := hload p' b hmem
  obtain ⟨g1, _⟩ := (store_simulates (histOps L r)).load o st.dir h p'
  have hlost : Lost o store p' ↔ Lost o log p' := lost_pairs (fun e e' h => h.1) h2.pairs p'
  refine ⟨fun ht hnl => ?_, fun ht hlo => ?_, fun ht => ?_⟩
  · rw [l1 ht (fun hc => hnl (hlost.1 hc))] at g1
    have hsd := (h2.logs _ hmem).1
    exact ⟨b.1, g1.symm, hsd.fits, hsd.fresh, e2⟩
  · rw [l2 ht (hlost.2 hlo)] at g1
    exact g1.symm
  · rw [l3 ht] at g1
    exact g1.symm

/-- **C79: what is in memory.** Whatever is in memory during such a run, be it loaded or edited, fits its definition, and its lists have
distinct ids below their next ids. -/
theorem C79_memory (he : L.env.Sound) {v : Src} (hu : Usable L v) {r : Root} {hash : Nat} (hv : v.root L = .ok (r, hash)) (o : Phase.Opts)
    (st : BSt) (live : Live Root) (log : List (Props × Root)) (torn : List Props)
    (hr : EReach o (histOps L r).ops (EditedAny r) (ShortDiff L) st live log torn) :
    ∀ rid s, live rid = some s → s = { r with sabun := s.sabun } ∧ RootFits r.defs s.sabun ∧ ListsFresh s.sabun := by
  obtain ⟨store, _, h2⟩ := hr.stored (rough_sessions he hu hv).1
  exact fun rid s h => ⟨(h2.lives rid s h).1.object, (h2.lives rid s h).1.fits, (h2.lives rid s h).1.fresh⟩

/-- **C79 (partial), saving.** In any state of such a run, with any accepted options, any object in memory can be saved, unless the file that
it would continue is one of those of C50 (`Stuck`); the file is the newest one, and it is loaded as what was saved, but for the order of
items, next ids and signs of zeros, unless it is one of those of C29 (`Lost`). Missing: computations of the phase that panic (C52), files
that do not fit into memory. -/
theorem C79_save_partial (he : L.env.Sound) {v : Src} (hu : Usable L v) {r : Root} {hash : Nat} (hv : v.root L = .ok (r, hash)) (o : Phase.Opts)
    (ho : o.build = .ok o) (shift : Shift) (hp : ∀ d, calcNextPhase o shift d ≠ .panic)
    (st : BSt) (live : Live Root) (log : List (Props × Root)) (torn : List Props)
    (hr : EReach o (histOps L r).ops (EditedAny r) (ShortDiff L) st live log torn) (hl : log.length < 10 ^ 8 - 1)
    (rid : Nat) (hnd : ∀ b, st.base = some (rid, b) → ¬ Stuck o log b) (s : Root) (hs : live rid = some s)
    (hg : ∀ a, Compared o shift (histOps L r).ops st rid a → ShortDiff L a s)
    (hf : ∀ x, bplan o shift (histOps L r).ops st rid none s = .ok x → FileOk x.2.1) :
    ∃ st' p h', bsave o shift (histOps L r).ops st rid none s = (st', .ok p) ∧
      EReach o (histOps L r).ops (EditedAny r) (ShortDiff L) st' live ((p, s) :: log) torn ∧ st'.history = .ok h' ∧ h'.newest = some p ∧
      (¬ Lost o ((p, s) :: log) p → ∃ y, bload o (histOps L r).ops st'.dir h' p = .ok y ∧ LooseObject y s) ∧
      (Lost o ((p, s) :: log) p → bload o (histOps L r).ops st'.dir h' p = .err) := by
  obtain ⟨hK, hdiff⟩ := rough_sessions he hu hv
  have hlaw := storeOps_lawful (histOps L r)
  obtain ⟨store, hb, hi⟩ := hr.stored hK
  obtain ⟨ist, hsm⟩ := hb.sim hlaw
  have hnames := stored_names hi.pairs
  obtain ⟨a', ha'⟩ := planBase_ok ho shift hp hlaw hsm rid fun b hb h => hnd b hb ((stuck_names hnames b).1 h)
  have hmap := planBase_map (α := Prod.fst) o shift (st.dir.map (·.1)) st.base (bstat st.dir)
    (fun l => bcompose (storeOps (histOps L r)).ops st.dir l (storeOps (histOps L r)).ops.src)
    (fun l => bcompose (histOps L r).ops st.dir l (histOps L r).ops.src)
    (fun l => ((store_simulates (histOps L r)).composeSrc st.dir l).1) rid none
  rw [ha'] at hmap
  have ha : Compared o shift (histOps L r).ops st rid a'.1 := hmap.symm
  obtain ⟨g1, _, _, _⟩ := compared_stored hK hb hi hs ha
  obtain ⟨out, hout⟩ := hdiff a'.1 s g1 (hi.lives rid s hs).1
  obtain ⟨⟨name, f, r'⟩, hrest⟩ := planRest_ok shift _ _ _ _ rid none a'.1 ha out
  have hplan : bplan o shift (histOps L r).ops st rid none s = .ok (name, f, r') := by
    unfold bplan
    rw [plan_eq]
    have ha2 := ha
    unfold Compared at ha2
    rw [ha2, Res.bind_ok]
    have : (histOps L r).ops.diff a'.1 s = .ok out := hout
    rw [this, Res.bind_ok, hrest]
  obtain ⟨b, hpb, _⟩ := plan_stored hK hb hi hs hg hplan
  obtain ⟨p, rfl, rfl, _, hsv, hctl⟩ := hsm.plan_shape hlaw (hi.length.trans_lt hl) shift rid b name f r' hpb
  have hfo := hf _ hplan
  obtain ⟨head, hc, _⟩ := C48_statistics_survive f.1 hfo.1 hfo.2.1 f.2
  have hbs : bsave o shift (histOps L r).ops st rid none s = (⟨st.dir.write p.filename (head ++ f.2), some (rid, p)⟩, .ok p) := by
    unfold bsave
    rw [hplan]
    simp only [Res.bind_ok]
    rw [hc]
    rfl
  have hr' := EReach.save shift st _ live log torn rid s p hr hs hl hg hf hbs
  obtain ⟨h', hh', hlist, _, hload⟩ := C79_history_partial he hu hv o _ _ _ _ hr'
  have hpt : p ∉ torn := fun h => hctl p h rfl
  obtain ⟨store', hb', hi'⟩ := hr'.stored hK
  obtain ⟨ist', hsm'⟩ := hb'.sim hlaw
  have hk' := knows_of hlaw hb' h' hh'
  have hnew : ∃ q b' rest, store' = (q, b') :: rest ∧ q = p := by
    have hpr := hi'.pairs
    cases hpr with
    | cons h1 _ => exact ⟨_, _, _, rfl, h1.1⟩
  obtain ⟨q, b', rest, rfl, rfl⟩ := hnew
  obtain ⟨l1, l2, _⟩ := hload q s (by simp)
  refine ⟨_, q, h', hbs, hr', hh', hk'.newest hsm'.ideal.inv.sorted, fun hnl => ?_, l2 hpt⟩
  obtain ⟨y, hy, _, _, hsame⟩ := l1 hpt hnl
  exact ⟨y, hy, hsame⟩

/-- **C79, saving in a history without branches.** If no file was derived from a file that was not the newest, and there is more than one
phase, then every file can be continued. -/
theorem C79_linear (he : L.env.Sound) {v : Src} (hu : Usable L v) {r : Root} {hash : Nat} (hv : v.root L = .ok (r, hash)) (o : Phase.Opts)
    (hm : o.maxPhase ≠ 0) (st : BSt) (live : Live Root) (log : List (Props × Root)) (torn : List Props)
    (hr : EReach o (histOps L r).ops (EditedAny r) (ShortDiff L) st live log torn) (hnd : ∀ e ∈ log, e.1.prevCtl = e.1.control)
    (rid : Nat) (b : Props) (hb : st.base = some (rid, b)) : ¬ Stuck o log b := by
  have hlaw := storeOps_lawful (histOps L r)
  obtain ⟨store, hbr, hi⟩ := hr.stored (rough_sessions he hu hv).1
  obtain ⟨ist, hsm⟩ := hbr.sim hlaw
  rw [← stuck_names (stored_names hi.pairs)]
  refine hsm.free hlaw hm ?_ rid b hb
  rw [stored_names hi.pairs]
  simpa using hnd

/-- **C79, saving after a file that cannot be continued.** The save fails, and nothing changes. -/
theorem C79_save_stuck (he : L.env.Sound) {v : Src} (hu : Usable L v) {r : Root} {hash : Nat} (hv : v.root L = .ok (r, hash)) (o : Phase.Opts)
    (shift : Shift) (hp : ∀ d, calcNextPhase o shift d ≠ .panic) (st : BSt) (live : Live Root) (log : List (Props × Root))
    (torn : List Props) (hr : EReach o (histOps L r).ops (EditedAny r) (ShortDiff L) st live log torn) (rid : Nat) (b : Props)
    (hb : st.base = some (rid, b)) (hnd : Stuck o log b) (s : Root) :
    bsave o shift (histOps L r).ops st rid none s = (st, .err) := by
  have hlaw := storeOps_lawful (histOps L r)
  obtain ⟨store, hbr, hi⟩ := hr.stored (rough_sessions he hu hv).1
  obtain ⟨ist, hsm⟩ := hbr.sim hlaw
  unfold bsave bplan
  rw [plan_eq, planBase_stuck _ shift hp hsm rid b hb ((stuck_names (stored_names hi.pairs) b).2 hnd)]
  rfl

/-- Runs of C78 are such runs. -/
theorem C79_of_sessions {r : Root} {o : Phase.Opts} {st : BSt} {live : Live Root} {log : List (Props × Root)} {torn : List Props}
    (hr : EReach o (histOps L r).ops (Edited r) (Fine L r) st live log torn) :
    EReach o (histOps L r).ops (EditedAny r) (ShortDiff L) st live log torn := by
  induction hr with
  | start dir hn hf => exact .start dir hn hf
  | create st live log torn rid _ hn ih => exact .create _ _ _ _ rid ih hn
  | copy st live log torn rid new s _ hs hn ih => exact .copy _ _ _ _ rid new s ih hs hn
  | edit st live log torn rid s t _ hs he ih => exact .edit _ _ _ _ rid s t ih hs ⟨he.1, C79_of_session he.2⟩
  | save shift st st' live log torn rid s p _ hlv hl hg hf hs ih =>
    exact .save shift _ _ _ _ _ rid s p ih hlv hl (fun a ha => (hg a ha).short) hf hs
  | fail shift st st' live log torn rid s r _ hlv hl hg hf hs hp ih =>
    exact .fail shift _ _ _ _ _ rid s r ih hlv hl (fun a ha => (hg a ha).short) hf hs hp
  | interrupt shift st live log torn rid s name c f p n _ hlv hl hg hp hf hc ih =>
    exact .interrupt shift _ _ _ _ rid s name c f p n ih hlv hl (fun a ha => (hg a ha).short) hp hf hc
  | load st live log torn h p rid y _ hh hp hn hy ih => exact .load _ _ _ _ h p rid y ih hh hp hn hy
  | unloaded st live log torn h p rid _ hh hp hn hy ih => exact .unloaded _ _ _ _ h p rid ih hh hp hn hy
  | list st dir live log torn _ hp ih => exact .list _ dir _ _ _ ih hp
  | restart st live log torn _ ih => exact .restart _ _ _ _ ih

end
end Verif.Pipeline
