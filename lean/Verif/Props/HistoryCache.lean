import Verif.Spec.HistoryAlike
import Verif.Lemmas.HistoryCacheRun
import Verif.Lemmas.DiffAlikeNamed
import Verif.Props.HistoryLoose
/-!
# Property C81

What a program keeps in its cache between saves (`dochy_cache.rs`) is not what is in the files: it is the object that was saved, or what a
diff gave when it was applied to such an object. Files are nevertheless loaded as what was saved, but for the order of items, next ids and
signs of zeros.
-/
namespace Verif.Pipeline
open Codec VarInt Source Core Named Archive History FileName FileHistory Phase

section
variable {L : Lib}

/-- two objects are alike, by id -/
def AlikeId (r a b : Root) : Prop := Diff.RootAlike (tableDepth r.table) (byId r a) (byId r b)

/-- what sessions keep, by id, of objects that were seen before -/
def HoldsId (q : Prop) (r a b : Root) : Prop := Diff.RootHolds q (tableDepth r.table) (byId r a) (byId r b)

theorem sound_okF (he : L.env.Sound) {v : Src} (hu : Usable L v) {r : Root} {h : Nat} (hr : v.root L = .ok (r, h)) {a : Root} (ha : Sound r a) :
    Diff.RootOkF (tableDepth r.table) (rootL (tableDepth r.table) r.table) (byId r a) := by
  obtain ⟨ht, _, _⟩ := usable_fits he hu hr
  have hl := levelOk_depth r.table
  obtain ⟨hno, c, hc, hsz⟩ := hu.lists r h hr
  have hc' : c < 2 ^ 62 := hc
  have hs' : ∀ k id d u, r.defs.get k = some (id, .mlist d u) → Sized c c d :=
    fun k id d u hk => (hsz k id d u hk).sized
  exact rootOkF_of hc' ht hl (hu.memory r h hr).2 hs' ha.fits ha.fresh

/-- the diff of real objects is that of the objects by id, whatever they share -/
theorem ptrDiff_byId (he : L.env.Sound) {v : Src} (hu : Usable L v) {r : Root} {h : Nat} (hr : v.root L = .ok (r, h)) (pt : Diff.Ptr) {a s : Root}
    (ha : Sound r a) (hs : Sound r s) :
    ptrDiff L pt a s = Diff.getKvals L.float (tableDepth r.table) pt (rootL (tableDepth r.table) r.table) (byId r a) (byId r s) := by
  obtain ⟨ht, _, _⟩ := usable_fits he hu hr
  have hl := levelOk_depth r.table
  obtain ⟨hno, c, hc, hsz⟩ := hu.lists r h hr
  have hc' : c < 2 ^ 62 := hc
  have hs' : ∀ k id d u, r.defs.get k = some (id, .mlist d u) → Sized c c d :=
    fun k id d u hk => (hsz k id d u hk).sized
  have ho : ∀ s : AMap RootSab, OptUndefined r.defs s := fun s k id d hk => absurd hk (hno k id d)
  have h1 : a.table = r.table := by rw [ha.object]
  have h2 : a.defs = r.defs := by rw [ha.object]
  change kvals { L with ptr := pt } _ a s = _
  unfold kvals Diff.getKvals byId
  rw [h1, h2, nRootDiff_eq hc' ht hl (hu.memory r h hr).2 hs' pt ha.fits hs.fits (ho _) (ho _)]

/-- A diff can be applied to all versions of what it was made for. -/
theorem diff_alike (he : L.env.Sound) {v : Src} (hu : Usable L v) {r : Root} {h : Nat} (hr : v.root L = .ok (r, h)) (q : Prop) (pt : Diff.Ptr)
    {a s : Root} (ha : Sound r a) (hs : Sound r s) (hst : HoldsId q r a s) (hsh : ShortFor L pt a s) {vals : List KVal}
    (hv : ptrDiff L pt a s = .ok vals) :
    Short vals ∧ ∀ g, Sound r g → AlikeId r g a → ∃ y, (histOps L r).app g (vals.map norm) = .ok y ∧ Sound r y ∧ AlikeId r y s ∧
      ∀ e, HoldsId q r e g → HoldsId q r e s → HoldsId q r e y := by
  obtain ⟨ht, hf, hfr⟩ := usable_fits he hu hr
  have hl := levelOk_depth r.table
  obtain ⟨hno, c, hc, hsz⟩ := hu.lists r h hr
  have ho : ∀ s : AMap RootSab, OptUndefined r.defs s := fun s k id d hk => absurd hk (hno k id d)
  have ok := fun {a : Root} (ha : Sound r a) => sound_okF he hu hr ha
  have opt : ∀ a : Root, Diff.OptListsUndefined (tableDepth r.table) (rootL (tableDepth r.table) r.table) (byId r a) :=
    fun a => optUndefined_of ht hl (ho _)
  have hvb := hv
  rw [ptrDiff_byId he hu hr pt ha hs] at hvb
  obtain ⟨d, hd, hw⟩ := bind_inv hvb
  have hok := Diff.getRootDiff_ok (ok ha).1 (ok hs).1 (opt a) (opt s) hd
  obtain ⟨bytes, g1, g2⟩ := Diff.good_bytes (Diff.good_root L.float _ _ d hok)
  obtain ⟨o, e1, e2, _⟩ := Diff.good_root L.float _ _ d hok
  rw [hw] at e1
  cases e1
  rw [hw, Res.bind_ok] at g1
  have hlt := hsh vals bytes hv g1
  have hlv := Diff.length_lt_of_encode g1 hlt
  obtain ⟨vals', g3, g4⟩ := g2 hlt
  have hdec := decode_encodeVals vals e2 hlv bytes g1 (by omega) []
  rw [List.append_nil, g3] at hdec
  cases hdec
  rw [if_pos (Diff.rootReadable_of_legible (legibleRoot_of ht hl hsz) hok)] at g4
  refine ⟨⟨e2, hlv, fun out hout => by rw [g1] at hout; cases hout; omega⟩, fun g hg hga => ?_⟩
  obtain ⟨z, z1, z2, z3, z4⟩ := Diff.applyRootDiff_alike (ok hg) (ok ha) (ok hs) (opt a) (opt s) hga hst hd
  have h6 := nApplyRoot_eq ht hl g.sabun d
  unfold byId at z1
  rw [z1] at h6
  obtain ⟨res, h7, h8⟩ := map_inv h6
  subst h8
  have hk := keptRoot_apply ht (held_of_fits ht hg.object hg.fits hg.fresh).kept h7
  obtain ⟨g5, g6⟩ := root_of_okF ht hl hk z2
  have h1 : g.table = r.table := by rw [hg.object]
  have hobj : ({ g with sabun := res } : Root) = { r with sabun := res } := by rw [hg.object]
  refine ⟨{ g with sabun := res }, ?_, ⟨hobj, g5, g6⟩, z3, fun e h1 h2 => z4 _ h1 h2⟩
  change applyVals L _ g _ = _
  unfold applyVals
  rw [h1]
  rw [g4, Res.bind_ok]
  simp only
  rw [h7]
  rfl

/-- Sessions of edits. -/
theorem rough_cache (he : L.env.Sound) {v : Src} (hu : Usable L v) {r : Root} {h : Nat} (hr : v.root L = .ok (r, h)) :
    RoughC (histOps L r) (ptrDiff L) (Sound r) (HoldsId True r) (EditedAny r) (ShortFor L) (AlikeId r) := by
  obtain ⟨ht, hf, hfr⟩ := usable_fits he hu hr
  have hl := levelOk_depth r.table
  obtain ⟨hno, c, hc, hsz⟩ := hu.lists r h hr
  have hc' : c < 2 ^ 62 := hc
  have hs' : ∀ k id d u, r.defs.get k = some (id, .mlist d u) → Sized c c d :=
    fun k id d u hk => (hsz k id d u hk).sized
  have hlen := (hu.memory r h hr).2
  refine ⟨⟨rfl, hf, hfr⟩, fun a ha => Diff.RootAlike.refl (sound_okF he hu hr ha), fun a b h => Diff.RootAlike.symm h,
    fun a b c h1 h2 => Diff.RootAlike.trans h1 h2, fun a b hb h => Diff.RootHolds.of_alike (sound_okF he hu hr hb) h,
    fun a a' b h1 h2 => Diff.RootHolds.left h1 h2, fun a b ha hb => ?_, fun pt a s vals ha hs hst hsh hv => ?_⟩
  · obtain ⟨g1, g2, _, g4⟩ := sessionAny_keeps hc' ht hl hlen hs' hb.2 ha.fresh ha.fits
    exact ⟨⟨hb.1, g2, g1⟩, fun e _ hea => Diff.RootHolds.go hea g4⟩
  · obtain ⟨g1, g2⟩ := diff_alike he hu hr True pt ha hs hst hsh hv
    refine ⟨g1, fun g hg hga => ?_⟩
    obtain ⟨y, y1, y2, y3, y4⟩ := g2 g hg hga
    exact ⟨y, y1, y2, y3, fun e _ => y4 e⟩

/-- Any edits. -/
theorem rough_cache_any (he : L.env.Sound) {v : Src} (hu : Usable L v) {r : Root} {h : Nat} (hr : v.root L = .ok (r, h)) :
    RoughC (histOps L r) (ptrDiff L) (Sound r) (fun _ _ => True) (EditedTo r) (FineStays L r) (AlikeId r) := by
  obtain ⟨ht, hf, hfr⟩ := usable_fits he hu hr
  have hl := levelOk_depth r.table
  refine ⟨⟨rfl, hf, hfr⟩, fun a ha => Diff.RootAlike.refl (sound_okF he hu hr ha), fun a b h => Diff.RootAlike.symm h,
    fun a b c h1 h2 => Diff.RootAlike.trans h1 h2, fun _ _ _ _ => trivial, fun _ _ _ _ _ => trivial,
    fun a b _ hb => ⟨⟨hb.1, hb.2.1, hb.2.2⟩, fun _ _ _ => trivial⟩, fun pt a s vals ha hs _ hsh hv => ?_⟩
  have hst : HoldsId False r a s := rootHolds_of ht hl ha.fits hs.fits hsh.2
  obtain ⟨g1, g2⟩ := diff_alike he hu hr False pt ha hs hst hsh.1 hv
  refine ⟨g1, fun g hg hga => ?_⟩
  obtain ⟨y, y1, y2, y3, _⟩ := g2 g hg hga
  exact ⟨y, y1, y2, y3, fun _ _ _ _ => trivial⟩

theorem alikeObject_of (he : L.env.Sound) {v : Src} (hu : Usable L v) {r : Root} {h : Nat} (hr : v.root L = .ok (r, h)) {y s : Root}
    (hy : Sound r y) (hs : Sound r s) (ha : AlikeId r y s) : AlikeObject y s := by
  obtain ⟨ht, _, _⟩ := usable_fits he hu hr
  have hl := levelOk_depth r.table
  have hsd : s.defs = r.defs := by rw [hs.object]
  refine ⟨?_, ?_⟩
  · rw [hs.object]
    exact hy.object
  · rw [hsd]
    exact alikeRoot_of ht hl hy.fits hs.fits ha

/-- What is loaded, from runs that can be followed. -/
theorem cache_loads (he : L.env.Sound) {v : Src} (hu : Usable L v) {r : Root} {hash : Nat} (hv : v.root L = .ok (r, hash))
    {K Edits : Root → Root → Prop} {Fine : Diff.Ptr → Root → Root → Prop} (hK : RoughC (histOps L r) (ptrDiff L) (Sound r) K Edits Fine (AlikeId r)) (o : Phase.Opts)
    (st : BSt) (c : Cache Root) (live : Live Root) (log : List (Props × Root)) (torn : List Props)
    (hr : CReach o (histOps L r) (ptrDiff L) Edits Fine st c live log torn) :
    ∃ h, st.history = .ok h ∧ h.listFiles = (log.map (·.1)).reverse ∧ (∀ t ∈ torn, t ∈ h.listFiles) ∧
      ∀ p s, (p, s) ∈ log →
        (p ∉ torn → ¬ Lost o log p →
          (∃ y, bload o (histOps L r).ops st.dir h p = .ok y ∧ RootFits r.defs y.sabun ∧ ListsFresh y.sabun ∧ AlikeObject y s) ∧
          ∃ y, bloadC o (histOps L r).ops st.dir c h p = .ok y ∧ RootFits r.defs y.sabun ∧ ListsFresh y.sabun ∧ AlikeObject y s) ∧
        (p ∉ torn → Lost o log p → bload o (histOps L r).ops st.dir h p = .err ∧ bloadC o (histOps L r).ops st.dir c h p = .err) ∧
        (p ∈ torn → bload o (histOps L r).ops st.dir h p = .err ∧ bloadC o (histOps L r).ops st.dir c h p = .err) := by
  obtain ⟨store, h1, h2⟩ := hr.stored hK
  obtain ⟨h, hh, hlist, htorn, hload⟩ := C38_interrupted_saves o _ (storeOps_lawful (histOps L r)) st store torn h1
  have hnames : store.map (·.1) = log.map (·.1) := by
    have := h2.pairs
    clear * - this
    induction this with
    | nil => rfl
    | cons h _ ih => rw [List.map_cons, List.map_cons, h.1, ih]
  refine ⟨h, hh, by rw [hlist, hnames], htorn, fun p s hps => ?_⟩
  obtain ⟨i, hi, hx⟩ := List.getElem_of_mem hps
  have hi' : i < store.length := by rw [h2.length]; exact hi
  have hpair := List.forall₂_iff_get.1 h2.pairs |>.2 i hi hi'
  simp only [List.get_eq_getElem] at hpair
  rw [hx] at hpair
  obtain ⟨e1, e2⟩ := hpair
  have hmem : store[i] ∈ store := List.getElem_mem hi'
  have hls : Sound r s := hr.logs_ok hK (p, s) hps
  generalize hz : store[i] = z at *
  obtain ⟨p', b⟩ := z
  simp only at e1 e2
  subst e1
  obtain ⟨l1, l2, l3⟩ := hload p' b hmem
  obtain ⟨g1, _⟩ := (store_simulates (histOps L r)).load o st.dir h p'
  have hlost : Lost o store p' ↔ Lost o log p' := lost_pairs (fun e e' h => h.1) h2.pairs p'
  obtain ⟨c1, c2, c3⟩ := bloadC_version hK h1 h2.resp h2.stored h hh h2.cache (p', b) hmem
  refine ⟨fun ht hnl => ⟨?_, ?_⟩, fun ht hlo => ⟨?_, ?_⟩, fun ht => ⟨?_, ?_⟩⟩
  · rw [l1 ht (fun hc => hnl (hlost.1 hc))] at g1
    have hsd := h2.stored _ hmem
    exact ⟨b.1, g1.symm, hsd.fits, hsd.fresh, alikeObject_of he hu hv hsd hls e2⟩
  · obtain ⟨y, hy⟩ := c2 ht (fun hc => hnl (hlost.1 hc))
    obtain ⟨_, _, hver⟩ := c1 y hy
    exact ⟨y, hy, hver.ok.fits, hver.ok.fresh, alikeObject_of he hu hv hver.ok hls (hK.trans _ _ _ hver.alike e2)⟩
  · rw [l2 ht (hlost.2 hlo)] at g1
    exact g1.symm
  · exact c3 (.inr (hlost.2 hlo))
  · rw [l3 ht] at g1
    exact g1.symm
  · exact c3 (.inl ht)

/-- **C81 (partial).** The files of a usable source are loaded. A program makes objects from the source, copies them, edits them in any way
(items may be moved, next ids raised), saves them, loads what was saved and goes on with it, in any order and with any options; it keeps a
cache as it does; what objects share in memory may be anything; writing may be interrupted after any number of bytes, processes may end.
Then every file that was written completely is loaded, with the cache or without, as an object that fits its definition and is the one that
was saved, but for the order of items, next ids and signs of zeros; torn files are refused. Missing: lists whose next id is reset when they
are copied (C80; `C81_history_any` has them), changed enums (C73), and files that C29 finds lost. -/
theorem C81_history_partial (he : L.env.Sound) {v : Src} (hu : Usable L v) {r : Root} {hash : Nat} (hv : v.root L = .ok (r, hash))
    (o : Phase.Opts) (st : BSt) (c : Cache Root) (live : Live Root) (log : List (Props × Root)) (torn : List Props)
    (hr : CReach o (histOps L r) (ptrDiff L) (EditedAny r) (ShortFor L) st c live log torn) :
    ∃ h, st.history = .ok h ∧ h.listFiles = (log.map (·.1)).reverse ∧ (∀ t ∈ torn, t ∈ h.listFiles) ∧
      ∀ p s, (p, s) ∈ log →
        (p ∉ torn → ¬ Lost o log p →
          (∃ y, bload o (histOps L r).ops st.dir h p = .ok y ∧ RootFits r.defs y.sabun ∧ ListsFresh y.sabun ∧ AlikeObject y s) ∧
          ∃ y, bloadC o (histOps L r).ops st.dir c h p = .ok y ∧ RootFits r.defs y.sabun ∧ ListsFresh y.sabun ∧ AlikeObject y s) ∧
        (p ∉ torn → Lost o log p → bload o (histOps L r).ops st.dir h p = .err ∧ bloadC o (histOps L r).ops st.dir c h p = .err) ∧
        (p ∈ torn → bload o (histOps L r).ops st.dir h p = .err ∧ bloadC o (histOps L r).ops st.dir c h p = .err) :=
  cache_loads he hu hv (rough_cache he hu hv) o st c live log torn hr

/-- **C81, any edits.** The same for programs that make anything of an object that fits its definition and has distinct ids below its next
ids, when they save it only if what is set in the items of the object that it is compared with is set in the items with the same ids. -/
theorem C81_history_any (he : L.env.Sound) {v : Src} (hu : Usable L v) {r : Root} {hash : Nat} (hv : v.root L = .ok (r, hash))
    (o : Phase.Opts) (st : BSt) (c : Cache Root) (live : Live Root) (log : List (Props × Root)) (torn : List Props)
    (hr : CReach o (histOps L r) (ptrDiff L) (EditedTo r) (FineStays L r) st c live log torn) :
    ∃ h, st.history = .ok h ∧ h.listFiles = (log.map (·.1)).reverse ∧ (∀ t ∈ torn, t ∈ h.listFiles) ∧
      ∀ p s, (p, s) ∈ log →
        (p ∉ torn → ¬ Lost o log p →
          (∃ y, bload o (histOps L r).ops st.dir h p = .ok y ∧ RootFits r.defs y.sabun ∧ ListsFresh y.sabun ∧ AlikeObject y s) ∧
          ∃ y, bloadC o (histOps L r).ops st.dir c h p = .ok y ∧ RootFits r.defs y.sabun ∧ ListsFresh y.sabun ∧ AlikeObject y s) ∧
        (p ∉ torn → Lost o log p → bload o (histOps L r).ops st.dir h p = .err ∧ bloadC o (histOps L r).ops st.dir c h p = .err) ∧
        (p ∈ torn → bload o (histOps L r).ops st.dir h p = .err ∧ bloadC o (histOps L r).ops st.dir c h p = .err) :=
  cache_loads he hu hv (rough_cache_any he hu hv) o st c live log torn hr

/-- **C81: what is in memory and in the cache.** Whatever is in memory during such a run, be it loaded or edited, and whatever is in the cache,
fits its definition, and its lists have distinct ids below their next ids; what is in the cache is, but for the order of items, next ids and
signs of zeros, what was saved in the file with the name that it is kept for. -/
theorem C81_memory (he : L.env.Sound) {v : Src} (hu : Usable L v) {r : Root} {hash : Nat} (hv : v.root L = .ok (r, hash)) (o : Phase.Opts)
    (st : BSt) (c : Cache Root) (live : Live Root) (log : List (Props × Root)) (torn : List Props)
    (hr : CReach o (histOps L r) (ptrDiff L) (EditedAny r) (ShortFor L) st c live log torn) :
    (∀ rid s, live rid = some s → s = { r with sabun := s.sabun } ∧ RootFits r.defs s.sabun ∧ ListsFresh s.sabun) ∧
      ∀ x ∈ c, ∃ e ∈ log, e.1 ∉ torn ∧ e.1.filename = x.2.1 ∧ e.1.order.length = x.1 + 1 ∧ RootFits r.defs x.2.2.sabun ∧
        ListsFresh x.2.2.sabun ∧ AlikeObject x.2.2 e.2 := by
  have hK := rough_cache he hu hv
  obtain ⟨store, _, h2⟩ := hr.stored hK
  refine ⟨fun rid s h => ⟨(h2.lives rid s h).1.object, (h2.lives rid s h).1.fits, (h2.lives rid s h).1.fresh⟩, fun x hx => ?_⟩
  obtain ⟨e, hem, g1, g2, g3, g4⟩ := h2.cache.entry x hx
  obtain ⟨e', he', h3, h4⟩ : ∃ e' ∈ log, e.1 = e'.1 ∧ AlikeId r e.2.1 e'.2 := by
    have hpr := h2.pairs
    clear * - hpr hem
    induction hpr with
    | nil => cases hem
    | cons h1 _ ih =>
      rcases List.mem_cons.1 hem with rfl | hem
      · exact ⟨_, List.mem_cons_self, h1⟩
      · obtain ⟨e', h2, h3⟩ := ih hem
        exact ⟨e', List.mem_cons_of_mem _ h2, h3⟩
  refine ⟨e', he', by rw [← h3]; exact g1, by rw [← h3]; exact g2, by rw [← h3]; exact g3, g4.ok.fits, g4.ok.fresh, ?_⟩
  exact alikeObject_of he hu hv g4.ok (hr.logs_ok hK e' he') (Diff.RootAlike.trans g4.alike h4)

theorem cache_saves (he : L.env.Sound) {v : Src} (hu : Usable L v) {r : Root} {hash : Nat} (hv : v.root L = .ok (r, hash))
    {K Edits : Root → Root → Prop} {Fine : Diff.Ptr → Root → Root → Prop}
    (hK : RoughC (histOps L r) (ptrDiff L) (Sound r) K Edits Fine (AlikeId r)) (o : Phase.Opts)
    (ho : o.build = .ok o) (shift : Shift) (hp : ∀ d, calcNextPhase o shift d ≠ .panic)
    (st : BSt) (c : Cache Root) (live : Live Root) (log : List (Props × Root)) (torn : List Props)
    (hr : CReach o (histOps L r) (ptrDiff L) Edits Fine st c live log torn) (hl : log.length < 10 ^ 8 - 1)
    (rid : Nat) (hnd : ∀ b, st.base = some (rid, b) → ¬ Stuck o log b) (s : Root) (hs : live rid = some s) (pt : Diff.Ptr)
    (hg : ∀ a, ComparedC o shift (histOps L r).ops st c rid a → Fine pt a s)
    (hf : ∀ x, (bplanC o shift ((histOps L r).withDiff (ptrDiff L pt)).ops st c rid none s).2 = .ok x → FileOk x.1.2.1) :
    ∃ c' st' p h', bsaveC o shift ((histOps L r).withDiff (ptrDiff L pt)).ops st c rid none s = (c', st', .ok p) ∧
      CReach o (histOps L r) (ptrDiff L) Edits Fine st' c' live ((p, s) :: log) torn ∧ st'.history = .ok h' ∧
      h'.newest = some p ∧
      (¬ Lost o ((p, s) :: log) p → (∃ y, bload o (histOps L r).ops st'.dir h' p = .ok y ∧ AlikeObject y s) ∧
        ∃ z, bloadC o (histOps L r).ops st'.dir c' h' p = .ok z ∧ AlikeObject z s) ∧
      (Lost o ((p, s) :: log) p →
        bload o (histOps L r).ops st'.dir h' p = .err ∧ bloadC o (histOps L r).ops st'.dir c' h' p = .err) := by
  have hlaw := storeOps_lawful (histOps L r)
  obtain ⟨store, hb, hi⟩ := hr.stored hK
  obtain ⟨ist, hsm⟩ := hb.sim hlaw
  have hnames := stored_names hi.pairs
  obtain ⟨a', ha'⟩ := planBase_ok ho shift hp hlaw hsm rid fun b hb h => hnd b hb ((stuck_names hnames b).1 h)
  rw [planBase_bind] at ha'
  obtain ⟨l, hdeps, _⟩ := bind_inv ha'
  obtain ⟨h, hh, _⟩ := C38_interrupted_saves o _ hlaw st _ torn hb
  obtain ⟨g1, g2, g3⟩ := deps_good hb hi hs hdeps h hh
  obtain ⟨⟨a, happ, hat⟩, _⟩ := bapplyForSave_at hK hb hi.resp hi.stored h hh g1 g2 hi.cache
  have ha : ComparedC o shift (histOps L r).ops st c rid a := by
    unfold ComparedC
    rw [planBase_bind, hdeps, Res.bind_ok, happ]
  have hls := (hi.lives rid s hs).1
  obtain ⟨out, hout⟩ : ∃ out, (ptrDiff L pt a s).bind encodeVals = .ok out := by
    obtain ⟨ht, _, _⟩ := usable_fits he hu hv
    obtain ⟨hno, _⟩ := hu.lists r hash hv
    have opt : ∀ a : Root, Diff.OptListsUndefined (tableDepth r.table) (rootL (tableDepth r.table) r.table) (byId r a) :=
      fun a => optUndefined_of ht (levelOk_depth r.table) (fun k id d hk => absurd hk (hno k id d))
    rw [ptrDiff_byId he hu hv pt hat.ok hls]
    obtain ⟨d, bytes, _, g2, _⟩ := Diff.C13_written_diff_readable_partial L.float (tableDepth r.table) pt _ _ _
      (sound_okF he hu hv hat.ok).1 (sound_okF he hu hv hls).1 (opt a) (opt s)
    exact ⟨bytes, g2⟩
  obtain ⟨⟨name, f, r'⟩, hrest⟩ := planRest_ok shift _ _ _ _ rid none a ha out
  obtain ⟨q1, _⟩ := bplanC_eq o shift ((histOps L r).withDiff (ptrDiff L pt)).ops st c rid s
  have hsave : (fun l => (bapplyForSave o ((histOps L r).withDiff (ptrDiff L pt)).ops st.dir l c).2) =
      fun l => (bapplyForSave o (histOps L r).ops st.dir l c).2 := by
    funext l
    rw [bapplyForSave_withDiff]
  have ha2 := ha
  unfold ComparedC at ha2
  have hout' : ((histOps L r).withDiff (ptrDiff L pt)).ops.diff a s = .ok out := hout
  rw [hsave, plan_eq, ha2, Res.bind_ok, hout', Res.bind_ok, hrest] at q1
  obtain ⟨⟨x, ph⟩, hplan, hx⟩ := map_inv q1
  simp only at hx
  subst hx
  obtain ⟨_, q2⟩ := planC_stored hK hb hi hl pt hs hg
  obtain ⟨⟨b, hpb, _⟩, _⟩ := q2 _ _ hplan
  obtain ⟨p, rfl, rfl, _, hsv, hctl⟩ := hsm.plan_shape hlaw (hi.length.trans_lt hl) shift rid b name f r' hpb
  have hfo := hf _ hplan
  obtain ⟨head, hc, _⟩ := C48_statistics_survive f.1 hfo.1 hfo.2.1 f.2
  have hbs : ∃ c', bsaveC o shift ((histOps L r).withDiff (ptrDiff L pt)).ops st c rid none s =
      (c', ⟨st.dir.write p.filename (head ++ f.2), some (rid, p)⟩, .ok p) := by
    refine ⟨setCache (bplanC o shift ((histOps L r).withDiff (ptrDiff L pt)).ops st c rid none s).1 p.filename s ph, ?_⟩
    unfold bsaveC
    simp only
    rw [hplan]
    simp only [Res.bind_ok]
    rw [hc]
    rfl
  obtain ⟨c', hbs⟩ := hbs
  have hr' := CReach.save pt shift st _ c c' live log torn rid s p hr hs hl hg hf hbs
  obtain ⟨h', hh', hlist, _, hload⟩ := cache_loads he hu hv hK o _ _ _ _ _ hr'
  have hpt : p ∉ torn := fun h => hctl p h rfl
  obtain ⟨store', hb', hi'⟩ := hr'.stored hK
  obtain ⟨ist', hsm'⟩ := hb'.sim hlaw
  have hk' := knows_of hlaw hb' h' hh'
  have hnew : ∃ q b' rest, store' = (q, b') :: rest ∧ q = p := by
    have hpr := hi'.pairs
    cases hpr with
    | cons h1 _ => exact ⟨_, _, _, rfl, h1.1⟩
  obtain ⟨q, b', rest, rfl, rfl⟩ := hnew
  obtain ⟨l1, l2, _⟩ := hload q s (by simp)
  refine ⟨_, _, q, h', hbs, hr', hh', hk'.newest hsm'.ideal.inv.sorted, fun hnl => ?_, l2 hpt⟩
  obtain ⟨⟨y, hy, _, _, hsame⟩, z, hz, _, _, hsame'⟩ := l1 hpt hnl
  exact ⟨⟨y, hy, hsame⟩, z, hz, hsame'⟩

theorem cache_linear {L : Lib} {r : Root} {K Edits : Root → Root → Prop} {Fine : Diff.Ptr → Root → Root → Prop}
    (hK : RoughC (histOps L r) (ptrDiff L) (Sound r) K Edits Fine (AlikeId r)) (o : Phase.Opts)
    (hm : o.maxPhase ≠ 0) (st : BSt) (c : Cache Root) (live : Live Root) (log : List (Props × Root)) (torn : List Props)
    (hr : CReach o (histOps L r) (ptrDiff L) Edits Fine st c live log torn) (hnd : ∀ e ∈ log, e.1.prevCtl = e.1.control)
    (rid : Nat) (b : Props) (hb : st.base = some (rid, b)) : ¬ Stuck o log b := by
  have hlaw := storeOps_lawful (histOps L r)
  obtain ⟨store, hbr, hi⟩ := hr.stored hK
  obtain ⟨ist, hsm⟩ := hbr.sim hlaw
  rw [← stuck_names (stored_names hi.pairs)]
  refine hsm.free hlaw hm ?_ rid b hb
  rw [stored_names hi.pairs]
  simpa using hnd

theorem cache_stuck {L : Lib} {r : Root} {K Edits : Root → Root → Prop} {Fine : Diff.Ptr → Root → Root → Prop}
    (hK : RoughC (histOps L r) (ptrDiff L) (Sound r) K Edits Fine (AlikeId r)) (o : Phase.Opts)
    (shift : Shift) (hp : ∀ d, calcNextPhase o shift d ≠ .panic) (st : BSt) (c : Cache Root) (live : Live Root) (log : List (Props × Root))
    (torn : List Props) (hr : CReach o (histOps L r) (ptrDiff L) Edits Fine st c live log torn) (rid : Nat) (b : Props)
    (hb : st.base = some (rid, b)) (hnd : Stuck o log b) (pt : Diff.Ptr) (s : Root) :
    bsaveC o shift ((histOps L r).withDiff (ptrDiff L pt)).ops st c rid none s = (c, st, .err) := by
  have hlaw := storeOps_lawful (histOps L r)
  obtain ⟨store, hbr, hi⟩ := hr.stored hK
  obtain ⟨ist, hsm⟩ := hbr.sim hlaw
  have hst := (stuck_names (stored_names hi.pairs) b).2 hnd
  obtain ⟨q1, q2⟩ := bplanC_eq o shift ((histOps L r).withDiff (ptrDiff L pt)).ops st c rid s
  rw [plan_eq, planBase_stuck _ shift hp hsm rid b hb hst] at q1
  have q3 : planDeps o shift st rid = .err := planBase_stuck _ shift hp hsm rid b hb hst
  rw [q3] at q2
  unfold bsaveC
  simp only [q2]
  cases hx : (bplanC o shift ((histOps L r).withDiff (ptrDiff L pt)).ops st c rid none s).2 with
  | ok y => rw [hx] at q1; cases q1
  | panic => rw [hx] at q1; cases q1
  | err => rfl

/-- **C81, saving in a history without branches.** If no file was derived from a file that was not the newest, and there is more than one
phase, then every file can be continued. -/
theorem C81_linear (he : L.env.Sound) {v : Src} (hu : Usable L v) {r : Root} {hash : Nat} (hv : v.root L = .ok (r, hash)) (o : Phase.Opts)
    (hm : o.maxPhase ≠ 0) (st : BSt) (c : Cache Root) (live : Live Root) (log : List (Props × Root)) (torn : List Props)
    (hr : CReach o (histOps L r) (ptrDiff L) (EditedTo r) (FineStays L r) st c live log torn) (hnd : ∀ e ∈ log, e.1.prevCtl = e.1.control)
    (rid : Nat) (b : Props) (hb : st.base = some (rid, b)) : ¬ Stuck o log b :=
  cache_linear (rough_cache_any he hu hv) o hm st c live log torn hr hnd rid b hb

/-- **C81, saving after a file that cannot be continued.** The save fails, and neither the files nor the cache change. -/
theorem C81_save_stuck (he : L.env.Sound) {v : Src} (hu : Usable L v) {r : Root} {hash : Nat} (hv : v.root L = .ok (r, hash)) (o : Phase.Opts)
    (shift : Shift) (hp : ∀ d, calcNextPhase o shift d ≠ .panic) (st : BSt) (c : Cache Root) (live : Live Root) (log : List (Props × Root))
    (torn : List Props) (hr : CReach o (histOps L r) (ptrDiff L) (EditedTo r) (FineStays L r) st c live log torn) (rid : Nat) (b : Props)
    (hb : st.base = some (rid, b)) (hnd : Stuck o log b) (pt : Diff.Ptr) (s : Root) :
    bsaveC o shift ((histOps L r).withDiff (ptrDiff L pt)).ops st c rid none s = (c, st, .err) :=
  cache_stuck (rough_cache_any he hu hv) o shift hp st c live log torn hr rid b hb hnd pt s

/-- **C81 (partial), saving.** In any state of such a run, with any accepted options, any object in memory can be saved, unless the file that
it would continue is one of those of C50 (`Stuck`); the file is the newest one, and it is loaded, with the cache and without, as what was
saved, but for the order of items, next ids and signs of zeros, unless it is one of those of C29 (`Lost`). Missing: computations of the
phase that panic (C52), files that do not fit into memory. -/
theorem C81_save_partial (he : L.env.Sound) {v : Src} (hu : Usable L v) {r : Root} {hash : Nat} (hv : v.root L = .ok (r, hash)) (o : Phase.Opts)
    (ho : o.build = .ok o) (shift : Shift) (hp : ∀ d, calcNextPhase o shift d ≠ .panic)
    (st : BSt) (c : Cache Root) (live : Live Root) (log : List (Props × Root)) (torn : List Props)
    (hr : CReach o (histOps L r) (ptrDiff L) (EditedAny r) (ShortFor L) st c live log torn) (hl : log.length < 10 ^ 8 - 1)
    (rid : Nat) (hnd : ∀ b, st.base = some (rid, b) → ¬ Stuck o log b) (s : Root) (hs : live rid = some s) (pt : Diff.Ptr)
    (hg : ∀ a, ComparedC o shift (histOps L r).ops st c rid a → ShortFor L pt a s)
    (hf : ∀ x, (bplanC o shift ((histOps L r).withDiff (ptrDiff L pt)).ops st c rid none s).2 = .ok x → FileOk x.1.2.1) :
    ∃ c' st' p h', bsaveC o shift ((histOps L r).withDiff (ptrDiff L pt)).ops st c rid none s = (c', st', .ok p) ∧
      CReach o (histOps L r) (ptrDiff L) (EditedAny r) (ShortFor L) st' c' live ((p, s) :: log) torn ∧ st'.history = .ok h' ∧
      h'.newest = some p ∧
      (¬ Lost o ((p, s) :: log) p → (∃ y, bload o (histOps L r).ops st'.dir h' p = .ok y ∧ AlikeObject y s) ∧
        ∃ z, bloadC o (histOps L r).ops st'.dir c' h' p = .ok z ∧ AlikeObject z s) ∧
      (Lost o ((p, s) :: log) p →
        bload o (histOps L r).ops st'.dir h' p = .err ∧ bloadC o (histOps L r).ops st'.dir c' h' p = .err) :=
  cache_saves he hu hv (rough_cache he hu hv) o ho shift hp st c live log torn hr hl rid hnd s hs pt hg hf

/-- **C81 (partial), saving after any edits.** -/
theorem C81_save_any_partial (he : L.env.Sound) {v : Src} (hu : Usable L v) {r : Root} {hash : Nat} (hv : v.root L = .ok (r, hash)) (o : Phase.Opts)
    (ho : o.build = .ok o) (shift : Shift) (hp : ∀ d, calcNextPhase o shift d ≠ .panic)
    (st : BSt) (c : Cache Root) (live : Live Root) (log : List (Props × Root)) (torn : List Props)
    (hr : CReach o (histOps L r) (ptrDiff L) (EditedTo r) (FineStays L r) st c live log torn) (hl : log.length < 10 ^ 8 - 1)
    (rid : Nat) (hnd : ∀ b, st.base = some (rid, b) → ¬ Stuck o log b) (s : Root) (hs : live rid = some s) (pt : Diff.Ptr)
    (hg : ∀ a, ComparedC o shift (histOps L r).ops st c rid a → FineStays L r pt a s)
    (hf : ∀ x, (bplanC o shift ((histOps L r).withDiff (ptrDiff L pt)).ops st c rid none s).2 = .ok x → FileOk x.1.2.1) :
    ∃ c' st' p h', bsaveC o shift ((histOps L r).withDiff (ptrDiff L pt)).ops st c rid none s = (c', st', .ok p) ∧
      CReach o (histOps L r) (ptrDiff L) (EditedTo r) (FineStays L r) st' c' live ((p, s) :: log) torn ∧ st'.history = .ok h' ∧
      h'.newest = some p ∧
      (¬ Lost o ((p, s) :: log) p → (∃ y, bload o (histOps L r).ops st'.dir h' p = .ok y ∧ AlikeObject y s) ∧
        ∃ z, bloadC o (histOps L r).ops st'.dir c' h' p = .ok z ∧ AlikeObject z s) ∧
      (Lost o ((p, s) :: log) p →
        bload o (histOps L r).ops st'.dir h' p = .err ∧ bloadC o (histOps L r).ops st'.dir c' h' p = .err) :=
  cache_saves he hu hv (rough_cache_any he hu hv) o ho shift hp st c live log torn hr hl rid hnd s hs pt hg hf

end
end Verif.Pipeline
