import Verif.Props.CopyOnWrite
/-!
# Examples for C80 and C81
-/
namespace Verif.Pipeline
open Codec VarInt Source Core Named Archive History FileName FileHistory Phase

/-- the ids of the list of an object -/
def idsOf (y : Root) : List Nat := match y.sabun.get "x" with | some (.list (some l)) => l.1.map (·.1) | _ => []

/-- an object is saved, an item is moved, the object is saved again: what is loaded from the files and with the cache -/
def cacheRun : Res (List Nat × List Nat × List Nat) :=
  ((version false).root lib).bind fun x =>
  (saveChk .default x.1 ⟨[], none⟩ [] sampleMore).bind fun a =>
  (saveChk .default x.1 a.2.1 a.1 sampleSwap).bind fun b =>
  b.2.1.history.bind fun h =>
  (bload .default (histOps lib x.1).ops b.2.1.dir h b.2.2).bind fun y =>
  (bloadC .default (histOps lib x.1).ops b.2.1.dir b.1 h b.2.2).map fun z => (b.2.2.order, idsOf y, idsOf z)

/-- The example meets the hypotheses of C81. What is loaded is in another order than with the cache. -/
theorem C81_sample : ∃ r st c live p p' h y z, (version false).root lib = .ok (r, 68) ∧
    CReach .default (histOps lib r) (ptrDiff lib) (EditedAny r) (ShortFor lib) st c live
      [(p', { r with sabun := sampleSwap }), (p, { r with sabun := sampleMore })] [] ∧
    p'.order = [0, 0] ∧ c ≠ [] ∧ st.history = .ok h ∧ bload .default (histOps lib r).ops st.dir h p' = .ok y ∧
    bloadC .default (histOps lib r).ops st.dir c h p' = .ok z ∧ idsOf y = [1, 2] ∧ idsOf z = [2, 1] := by
  obtain ⟨r, h1, h2, h3⟩ := version_root false
  have hsaved := version_saved h1
  have h0 : CReach .default (histOps lib r) (ptrDiff lib) (EditedAny r) (ShortFor lib) ⟨[], none⟩ [] (fun _ => none) [] [] :=
    .start [] (by simp) (by simp)
  have e1 := CReach.create _ _ _ _ _ 0 h0 rfl
  have e2 := CReach.edit _ _ _ _ _ 0 r ({ r with sabun := sampleEnd } : Root) e1 (set_same _ _ _)
    (show EditedAny r r { r with sabun := sampleEnd } from ⟨rfl, C79_of_session hsaved.session⟩)
  have e3 := CReach.edit _ _ _ _ _ 0 ({ r with sabun := sampleEnd } : Root) ({ r with sabun := sampleMore } : Root) e2 (set_same _ _ _)
    (show EditedAny r { r with sabun := sampleEnd } { r with sabun := sampleMore } from
      ⟨rfl, C79_of_session (by rw [h2]; exact sampleMore_session)⟩)
  have hc : cacheRun = .ok ([0, 0], [1, 2], [2, 1]) := by decide +kernel
  unfold cacheRun at hc
  rw [h1, Res.bind_ok] at hc
  obtain ⟨⟨ca, sta, pa⟩, ha, hc⟩ := bind_inv hc
  obtain ⟨⟨cb, stb, pb⟩, hb, hc⟩ := bind_inv hc
  obtain ⟨h, hh, hc⟩ := bind_inv hc
  obtain ⟨y, hy, hc⟩ := bind_inv hc
  obtain ⟨z, hz, hc⟩ := map_inv hc
  simp only [Prod.mk.injEq] at ha hb hh hy hz hc
  have e4 := save_of_chk ha e3 (set_same _ _ _) (by simp)
  have e5 := CReach.edit _ _ _ _ _ 0 ({ r with sabun := sampleMore } : Root) ({ r with sabun := sampleSwap } : Root) e4 (set_same _ _ _)
    (show EditedAny r { r with sabun := sampleMore } { r with sabun := sampleSwap } from ⟨rfl, by rw [h2]; exact sampleSwap_session⟩)
  have e6 := save_of_chk hb e5 (set_same _ _ _) (by simp)
  refine ⟨r, stb, cb, _, pa, pb, h, y, z, h1, e6, hc.1, ?_, hh, hy, hz, hc.2⟩
  rintro rfl
  rw [show bloadC .default (histOps lib r).ops stb.dir [] h pb = bload .default (histOps lib r).ops stb.dir h pb from ?_, hy] at hz
  · cases hz
    have := hc.2.1.symm.trans hc.2.2
    cases this
  · unfold bloadC bload
    rfl

/-- So the theorem applies to the example, and says that both are the object that was saved. -/
example : ∃ (r : Root) (st : BSt) (c : Cache Root) (h : FileHistory.History) (p' : Props) (y z : Root), (version false).root lib = .ok (r, 68) ∧
    bload .default (histOps lib r).ops st.dir h p' = .ok y ∧ bloadC .default (histOps lib r).ops st.dir c h p' = .ok z ∧
    idsOf y ≠ idsOf z ∧ AlikeObject y { r with sabun := sampleSwap } ∧ AlikeObject z { r with sabun := sampleSwap } := by
  obtain ⟨r, st, c, live, p, p', h, y, z, h1, hr, _, _, hh, hy, hz, i1, i2⟩ := C81_sample
  obtain ⟨h', hh', _, _, hl⟩ := C81_history_partial idEnv_sound (version_usable false) h1 .default st c live _ _ hr
  rw [hh] at hh'
  cases hh'
  obtain ⟨g1, g2, _⟩ := hl p' _ List.mem_cons_self
  by_cases hlo : Lost .default [(p', ({ r with sabun := sampleSwap } : Root)), (p, { r with sabun := sampleMore })] p'
  · rw [(g2 (by simp) hlo).1] at hy; cases hy
  · obtain ⟨⟨y', hy', _, _, h4⟩, z', hz', _, _, h5⟩ := g1 (by simp) hlo
    rw [hy] at hy'
    cases hy'
    rw [hz] at hz'
    cases hz'
    exact ⟨r, st, c, h, p', y, z, h1, hy, hz, by rw [i1, i2]; decide, h4, h5⟩

/-! ## Lists that are copied on write, when no id is used again -/

/-- `sampleGone` after the list was copied on write and one item was inserted -/
def sampleNew : AMap RootSab := (sampleGone.insert "x" (.list (some ([], 0)))).insert "x" (.list (some ([(0, .mk [] [])], 1)))

theorem sampleNew_shared : SessionShared (vDefs false) sampleGone sampleNew :=
  .change (.unshare (.start _) (.list (id := 1) (d := sampleDef) (u := false) (n := 2) rfl rfl))
    (.op (.last (id := 1) (d := sampleDef) (u := false) rfl (items := []) (next := 0) rfl (by decide) (by decide)))

/-- what is set stays set, for the definitions of the sample -/
def flatStays (a s : AMap RootSab) : Bool :=
  a.all (fun e => (AMap.get s e.1).isSome) &&
  match AMap.get a "x", AMap.get s "x" with
  | some (.list (some l)), some (.list (some m)) => l.1.all fun x => m.1.all fun y => x.1 != y.1 ||
      (x.2.values.all (fun e => (AMap.get y.2.values e.1).isSome) && x.2.refs.all (fun e => (AMap.get y.2.refs e.1).isSome))
  | _, _ => false

theorem stays_of_all {α β : Type} {a : AMap α} {b : AMap β} (h : a.all (fun e => (AMap.get b e.1).isSome) = true) (k : String)
    (hk : AMap.get b k = none) : AMap.get a k = none := by
  cases ha : AMap.get a k with
  | none => rfl
  | some v =>
    have := List.all_eq_true.1 h _ (AMap.mem_of_get ha)
    simp only at this
    rw [hk] at this
    cases this

theorem only_x {k : String} {id : Nat} {d : LDef} {u : Bool} (h : AMap.get (vDefs false) k = some (id, .mlist d u)) : k = "x" ∧ d = sampleDef := by
  have hm := AMap.mem_of_get h
  simp [vDefs] at hm
  exact ⟨hm.1, hm.2.2.1⟩

theorem rootStaysN_of_flat {a s : AMap RootSab} (h : flatStays a s = true) : RootStaysN (vDefs false) a s := by
  unfold flatStays at h
  simp only [Bool.and_eq_true] at h
  obtain ⟨h1, h2⟩ := h
  refine ⟨stays_of_all h1, fun k id d u l hk hl => ?_⟩
  obtain ⟨rfl, rfl⟩ := only_x hk
  rw [hl] at h2
  split at h2
  · rename_i l' m hl' hm
    cases hl'
    refine ⟨m, hm, fun x hx y hy he => ?_⟩
    have := List.all_eq_true.1 (List.all_eq_true.1 h2 x hx) y hy
    simp only [Bool.or_eq_true, bne_iff_ne, ne_eq, Bool.and_eq_true] at this
    rcases this with h | ⟨h3, h4⟩
    · exact absurd he h
    · have none : ∀ k id d' u, AMap.get sampleDef.members k ≠ some (id, .milDef d' u) := by
        intro k id d' u h
        have := AMap.mem_of_get h
        simp [sampleDef, LDef.members] at this
      exact .mk (fun k _ => stays_of_all h3 k) (fun k id d' u _ _ h => absurd h (none k id d' u))
        (fun k id d' u _ _ _ _ h => absurd h (none k id d' u)) (stays_of_all h4)
  · cases h2

/-- whether what is set in what is compared stays set -/
def staysChkC (o : Phase.Opts) (r : Root) (st : BSt) (c : Cache Root) (s : AMap RootSab) : Bool :=
  match planBase o noShift (st.dir.map (·.1)) st.base (bstat st.dir) (fun l => (bapplyForSave o (histOps lib r).ops st.dir l c).2) 0 none with
  | .ok a => flatStays a.sabun s
  | _ => true

def saveChkS (o : Phase.Opts) (r : Root) (st : BSt) (c : Cache Root) (s : AMap RootSab) : Res (Cache Root × BSt × Props) :=
  if staysChkC o r st c s then saveChk o r st c s else .err

theorem save_of_chkS {o : Phase.Opts} {r : Root} (hd : r.defs = vDefs false) {st st' : BSt} {c c' : Cache Root} {s : AMap RootSab} {p : Props}
    {Edits : Root → Root → Prop} {live : Live Root} {log : List (Props × Root)} (h : saveChkS o r st c s = .ok (c', st', p))
    (hr : CReach o (histOps lib r) (ptrDiff lib) Edits (FineStays lib r) st c live log []) (hl : live 0 = some { r with sabun := s })
    (hn : log.length < 10 ^ 8 - 1) :
    CReach o (histOps lib r) (ptrDiff lib) Edits (FineStays lib r) st' c' live ((p, { r with sabun := s }) :: log) [] := by
  unfold saveChkS at h
  split at h
  · rename_i hst
    unfold saveChk at h
    simp only at h
    split at h
    · rename_i x hx
      split at h
      · rename_i hc
        simp only [Bool.and_eq_true] at hc
        split at h
        · rename_i c1 st1 p1 hs
          cases h
          refine .save lib.ptr noShift _ _ _ _ _ _ _ 0 _ p hr hl hn (fun a ha => ⟨short_of_chkC hc.2 a ha, ?_⟩)
            (fun y hy => by rw [hx] at hy; cases hy; exact fileOk_of_chk hc.1) hs
          unfold ComparedC at ha
          unfold staysChkC at hst
          rw [ha] at hst
          rw [hd]
          exact rootStaysN_of_flat hst
        · cases h
      · cases h
    · cases h
  · cases h

/-- the saves, and what is loaded from the last file -/
def newRun : Res (List Nat × List (Nat × Bool)) :=
  ((version false).root lib).bind fun x =>
  (saveChkS flatOpts x.1 ⟨[], none⟩ [] sampleEnd).bind fun a =>
  (saveChkS flatOpts x.1 a.2.1 a.1 sampleGone).bind fun b =>
  (saveChkS flatOpts x.1 b.2.1 b.1 sampleNew).bind fun c =>
  c.2.1.history.bind fun h =>
  (bload flatOpts (histOps lib x.1).ops c.2.1.dir h c.2.2).map fun y => (c.2.2.order, loadedSet y)

/-- The example meets the hypotheses of `C80_history_partial`: the list is emptied, saved, copied on write, and saved with a new item. -/
theorem C80_sample : ∃ r st c live p p' p'' h y, (version false).root lib = .ok (r, 68) ∧
    CReach flatOpts (histOps lib r) (ptrDiff lib) (EditedShared r) (FineStays lib r) st c live
      [(p'', { r with sabun := sampleNew }), (p', { r with sabun := sampleGone }), (p, { r with sabun := sampleEnd })] [] ∧
    st.history = .ok h ∧ bload flatOpts (histOps lib r).ops st.dir h p'' = .ok y ∧ loadedSet y = [(0, false)] := by
  obtain ⟨r, h1, h2, h3⟩ := version_root false
  have hsaved := version_saved h1
  have h0 : CReach flatOpts (histOps lib r) (ptrDiff lib) (EditedShared r) (FineStays lib r) ⟨[], none⟩ [] (fun _ => none) [] [] :=
    .start [] (by simp) (by simp)
  have e1 := CReach.create _ _ _ _ _ 0 h0 rfl
  have hs1 : SessionShared r.defs r.sabun sampleEnd := shared_of_any (C79_of_session hsaved.session)
  have e2 := CReach.edit _ _ _ _ _ 0 r ({ r with sabun := sampleEnd } : Root) e1 (set_same _ _ _)
    (show EditedShared r r { r with sabun := sampleEnd } from ⟨rfl, hs1⟩)
  have hc : newRun = .ok ([0, 1], [(0, false)]) := by decide +kernel
  unfold newRun at hc
  rw [h1, Res.bind_ok] at hc
  obtain ⟨⟨ca, sta, pa⟩, ha, hc⟩ := bind_inv hc
  obtain ⟨⟨cb, stb, pb⟩, hb, hc⟩ := bind_inv hc
  obtain ⟨⟨cc, stc, pc⟩, hcc, hc⟩ := bind_inv hc
  obtain ⟨h, hh, hc⟩ := bind_inv hc
  obtain ⟨y, hy, hc⟩ := map_inv hc
  simp only [Prod.mk.injEq] at ha hb hcc hh hy hc
  have e3 := save_of_chkS h2 ha e2 (set_same _ _ _) (by simp)
  have e4 := CReach.edit _ _ _ _ _ 0 ({ r with sabun := sampleEnd } : Root) ({ r with sabun := sampleGone } : Root) e3 (set_same _ _ _)
    (show EditedShared r { r with sabun := sampleEnd } { r with sabun := sampleGone } from ⟨rfl, by rw [h2]; exact sampleGone_shared⟩)
  have e5 := save_of_chkS h2 hb e4 (set_same _ _ _) (by simp)
  have e6 := CReach.edit _ _ _ _ _ 0 ({ r with sabun := sampleGone } : Root) ({ r with sabun := sampleNew } : Root) e5 (set_same _ _ _)
    (show EditedShared r { r with sabun := sampleGone } { r with sabun := sampleNew } from ⟨rfl, by rw [h2]; exact sampleNew_shared⟩)
  have e7 := save_of_chkS h2 hcc e6 (set_same _ _ _) (by simp)
  exact ⟨r, stc, cc, _, pa, pb, pc, h, y, h1, e7, hh, hy, hc.2⟩

/-- So the theorem applies. -/
example : ∃ (r : Root) (st : BSt) (h : FileHistory.History) (p : Props) (y : Root), (version false).root lib = .ok (r, 68) ∧
    bload flatOpts (histOps lib r).ops st.dir h p = .ok y ∧ AlikeObject y { r with sabun := sampleNew } := by
  obtain ⟨r, st, c, live, p, p', p'', h, y, h1, hr, hh, hy, _⟩ := C80_sample
  obtain ⟨h', hh', _, hl⟩ := C80_history_partial idEnv_sound (version_usable false) h1 flatOpts st c live _ _ hr
  rw [hh] at hh'
  cases hh'
  by_cases hlo : Lost flatOpts [(p'', ({ r with sabun := sampleNew } : Root)), (p', { r with sabun := sampleGone }),
      (p, { r with sabun := sampleEnd })] p''
  · obtain ⟨h', hh', _, _, hl'⟩ := cache_loads idEnv_sound (version_usable false) h1 (rough_cache_shared idEnv_sound (version_usable false) h1)
      flatOpts st c live _ _ hr
    rw [hh] at hh'
    cases hh'
    rw [((hl' p'' _ List.mem_cons_self).2.1 (by simp) hlo).1] at hy
    cases hy
  · obtain ⟨⟨y', hy', _, _, h4⟩, _⟩ := hl p'' _ List.mem_cons_self (by simp) hlo
    exact ⟨r, st, h, p'', y', h1, hy', h4⟩

end Verif.Pipeline
