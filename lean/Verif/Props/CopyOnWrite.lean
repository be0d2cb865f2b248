import Verif.Model.CopyOnWrite
import Verif.Lemmas.SessionShared
import Verif.Props.LinkedMap
import Verif.Props.HistoryCache
import Verif.Props.HistoryLooseEx
/-!
# Property C80

Saving an object keeps a clone of it in the cache of the history, which shares the lists of the object. Does this change what later changes
and saves do?
-/
namespace Verif.LinkedMap
variable {V : Type}

/-- **C80: lists.** A list that is about to be changed is observed as before, whether or not it is shared, but for its next id, which is 0 if
the list is shared and empty. -/
theorem C80_list_mut (shared : Bool) (m : LM V) (s : SList V) (h : Reach m s) :
    ∃ m', m.listMut shared = .ok m' ∧ Observes m' ⟨s.items, if shared ∧ s.items = [] then 0 else s.nextId⟩ := by
  unfold LM.listMut
  cases shared with
  | false => exact ⟨m, rfl, by simpa using observes_of_refines (refines_of_reach h)⟩
  | true =>
    obtain ⟨m', h1, h2⟩ := C17_clone_partial m s h
    exact ⟨m', h1, by simpa using h2⟩

/-- **C80: lists, exactly.** Sharing is observed if and only if the list is empty and has given out an id. -/
theorem C80_list_mut_exact (m : LM V) (s : SList V) (h : Reach m s) :
    (∃ m', m.listMut true = .ok m' ∧ Observes m' s) ↔ ¬ (s.items = [] ∧ s.nextId ≠ 0) := by
  obtain ⟨m1, h1, h2⟩ := C80_list_mut true m s h
  constructor
  · rintro ⟨m', h3, h4⟩ ⟨h5, h6⟩
    rw [h1] at h3
    cases h3
    have := h2.nextId
    rw [h4.nextId, if_pos ⟨rfl, h5⟩] at this
    exact h6 this
  · intro hn
    refine ⟨m1, h1, ?_⟩
    have : (⟨s.items, if true = true ∧ s.items = [] then 0 else s.nextId⟩ : SList V) = s := by
      obtain ⟨items, n⟩ := s
      simp only at hn ⊢
      congr 1
      split
      · rename_i hc
        by_contra hne
        exact hn ⟨hc.2, fun h => hne h.symm⟩
      · rfl
    rw [this] at h2
    exact h2

/-- Both cases occur. -/
example : (∃ m', two.listMut true = .ok m' ∧ Observes m' ⟨[(0, 10), (1, 11)], 2⟩) :=
  (C80_list_mut_exact two _ two_reach).2 (by simp)

/-- **C80 is false for lists**: an emptied list that is shared gives out the ids of removed items again. -/
theorem C80_negation_ids :
    ∃ m m' m'' : LM Nat, LM.run [.insertLast 5, .remove 0] new = .ok (m, [.id 0, .bool true]) ∧ m.listMut true = .ok m' ∧
      m'.insertLast 6 = .ok (m'', 0) ∧ (∃ m3, m.listMut false = .ok m3 ∧ ∃ m4, m3.insertLast 6 = .ok (m4, 1)) :=
  ⟨_, _, _, rfl, rfl, rfl, _, rfl, _, rfl⟩

end Verif.LinkedMap

namespace Verif.Pipeline
open Codec VarInt Source Core Named Archive History FileName FileHistory Phase

section
variable {L : Lib}

/-- An object of the definitions `r` that was changed in a session in which empty lists were copied. -/
def EditedShared (r : Root) (a t : Root) : Prop := t = { r with sabun := t.sabun } ∧ SessionShared r.defs a.sabun t.sabun

/-- Sessions without copies are among them. -/
theorem shared_of_any {defs : AMap (Nat × RootValI)} {a t : AMap RootSab} (h : SessionAny defs a t) : SessionShared defs a t := by
  induction h with
  | start => exact .start _
  | change _ h ih => exact .change ih h

theorem rough_cache_shared (he : L.env.Sound) {v : Src} (hu : Usable L v) {r : Root} {h : Nat} (hr : v.root L = .ok (r, h)) :
    RoughC (histOps L r) (ptrDiff L) (Sound r) (fun _ _ => True) (EditedShared r) (FineStays L r) (AlikeId r) := by
  have hK := rough_cache_any he hu hr
  refine ⟨hK.src, hK.refl, hK.symm, hK.trans, hK.hold, hK.left, fun a b ha hb => ?_, hK.diff⟩
  obtain ⟨h1, h2⟩ := sessionShared_keeps hb.2 ha.fresh ha.fits
  exact ⟨⟨hb.1, h2, h1⟩, fun _ _ _ => trivial⟩

/-- **C80 (partial): histories.** Programs change objects in any way, with empty lists copied on write at any time, and save them only if
what is set in the items of the object that it is compared with is set in the items with the same ids. Then every file that was written
completely is loaded, with the cache or without, as the object that was saved, but for the order of items, next ids and signs of zeros.
Missing: saves at which this condition does not hold (false, `C80_negation_history`). -/
theorem C80_history_partial (he : L.env.Sound) {v : Src} (hu : Usable L v) {r : Root} {hash : Nat} (hv : v.root L = .ok (r, hash))
    (o : Phase.Opts) (st : BSt) (c : Cache Root) (live : Live Root) (log : List (Props × Root)) (torn : List Props)
    (hr : CReach o (histOps L r) (ptrDiff L) (EditedShared r) (FineStays L r) st c live log torn) :
    ∃ h, st.history = .ok h ∧ h.listFiles = (log.map (·.1)).reverse ∧
      ∀ p s, (p, s) ∈ log → p ∉ torn → ¬ Lost o log p →
        (∃ y, bload o (histOps L r).ops st.dir h p = .ok y ∧ RootFits r.defs y.sabun ∧ ListsFresh y.sabun ∧ AlikeObject y s) ∧
        ∃ y, bloadC o (histOps L r).ops st.dir c h p = .ok y ∧ RootFits r.defs y.sabun ∧ ListsFresh y.sabun ∧ AlikeObject y s := by
  obtain ⟨h, h1, h2, _, h3⟩ := cache_loads he hu hv (rough_cache_shared he hu hv) o st c live log torn hr
  exact ⟨h, h1, h2, fun p s hp ht hl => (h3 p s hp).1 ht hl⟩

end

/-! ## The negation -/

/-- `sampleEnd` after its item was removed -/
def sampleGone : AMap RootSab := sampleEnd.insert "x" (.list (some ([], 2)))
/-- after the list was copied on write and two items were inserted -/
def sampleReuse : AMap RootSab :=
  (((sampleGone.insert "x" (.list (some ([], 0)))).insert "x" (.list (some ([(0, .mk [] [])], 1)))).insert "x"
    (.list (some ([(0, .mk [] []), (1, .mk [] [])], 2))))

theorem sampleGone_shared : SessionShared (vDefs false) sampleEnd sampleGone :=
  .change (.start _) (.op (.remove (id := 1) (d := sampleDef) (u := false) rfl (a := []) (b := []) (x := (1, sampleItem)) (next := 2) rfl))

theorem sampleReuse_shared : SessionShared (vDefs false) sampleGone sampleReuse :=
  .change (.change (.unshare (.start _) (.list (id := 1) (d := sampleDef) (u := false) (n := 2) rfl rfl))
    (.op (.last (id := 1) (d := sampleDef) (u := false) rfl (items := []) (next := 0) rfl (by decide) (by decide))))
    (.op (.last (id := 1) (d := sampleDef) (u := false) rfl (items := [(0, .mk [] [])]) (next := 1) rfl (by decide) (by decide)))

/-- whether the diff to what is compared is short -/
def shortChkC (o : Phase.Opts) (L : Lib) (r : Root) (st : BSt) (c : Cache Root) (s : Root) : Bool :=
  match planBase o noShift (st.dir.map (·.1)) st.base (bstat st.dir) (fun l => (bapplyForSave o (histOps L r).ops st.dir l c).2) 0 none with
  | .ok a => match (ptrDiff L L.ptr a s).bind encodeVals with | .ok out => out.length < 2 ^ 60 | _ => false
  | _ => true

theorem short_of_chkC {o : Phase.Opts} {L : Lib} {r : Root} {st : BSt} {c : Cache Root} {s : Root} (h : shortChkC o L r st c s = true) :
    ∀ a, ComparedC o noShift (histOps L r).ops st c 0 a → ShortFor L L.ptr a s := by
  intro a ha vals out hv ho
  unfold ComparedC at ha
  unfold shortChkC at h
  rw [ha] at h
  simp only at h
  have hv' : ptrDiff L L.ptr a s = .ok vals := hv
  rw [hv', Res.bind_ok, ho] at h
  simpa using h

/-- one save of the object 0, with all that a run asks for -/
def saveChk (o : Phase.Opts) (r : Root) (st : BSt) (c : Cache Root) (s : AMap RootSab) : Res (Cache Root × BSt × Props) :=
  let k := ((histOps lib r).withDiff (ptrDiff lib lib.ptr)).ops
  match (bplanC o noShift k st c 0 none { r with sabun := s }).2 with
  | .ok x => if fileChk x.1.2.1 && shortChkC o lib r st c { r with sabun := s } then
      match bsaveC o noShift k st c 0 none { r with sabun := s } with
      | (c, st, .ok p) => .ok (c, st, p)
      | _ => .err
    else .err
  | _ => .err

theorem save_of_chk {o : Phase.Opts} {r : Root} {st st' : BSt} {c c' : Cache Root} {s : AMap RootSab} {p : Props} {Edits : Root → Root → Prop}
    {live : Live Root} {log : List (Props × Root)} (h : saveChk o r st c s = .ok (c', st', p))
    (hr : CReach o (histOps lib r) (ptrDiff lib) Edits (ShortFor lib) st c live log []) (hl : live 0 = some { r with sabun := s })
    (hn : log.length < 10 ^ 8 - 1) :
    CReach o (histOps lib r) (ptrDiff lib) Edits (ShortFor lib) st' c' live ((p, { r with sabun := s }) :: log) [] := by
  unfold saveChk at h
  simp only at h
  split at h
  · rename_i x hx
    split at h
    · rename_i hc
      simp only [Bool.and_eq_true] at hc
      split at h
      · rename_i c1 st1 p1 hs
        cases h
        exact .save lib.ptr noShift _ _ _ _ _ _ _ 0 _ p hr hl hn (short_of_chkC hc.2)
          (fun y hy => by rw [hx] at hy; cases hy; exact fileOk_of_chk hc.1) hs
      · cases h
    · cases h
  · cases h

/-- the items of the list that is loaded from a file: their ids, and whether `p` is set -/
def loadedSet (y : Root) : List (Nat × Bool) :=
  match y.sabun.get "x" with
  | some (.list (some l)) => l.1.map fun e => (e.1, (e.2.values.get "p").isSome)
  | _ => []

/-- no cumulative files; every file is derived from the first -/
def flatOpts : Phase.Opts := ⟨1, true, none⟩

/-- the saves of the example, what is loaded from the third file, and what is loaded with the cache -/
def reuseRun : Res (List Nat × List (Nat × Bool) × List (Nat × Bool)) :=
  ((version false).root lib).bind fun x =>
  (saveChk flatOpts x.1 ⟨[], none⟩ [] sampleEnd).bind fun a =>
  (saveChk flatOpts x.1 a.2.1 a.1 sampleGone).bind fun b =>
  (saveChk flatOpts x.1 b.2.1 b.1 sampleReuse).bind fun c =>
  c.2.1.history.bind fun h =>
  (bload flatOpts (histOps lib x.1).ops c.2.1.dir h c.2.2).bind fun y =>
  (bloadC flatOpts (histOps lib x.1).ops c.2.1.dir c.1 h c.2.2).map fun z => (c.2.2.order, loadedSet y, loadedSet z)

/-- **C80 is false for histories.** An object with an item is saved, the item is removed, the object is saved again, which shares its list
with the cache. Two items are inserted; because the list was shared and empty, one of them gets the id of the removed item. The object is
saved: the file is derived from the first file, in which the removed item is. A new process loads the new item with the value of the
removed one; the process that saved it loads it without. -/
theorem C80_negation_history : ∃ r st c live p p' p'' h y z, (version false).root lib = .ok (r, 68) ∧
    CReach flatOpts (histOps lib r) (ptrDiff lib) (EditedShared r) (ShortFor lib) st c live
      [(p'', { r with sabun := sampleReuse }), (p', { r with sabun := sampleGone }), (p, { r with sabun := sampleEnd })] [] ∧
    st.history = .ok h ∧ bload flatOpts (histOps lib r).ops st.dir h p'' = .ok y ∧ bloadC flatOpts (histOps lib r).ops st.dir c h p'' = .ok z ∧
    loadedSet { r with sabun := sampleReuse } = [(0, false), (1, false)] ∧ loadedSet y = [(0, false), (1, true)] ∧
    loadedSet z = [(0, false), (1, false)] ∧ ¬ AlikeObject y { r with sabun := sampleReuse } := by
  obtain ⟨r, h1, h2, h3⟩ := version_root false
  have hsaved := version_saved h1
  have h0 : CReach flatOpts (histOps lib r) (ptrDiff lib) (EditedShared r) (ShortFor lib) ⟨[], none⟩ [] (fun _ => none) [] [] :=
    .start [] (by simp) (by simp)
  have e1 := CReach.create _ _ _ _ _ 0 h0 rfl
  have hs1 : SessionShared r.defs r.sabun sampleEnd := shared_of_any (C79_of_session hsaved.session)
  have e2 := CReach.edit _ _ _ _ _ 0 r ({ r with sabun := sampleEnd } : Root) e1 (set_same _ _ _)
    (show EditedShared r r { r with sabun := sampleEnd } from ⟨rfl, hs1⟩)
  have hc : reuseRun = .ok ([0, 1], [(0, false), (1, true)], [(0, false), (1, false)]) := by decide +kernel
  unfold reuseRun at hc
  rw [h1, Res.bind_ok] at hc
  obtain ⟨⟨ca, sta, pa⟩, ha, hc⟩ := bind_inv hc
  obtain ⟨⟨cb, stb, pb⟩, hb, hc⟩ := bind_inv hc
  obtain ⟨⟨cc, stc, pc⟩, hcc, hc⟩ := bind_inv hc
  obtain ⟨h, hh, hc⟩ := bind_inv hc
  obtain ⟨y, hy, hc⟩ := bind_inv hc
  obtain ⟨z, hz, hc⟩ := map_inv hc
  simp only [Prod.mk.injEq] at ha hb hcc hh hy hz hc
  have e3 := save_of_chk ha e2 (set_same _ _ _) (by simp)
  have e4 := CReach.edit _ _ _ _ _ 0 ({ r with sabun := sampleEnd } : Root) ({ r with sabun := sampleGone } : Root) e3 (set_same _ _ _)
    (show EditedShared r { r with sabun := sampleEnd } { r with sabun := sampleGone } from ⟨rfl, by rw [h2]; exact sampleGone_shared⟩)
  have e5 := save_of_chk hb e4 (set_same _ _ _) (by simp)
  have e6 := CReach.edit _ _ _ _ _ 0 ({ r with sabun := sampleGone } : Root) ({ r with sabun := sampleReuse } : Root) e5 (set_same _ _ _)
    (show EditedShared r { r with sabun := sampleGone } { r with sabun := sampleReuse } from ⟨rfl, by rw [h2]; exact sampleReuse_shared⟩)
  have e7 := save_of_chk hcc e6 (set_same _ _ _) (by simp)
  refine ⟨r, stc, cc, _, pa, pb, pc, h, y, z, h1, e7, hh, hy, hz, rfl, hc.2.1, hc.2.2, fun hal => ?_⟩
  obtain ⟨l, hl⟩ : ∃ l, y.sabun.get "x" = some (.list (some l)) := by
    have := hc.2.1
    unfold loadedSet at this
    split at this
    · exact ⟨_, ‹_›⟩
    · cases this
  have hset := hc.2.1
  unfold loadedSet at hset
  rw [hl] at hset
  simp only at hset
  have hdef : r.defs.get "x" = some (1, .mlist sampleDef false) := by rw [h2]; rfl
  obtain ⟨m, hm, _, hit⟩ := hal.2.lists "x" 1 sampleDef false l hdef hl
  have hm' : sampleReuse.get "x" = some (.list (some ([(0, .mk [] []), (1, .mk [] [])], 2))) := rfl
  have : m = ([(0, .mk [] []), (1, .mk [] [])], 2) := by
    have := hm.symm.trans hm'
    cases this
    rfl
  subst this
  have hmem : (1, true) ∈ l.1.map fun e => (e.1, (e.2.values.get "p").isSome) := by rw [hset]; simp
  obtain ⟨e, he, heq⟩ := List.mem_map.1 hmem
  simp only [Prod.mk.injEq] at heq
  have hali := hit e he (1, .mk [] []) (by simp) heq.1
  cases hali with
  | mk g1 _ _ _ _ =>
    have hv := g1 "p" 0 (.int (.val 0)) .normal rfl
    have hn : (Core.Item.mk [] []).values.get "p" = none := rfl
    rw [hn] at hv
    generalize e.2.values.get "p" = w at hv heq
    cases hv
    exact absurd heq.2 (by simp)

end Verif.Pipeline
