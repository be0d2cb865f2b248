import Verif.Lemmas.HistoryReal
import Verif.Lemmas.FileOk
import Verif.Spec.HistoryPipeline
import Verif.Props.Crash
import Verif.Props.DiffTyped
/-!
# Histories of the objects of a usable source
-/
namespace Verif.Diff
open Codec VarInt

/-- The change can be written and read. -/
def Writes (F : Compaction.FloatOps) (n : Nat) (ptr : Ptr) (sch : RootSch n) (a b : Root n) : Prop :=
  RootOk n sch a ∧ RootOk n sch b ∧ OptListsUndefined n sch a ∧ OptListsUndefined n sch b ∧ RootStep n a b ∧
    ∀ vals out, getKvals F n ptr sch a b = .ok vals → encodeVals vals = .ok out → out.length < 2 ^ 60

open Classical in
/-- The functions for objects by id, where a change that cannot be written is refused. -/
noncomputable def idOps (F : Compaction.FloatOps) (n : Nat) (ptr : Ptr) (sch : RootSch n) (src : Root n) : History.KOps (Root n) where
  src := src
  diff a b := if Writes F n ptr sch a b then getKvals F n ptr sch a b else .err
  app a v := applyKvals F n sch a v

theorem idOps_lawful (F : Compaction.FloatOps) {n : Nat} (ptr : Ptr) {sch : RootSch n} (src : Root n)
    (hs : ∀ i s, entry sch i = some (.mlist s) ∨ entry sch i = some (.optMil s) → LegibleTables n s) : (idOps F n ptr sch src).Lawful := by
  intro a b v hv
  unfold idOps at hv ⊢
  simp only at hv ⊢
  split at hv
  · rename_i hw
    obtain ⟨h1, h2, h3, h4, h5, h6⟩ := hw
    obtain ⟨bytes, g1, g2⟩ := C09_small_definitions_partial F n ptr sch a b hs h1 h2 h3 h4 h5
    unfold getDiff at g1
    rw [hv, Res.bind_ok] at g1
    have hlt := h6 v bytes hv g1
    obtain ⟨d, hd, hw⟩ := Source.bind_inv hv
    obtain ⟨o, e1, e2, _⟩ := good_root F n sch d (getRootDiff_ok h1 h2 h3 h4 hd)
    rw [hw] at e1
    cases e1
    have hl := length_lt_of_encode g1 hlt
    refine ⟨e2, hl, fun out ho => ?_, ?_⟩
    · rw [g1] at ho; cases ho; omega
    · have g3 := g2 hlt
      have hdec := decode_encodeVals v e2 hl bytes g1 (by omega) []
      rw [List.append_nil] at hdec
      unfold applyDiff at g3
      rw [hdec, Res.bind_ok] at g3
      exact g3
  · cases hv

end Verif.Diff

namespace Verif.Named
open Core Source Diff

theorem itemFits_memory {d : LDef} {it : Item} (h : ItemFits d it) : InMemory it := by
  induction h with
  | mk _ _ h3 _ _ h6 _ h8 ih =>
    refine .mk ?_ ?_ ?_ ?_
    · intro k p hk
      obtain ⟨_, _, _, _, hp⟩ := h3 k p hk
      exact hp.2.2
    · intro k s hk
      obtain ⟨_, _, _, _, hp⟩ := h8 k _ hk
      exact hp.2
    · intro k items n hk
      obtain ⟨h, _⟩ := h6 k items n hk
      exact ⟨h.2.2.1, h.2.2.2, h.2.1⟩
    · intro k items n hk e he
      obtain ⟨_, id, d', u, hd⟩ := h6 k items n hk
      exact ih k items n id d' u hk hd e he

/-- What fits its definition is in memory. -/
theorem rootFits_memory {defs : AMap (Nat × RootValI)} {s : AMap RootSab} (h : RootFits defs s) : RootInMemory s := by
  refine ⟨fun k p hk => ?_, fun k l hk => ?_⟩
  · obtain ⟨_, _, _, _, hp⟩ := h.params k p (AMap.mem_of_get hk)
    exact hp.2.2
  · obtain ⟨id, d, u, hd⟩ := h.lists k _ (AMap.mem_of_get hk)
    obtain ⟨hi, ha⟩ := h.items k l id d u (AMap.mem_of_get hk) hd
    exact ⟨hi.2.2.1, hi.2.2.2, hi.2.1, fun e he => itemFits_memory (ha e he)⟩

theorem kept_fresh {C : List Item → Prop} {d : LDef} {it : Item} (h : Kept C d it) : FreshItem it → Kept (fun l => ∀ i ∈ l, FreshItem i) d it := by
  induction h with
  | @mk d values refs h1 h2 h3 h4 _ _ h7 ih =>
    intro hf
    cases hf with | mk f1 f2 f3 =>
    exact .mk h1 h2 h3 h4 f1 (fun k items next id d' u hk hd e he => ih k items next id d' u hk hd e he (f3 k items next hk e he)) h7

theorem keptRoot_fresh {C : List Item → Prop} {defs : AMap (Nat × RootValI)} {s : AMap RootSab} (h : KeptRoot C defs s) (hf : ListsFresh s) :
    KeptRoot (fun l => ∀ i ∈ l, FreshItem i) defs s :=
  ⟨h.wf, h.keys, fun k l id d u hk hd e he => kept_fresh (h.items k l id d u hk hd e he) ((hf k l (AMap.get_of_mem h.wf hk)).2 e he)⟩

/-! ## Objects that are the same keep what each other has -/

theorem same_index {l m : List (Nat × Item)} (h : l.map (·.1) = m.map (·.1)) (hn : (l.map (·.1)).Nodup) {x y : Nat × Item} (hx : x ∈ l) (hy : y ∈ m)
    (he : x.1 = y.1) : ∃ i : Nat, l[i]? = some x ∧ m[i]? = some y := by
  obtain ⟨i, hi, rfl⟩ := List.getElem_of_mem hx
  obtain ⟨j, hj, rfl⟩ := List.getElem_of_mem hy
  have h1 : (l.map (·.1))[i]? = some l[i].1 := by rw [List.getElem?_map, List.getElem?_eq_getElem hi]; rfl
  have h2 : (l.map (·.1))[j]? = some l[i].1 := by rw [h, List.getElem?_map, List.getElem?_eq_getElem hj, he]; rfl
  have hij : i = j := by
    have hi' : i < (l.map (·.1)).length := by rw [List.length_map]; exact hi
    exact (List.getElem?_inj hi' hn).1 (h1.trans h2.symm)
  subst hij
  exact ⟨i, List.getElem?_eq_getElem hi, List.getElem?_eq_getElem hj⟩

theorem listKeeps_of_same {l m : List (Nat × Item)} {ln mn : Nat} (hn : ln = mn) (h : l.map (·.1) = m.map (·.1)) : ListKeeps l ln m mn := by
  refine ⟨?_, le_of_eq hn, fun i hi => .inl (by rw [h]; exact hi)⟩
  unfold SameOrderN
  rw [h]

theorem itemKeeps_of_same {d : LDef} {a b : Item} (h : SameItem d a b) : ItemFits d a → ItemKeeps d a b := by
  induction h with
  | @mk d a b s1 s2 s3 s4 s5 ih =>
    intro ha
    cases ha with
    | @mk _ values refs h1 h2 h3 h4 h5 h6 h7 h8 =>
    have hval : ∀ {k v}, (Item.mk values refs).values.get k = some v → (k, v) ∈ values := fun h => AMap.mem_of_get h
    refine .mk ?_ ?_ ?_ ?_
    · intro k hn hb
      cases hk : (Item.mk values refs).values.get k with
      | none => rfl
      | some v =>
        exfalso
        cases v with
        | param p =>
          obtain ⟨id, q, vt, hd, _⟩ := h3 k p (hval hk)
          have := s1 k id q vt hd
          rw [hk, hb] at this
          cases this
        | milNone =>
          obtain ⟨id, d', hd⟩ := h4 k (hval hk)
          have := s2 k id d' true hd
          rw [hk, hb] at this
          cases this
        | cil items =>
          obtain ⟨id, d', hd⟩ := h5 k items (hval hk)
          exact hn id d' hd
        | mil items next =>
          obtain ⟨_, id, d', u, hd⟩ := h6 k items next (hval hk)
          have := s2 k id d' u hd
          rw [hk, hb] at this
          cases this
    · intro k id d' u l ln hd hl
      have := s2 k id d' u hd
      rw [hl] at this
      cases hm : b.values.get k with
      | none => rw [hm] at this; cases this
      | some w =>
        rw [hm] at this
        cases this
        obtain ⟨e1, e2⟩ := s3 k id d' u l ln _ _ hd hl hm
        exact ⟨_, _, rfl, listKeeps_of_same e1 e2⟩
    · intro k id d' u l ln m mn hd hl hm x hx y hy he
      obtain ⟨_, e2⟩ := s3 k id d' u l ln m mn hd hl hm
      obtain ⟨i, hi, hj⟩ := same_index e2 (h6 k l ln (hval hl)).1.1 hx hy he
      exact ih k id d' u l ln m mn hd hl hm i x y hi hj (h7 k l ln id d' u (hval hl) hd x hx)
    · intro k hb
      cases hk : (Item.mk values refs).refs.get k with
      | none => rfl
      | some q =>
        exfalso
        obtain ⟨id, x, vt, hd, _⟩ := h8 k q (AMap.mem_of_get hk)
        have := s5 k _ hd
        rw [hk, hb] at this
        cases this

/-- An object keeps what the same object has. -/
theorem rootKeeps_of_same {defs : AMap (Nat × RootValI)} {a b : AMap RootSab} (ha : RootFits defs a) (hs : SameRoot defs a b) : RootKeeps defs a b := by
  refine ⟨?_, ?_, ?_⟩
  · intro k hb
    cases hk : a.get k with
    | none => rfl
    | some v =>
      exfalso
      cases v with
      | param p =>
        obtain ⟨id, q, vt, hd, _⟩ := ha.params k p (AMap.mem_of_get hk)
        have := hs.params k id q vt hd
        rw [hk, hb] at this
        cases this
      | list l =>
        obtain ⟨id, d, u, hd⟩ := ha.lists k l (AMap.mem_of_get hk)
        cases l with
        | none => rw [(hs.undef k id d u hd).1 hk] at hb; cases hb
        | some l => obtain ⟨m, hm, _⟩ := hs.lists k id d u l hd hk; rw [hm] at hb; cases hb
  · intro k hk
    by_cases hd : ∃ id d u, defs.get k = some (id, .mlist d u)
    · obtain ⟨id, d, u, hd⟩ := hd
      exact .inl ((hs.undef k id d u hd).1 hk)
    · exact .inr fun id d u h => hd ⟨id, d, u, h⟩
  · intro k id d u l hd hl
    obtain ⟨m, hm, hn, hi⟩ := hs.lists k id d u l hd hl
    obtain ⟨g1, g2⟩ := ha.items k l id d u (AMap.mem_of_get hl) hd
    refine ⟨m, hm, listKeeps_of_same hn hi.1, fun x hx y hy he => ?_⟩
    obtain ⟨i, hx', hy'⟩ := same_index hi.1 g1.1 hx hy he
    exact itemKeeps_of_same (hi.2 i x y hx' hy') (g2 x hx)

end Verif.Named

namespace Verif.Pipeline
open Codec VarInt Source Core Named Archive History

/-- an object of the definitions `r`, as far as diffs keep it -/
structure Held (r a : Root) : Prop where
  object : a = { r with sabun := a.sabun }
  kept : KeptRoot (fun l => ∀ i ∈ l, FreshItem i) r.defs a.sabun
  ty : Diff.RootTy (tableDepth r.table) (rootL (tableDepth r.table) r.table) (rootValsL (tableDepth r.table) r.table a.sabun)

section
variable {L : Lib}

/-- the values of an object by id -/
noncomputable def byId (r a : Root) : Diff.Root (tableDepth r.table) := rootValsL (tableDepth r.table) r.table a.sabun

noncomputable def idHist (L : Lib) (r : Root) : KOps (Diff.Root (tableDepth r.table)) :=
  Diff.idOps L.float (tableDepth r.table) L.ptr (rootL (tableDepth r.table) r.table) (byId r r)

theorem Held.fits {r a : Root} (ht : RootTable r.defs r.table) (h : Held r a) (hm : RootInMemory a.sabun) : RootFits r.defs a.sabun :=
  rootFits_of_ty ht (levelOk_depth r.table) h.kept h.ty hm

theorem held_of_fits {r a : Root} (ht : RootTable r.defs r.table) (ho : a = { r with sabun := a.sabun }) (hf : RootFits r.defs a.sabun)
    (hfr : ListsFresh a.sabun) : Held r a :=
  ⟨ho, keptRoot_fresh (keptRoot_of_fits (C := fun _ => True) hf fun _ => trivial) hfr, rootTy_of_fits ht (levelOk_depth r.table) hf⟩

theorem held_app {r a b : Root} (ht : RootTable r.defs r.table) (h : Held r a) {v : List KVal} (hb : (ops L).app a v = .ok b) : Held r b := by
  have h1 : a.table = r.table := by rw [h.object]
  change applyVals L _ a v = _ at hb
  unfold applyVals at hb
  rw [h1] at hb
  obtain ⟨⟨df, rest⟩, g1, g2⟩ := bind_inv hb
  obtain ⟨s, g3, rfl⟩ := map_inv g2
  refine ⟨by rw [h.object], keptRoot_apply ht h.kept g3, ?_⟩
  refine Diff.applyRootDiff_ty h.ty (Diff.readRoot_ty L.float _ _ _ _ _ g1) ?_
  have := nApplyRoot_eq ht (levelOk_depth r.table) a.sabun df
  simp only at g3
  rw [g3] at this
  exact this.symm

theorem app_byId {r a : Root} (ht : RootTable r.defs r.table) (h : Held r a) (v : List KVal) :
    ((ops L).app a v).map (byId r) = (idHist L r).app (byId r a) v := by
  have h1 : a.table = r.table := by rw [h.object]
  change (applyVals L _ a v).map (byId r) = Diff.applyKvals _ _ _ _ _
  unfold applyVals Diff.applyKvals
  rw [h1]
  cases Diff.readRoot L.float (tableDepth r.table) (rootL (tableDepth r.table) r.table) v with
  | err => rfl
  | panic => rfl
  | ok q =>
    simp only [Res.bind_ok]
    have := nApplyRoot_eq ht (levelOk_depth r.table) a.sabun q.1
    unfold byId
    rw [← this]
    cases nApplyRoot (tableDepth r.table) r.table a.sabun q.1 <;> rfl

theorem simulates {r : Root} (ht : RootTable r.defs r.table) (hf : RootFits r.defs r.sabun) (hfr : ListsFresh r.sabun) (hno : ∀ k id d, r.defs.get k ≠ some (id, .mlist d true))
    (hlen : r.defs.length < 2 ^ 62) {c : Nat} (hc : c < 2 ^ 62) (hs : ∀ k id d u, r.defs.get k = some (id, .mlist d u) → Legible c d) :
    Simulates (histOps L r) (idHist L r) (byId r) (Held r) (Saveable L r) where
  src := rfl
  inv := held_of_fits ht rfl hf hfr
  keep a v b h hb := held_app ht h hb
  app a v h := app_byId ht h v
  diff a s h hg := by
    have hc' : c < 2 ^ 62 := hc
    have hs' : ∀ k id d u, r.defs.get k = some (id, .mlist d u) → Sized c c d :=
      fun k id d u hk => (hs k id d u hk).sized
    have hl := levelOk_depth r.table
    have h1 : a.table = r.table := by rw [h.object]
    have h2 : a.defs = r.defs := by rw [h.object]
    have ho : ∀ s : AMap RootSab, OptUndefined r.defs s := fun s k id d hk => absurd hk (hno k id d)
    have hfa := h.fits ht hg.memory
    have hk : (ops L).diff a s = Diff.getKvals L.float (tableDepth r.table) L.ptr (rootL (tableDepth r.table) r.table) (byId r a) (byId r s) := by
      change kvals L _ a s = _
      unfold kvals Diff.getKvals byId
      rw [h1, h2, nRootDiff_eq hc' ht hl hlen hs' L.ptr hfa hg.fits (ho _) (ho _)]
    have hw : Diff.Writes L.float (tableDepth r.table) L.ptr (rootL (tableDepth r.table) r.table) (byId r a) (byId r s) :=
      ⟨rootOk_of hc' ht hl hlen hs' hfa, rootOk_of hc' ht hl hlen hs' hg.fits, optUndefined_of ht hl (ho _), optUndefined_of ht hl (ho _),
        rootStep_of ht hl hfa hg.fits hg.step, fun vals out hv => hg.short vals out (hk.trans hv)⟩
    change (ops L).diff a s = (Diff.idOps _ _ _ _ _).diff _ _
    rw [hk]
    unfold Diff.idOps
    simp only
    rw [if_pos hw]

end
end Verif.Pipeline
