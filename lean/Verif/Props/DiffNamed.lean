import Verif.Lemmas.DiffNamedSame
import Verif.Props.Diff
import Verif.Props.Source
/-!
# Diffs of objects as they are stored

C72. The diffs of C09 to C13 are those of objects whose members are addressed by id. Here they are those of the objects themselves: maps
from member names to values in any order, with definitions and tables as loading makes them.
-/
namespace Verif.Named
open VarInt Diff Core Source LinkedMap

section
variable {defs : AMap (Nat × RootValI)} {table : MetaTable}

/-- **C72, the diff (refinement).** Computing a diff by names is computing it by ids. -/
theorem C72_get_diff (F : Compaction.FloatOps) {n c : Nat} (hc : c < 2 ^ 62) (hr : RootTable defs table) (hl : LevelOk n table)
    (hlen : defs.length < 2 ^ 62) (hs : ∀ k id d u, defs.get k = some (id, .mlist d u) → Sized c c d) (ptr : Ptr) {f t : AMap RootSab}
    (hf : RootFits defs f) (ht : RootFits defs t) (hof : OptUndefined defs f) (hot : OptUndefined defs t) :
    nGetDiff F n ptr defs table f t = getDiff F n ptr (rootL n table) (rootValsL n table f) (rootValsL n table t) := by
  unfold nGetDiff getDiff getKvals
  rw [nRootDiff_eq hc hr hl hlen hs ptr hf ht hof hot]
  cases getRootDiff n ptr (rootL n table) (rootValsL n table f) (rootValsL n table t) <;> rfl

/-- **C72, applying (refinement).** Applying any bytes by names is applying them by ids, whatever the object: the same errors, the same
panics, and objects that correspond. -/
theorem C72_apply_diff (F : Compaction.FloatOps) {n : Nat} (hr : RootTable defs table) (hl : LevelOk n table) (s : AMap RootSab) (bytes : Bytes) :
    (nApplyDiff F n table s bytes).map (rootValsL n table) = applyDiff F n (rootL n table) (rootValsL n table s) bytes := by
  unfold nApplyDiff applyDiff applyKvals
  cases Codec.decodeVals bytes with
  | err => rfl
  | panic => rfl
  | ok p =>
    rw [Res.bind_ok, Res.bind_ok]
    cases readRoot F n (rootL n table) p.1 with
    | err => rfl
    | panic => rfl
    | ok q => rw [Res.bind_ok, Res.bind_ok]; exact nApplyRoot_eq hr hl s q.1

/-- **C72 (partial).** If an object changes by a step (nothing set is removed, no item is moved, no next id changes alone, no float changes
between `0.0` and `-0.0`), then applying the written diff to the old object gives an object with the same parameters and mutable lists as
the new one, in every order of the maps, if the diff can be read. Missing: the cases excluded here, which all fail (C09, C13). -/
theorem C72_restores_partial (F : Compaction.FloatOps) {n c : Nat} (hc : c < 2 ^ 62) (hr : RootTable defs table) (hl : LevelOk n table)
    (hlen : defs.length < 2 ^ 62) (hs : ∀ k id d u, defs.get k = some (id, .mlist d u) → Sized c c d) (ptr : Ptr) {f t : AMap RootSab}
    (hf : RootFits defs f) (ht : RootFits defs t) (hof : OptUndefined defs f) (hot : OptUndefined defs t) (hst : RootStepN defs f t) :
    ∃ d bytes, nRootDiff n ptr defs table f t = .ok d ∧ nGetDiff F n ptr defs table f t = .ok bytes ∧
      (rootReadable n d → bytes.length < 2 ^ 60 → ∃ res, nApplyDiff F n table f bytes = .ok res ∧ SameRoot defs t res) := by
  obtain ⟨d, bytes, h1, h2, h3⟩ := C09_diff_apply_restores_partial F n ptr (rootL n table) _ _ (rootOk_of hc hr hl hlen hs hf)
    (rootOk_of hc hr hl hlen hs ht) (optUndefined_of hr hl hof) (optUndefined_of hr hl hot) (rootStep_of hr hl hf ht hst)
  refine ⟨d, bytes, ?_, ?_, fun hd hb => ?_⟩
  · rw [nRootDiff_eq hc hr hl hlen hs ptr hf ht hof hot]; exact h1
  · rw [C72_get_diff F hc hr hl hlen hs ptr hf ht hof hot]; exact h2
  · have h4 := h3 hd hb
    rw [← C72_apply_diff F hr hl] at h4
    cases h5 : nApplyDiff F n table f bytes with
    | ok res =>
      rw [h5] at h4
      refine ⟨res, rfl, sameRoot_of hr hl ht ?_⟩
      injection h4 with h4
      exact h4.symm
    | err => rw [h5] at h4; cases h4
    | panic => rw [h5] at h4; cases h4

/-- **C72, determinism.** The bytes of a diff do not depend on the order of the maps, nor on anything that is not compared: objects with the
same parameters and mutable lists have the same diffs. -/
theorem C72_deterministic_partial (F : Compaction.FloatOps) {n c : Nat} (hc : c < 2 ^ 62) (hr : RootTable defs table) (hl : LevelOk n table)
    (hlen : defs.length < 2 ^ 62) (hs : ∀ k id d u, defs.get k = some (id, .mlist d u) → Sized c c d) (ptr : Ptr) {f t f' t' : AMap RootSab}
    (hf : RootFits defs f) (ht : RootFits defs t) (hof : OptUndefined defs f) (hot : OptUndefined defs t)
    (hf' : RootFits defs f') (ht' : RootFits defs t') (hof' : OptUndefined defs f') (hot' : OptUndefined defs t')
    (h1 : SameRoot defs f f') (h2 : SameRoot defs t t') : nGetDiff F n ptr defs table f t = nGetDiff F n ptr defs table f' t' := by
  rw [C72_get_diff F hc hr hl hlen hs ptr hf ht hof hot, C72_get_diff F hc hr hl hlen hs ptr hf' ht' hof' hot',
    rootValsL_of_same hr hl hf hf' h1, rootValsL_of_same hr hl ht ht' h2]

/-- **C72, the frame.** Applying a diff does not touch what has no place in the table, such as tables and constant lists: unconditionally. -/
theorem C72_frame (F : Compaction.FloatOps) (n : Nat) (table : MetaTable) (s : AMap RootSab) (bytes : Bytes) (res : AMap RootSab)
    (h : nApplyDiff F n table s bytes = .ok res) (k : String) (hk : ∀ (i : Nat) m, table[i]? ≠ some (some (k, m))) : res.get k = s.get k := by
  have hk' : ∀ i m, metaGet table i ≠ some (k, m) := by
    intro i m hm
    unfold metaGet at hm
    cases he : table[i]? with
    | none => rw [he] at hm; cases hm
    | some e => rw [he] at hm; simp only [Option.join_some] at hm; subst hm; exact hk i m he
  unfold nApplyDiff at h
  obtain ⟨p, _, h⟩ := Res.bind_eq_ok.mp h
  obtain ⟨q, _, h⟩ := Res.bind_eq_ok.mp h
  unfold nApplyRoot at h
  obtain ⟨v, h1, h2⟩ := Res.bind_eq_ok.mp h
  rw [nRootLists_frame hk' h2, nRootParams_frame hk' h1]

theorem loop_step {α σ : Type} {f : σ → α → Res σ} {l : List α} {s r : σ} (h : loop f l s = .ok r) {a : α} (ha : a ∈ l) :
    ∃ s' s'', f s' a = .ok s'' := by
  induction l generalizing s with
  | nil => cases ha
  | cons x l ih =>
    obtain ⟨s', h1, h2⟩ := Res.bind_eq_ok.1 h
    rcases List.mem_cons.1 ha with rfl | ha
    · exact ⟨s, s', h1⟩
    · exact ih h2 ha

/-- **C72 does not hold for defined lists of the root that may be undefined**: no diff can be made of an object that has one. -/
theorem C72_negation_undefiable {n : Nat} (hr : RootTable defs table) (ptr : Ptr) {f t : AMap RootSab} {k : String} {id : Nat} {d : LDef}
    (hd : defs.get k = some (id, .mlist d true)) {l : List (Nat × Item) × Nat} (ht : t.get k = some (.list (some l)))
    (x : RootDiff (DiffT n)) : nRootDiff n ptr defs table f t ≠ .ok x := by
  intro h
  unfold nRootDiff at h
  cases hl : loop (rootValue n ptr defs table f) t ⟨[], []⟩ with
  | err => rw [hl] at h; cases h
  | panic => rw [hl] at h; cases h
  | ok acc =>
    obtain ⟨s', s'', hs⟩ := loop_step hl (AMap.mem_of_get ht)
    obtain ⟨i, r, _, _, hp⟩ := hr.places k id _ (AMap.mem_of_get hd)
    have hm : metaGet table id = some (k, .optMil i r) := by unfold metaGet; rw [hp]; rfl
    unfold rootValue at hs
    simp only [hd, hm] at hs
    split at hs
    · cases hs
    · cases hs

/-- … and none of an object that lacks a list. -/
theorem C72_missing {n : Nat} (ptr : Ptr) {f t : AMap RootSab} {k : String} {m : Option (List (Nat × Item) × Nat)}
    (hf : ∀ l, f.get k ≠ some (.list l)) (ht : t.get k = some (.list m)) (x : RootDiff (DiffT n)) :
    nRootDiff n ptr defs table f t ≠ .ok x := by
  intro h
  unfold nRootDiff at h
  cases hl : loop (rootValue n ptr defs table f) t ⟨[], []⟩ with
  | err => rw [hl] at h; cases h
  | panic => rw [hl] at h; cases h
  | ok acc =>
    obtain ⟨s', s'', hs⟩ := loop_step hl (AMap.mem_of_get ht)
    unfold rootValue at hs
    simp only at hs
    cases hs

/-- Every table has a level. -/
theorem C72_level (table : MetaTable) : ∃ n, LevelOk n table := levelOk_exists table

end

/-! ## Loaded objects -/

/-- **C72, loaded tables.** A source that declares each name once is loaded with ids and a table as the theorems above need them. -/
theorem C72_loaded_table (env : Env) (he : env.Sound) (files : List (String × JVal)) (r : Source.Root) (h : loadDir env files = .ok r)
    (l : List Decl) (hl : SourceDecls files l) (hd : Distinct l) : RootTable r.defs r.table := by
  obtain ⟨⟨L⟩, ht⟩ := loads env he h
  obtain ⟨lr, lf, h1, rfl⟩ := hl
  obtain ⟨rfl, rfl⟩ := L.unique h1
  obtain ⟨t, ht', htl, htp⟩ := L.table he hd
  rw [ht, Res.ok.injEq] at ht'
  subst ht'
  obtain ⟨h2, h3, h4⟩ := L.distinct hd
  refine ⟨L.wf, ?_, fun k id y d hm hy => L.good he (k, id, y) hm d hy, htl, htp⟩
  unfold IdsFill
  rw [List.length_map]
  refine List.Subperm.perm_of_length_le (List.subperm_of_subset ?_ ?_) (by simp)
  · refine List.Nodup.map_on (fun a ha b hb hab => ?_) (List.Nodup.of_map _ L.wf)
    obtain ⟨d, hd1, hd2⟩ := h4 a ha
    obtain ⟨d', hd1', hd2'⟩ := h4 b hb
    rw [hab, hd1'] at hd1
    cases hd1
    have hab' : a.1 = b.1 := by rw [← hd2, ← hd2']
    have e1 := AMap.get_of_mem L.wf (k := a.1) (v := a.2) ha
    have e2 := AMap.get_of_mem L.wf (k := b.1) (v := b.2) hb
    rw [hab', e2] at e1
    exact Prod.ext hab' (Option.some.inj e1).symm
  · intro i hi
    obtain ⟨e, he', rfl⟩ := List.mem_map.1 hi
    obtain ⟨d, hd1, _⟩ := h4 e he'
    rw [List.mem_range, h2]
    exact (List.getElem?_eq_some_iff.1 hd1).1

end Verif.Named
