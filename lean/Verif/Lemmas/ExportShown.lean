import Verif.Lemmas.ExportText
/-!
# The JSON of an item has every value of the item
-/
namespace Verif.Export
open Diff Core Source

theorem ident_ne {k : String} (h : Names.Ident k.toList) : k ≠ "ID" ∧ k ≠ "Ref" := by
  obtain ⟨c, r, h1, h2, _⟩ := h
  constructor <;>
  · rintro rfl
    have hc : c = 'I' ∨ c = 'R' := by
      first
        | left; exact (List.cons.inj (h1.symm.trans (show _ = 'I' :: ['D'] by decide))).1
        | right; exact (List.cons.inj (h1.symm.trans (show _ = 'R' :: ['e', 'f'] by decide))).1
    unfold Names.Lower at h2
    rcases hc with rfl | rfl <;> revert h2 <;> decide

theorem valsNames_mem : ∀ {vs : List (String × SabVal)}, ValsNames vs → ∀ k ∈ vs.map (·.1), Names.Ident k.toList
  | [], _, k, h => by cases h
  | (k', v) :: r, hn, k, h => by
    rw [ValsNames] at hn
    rcases List.mem_cons.1 h with rfl | h
    · exact hn.1
    · exact valsNames_mem hn.2.2 k h

theorem itemMap_perm {vs : List (String × SabVal)} (h : (vs.map (·.1)).Nodup) :
    (valueMap (itemVals vs)).Perm (vs.map fun e => (e.1, sabJV e.2)) := by
  rw [itemVals_map]
  refine (valueMap_perm _ (by rw [List.map_map]; exact h) (by rw [List.map_map]; exact h)).trans ?_
  rw [List.map_map]
  exact .refl _

theorem refs_shown {refs : AMap (Qv String)} (h : (refs.map (·.1)).Nodup) :
    RefsShown refs (.map (btree (refs.map fun e => (e.1, refJV e.2)))) := by
  refine ⟨_, rfl, btree_sorted _, fun k v => ?_⟩
  rw [(btree_perm _ (by rw [List.map_map]; exact h)).mem_iff, List.mem_map]
  constructor
  · rintro ⟨e, he, e1⟩
    simp only [Prod.mk.injEq] at e1
    obtain ⟨rfl, rfl⟩ := e1
    refine ⟨e.2, AMap.get_of_mem h he, ?_⟩
    cases e.2 <;> rfl
  · rintro ⟨q, hq, rfl⟩
    refine ⟨(k, q), AMap.mem_of_get hq, ?_⟩
    cases q <;> rfl

/-- what is in the map of an item -/
theorem item_map {id : Option JV} {vs : List (String × SabVal)} {refs : AMap (Qv String)} (hv : (vs.map (·.1)).Nodup)
    (hn : ∀ k ∈ vs.map (·.1), k ≠ "ID" ∧ k ≠ "Ref") :
    let m := addIdRef id refs (valueMap (itemVals vs))
    (m.map (·.1)).Pairwise (· < ·) ∧ (∀ e ∈ vs, (e.1, sabJV e.2) ∈ m) ∧ (∀ v, ("ID", v) ∈ m ↔ id = some v) ∧
      (refs ≠ [] → ("Ref", .map (btree (refs.map fun e => (e.1, refJV e.2)))) ∈ m) ∧
      ∀ k, k ∈ m.map (·.1) ↔ k ∈ vs.map (·.1) ∨ (k = "ID" ∧ id.isSome) ∨ (k = "Ref" ∧ refs ≠ []) := by
  intro m
  have hp := itemMap_perm hv
  have hs : ((valueMap (itemVals vs)).map (·.1)).Pairwise (· < ·) := btree_sorted _
  have hmem : ∀ e ∈ vs, (e.1, sabJV e.2) ∈ valueMap (itemVals vs) := fun e he => hp.mem_iff.2 (List.mem_map.2 ⟨e, he, rfl⟩)
  have hkeys : ∀ k, k ∈ (valueMap (itemVals vs)).map (·.1) ↔ k ∈ vs.map (·.1) := by
    intro k
    rw [(hp.map _).mem_iff, List.map_map]
    rfl
  -- the id
  set a := valueMap (itemVals vs) with ha
  have hb : ∃ b, addIdRef id [] a = b ∧ (b.map (·.1)).Pairwise (· < ·) ∧
      (∀ e ∈ vs, (e.1, sabJV e.2) ∈ b) ∧ (∀ v, ("ID", v) ∈ b ↔ id = some v) ∧
      ∀ k, k ∈ b.map (·.1) ↔ k ∈ vs.map (·.1) ∨ (k = "ID" ∧ id.isSome) := by
    cases id with
    | none =>
      refine ⟨a, rfl, hs, hmem, fun v => ?_, fun k => ?_⟩
      · constructor
        · intro h
          exact absurd rfl (hn _ ((hkeys "ID").1 (List.mem_map.2 ⟨_, h, rfl⟩))).1
        · intro h; cases h
      · rw [hkeys]; simp
    | some x =>
      refine ⟨bInsert "ID" x a, rfl, bInsert_sorted _ _ _ hs, fun e he => ?_, fun v => ?_, fun k => ?_⟩
      · exact bInsert_mem_ne _ (hn e.1 (List.mem_map.2 ⟨e, he, rfl⟩)).1 _ (hmem e he)
      · constructor
        · intro h
          rcases mem_bInsert h with ⟨_, rfl⟩ | h
          · rfl
          · exact absurd rfl (hn _ ((hkeys "ID").1 (List.mem_map.2 ⟨_, h, rfl⟩))).1
        · intro h
          cases h
          exact bInsert_mem _ _ _
      · rw [keys_bInsert, hkeys]
        simp only [Option.isSome_some, and_true]
        tauto
  obtain ⟨b, hb, b1, b2, b3, b4⟩ := hb
  have hm : m = if refs.length ≠ 0 then bInsert "Ref" (.map (btree (refs.map fun e => (e.1, refJV e.2)))) b else b := by
    change addIdRef id refs a = _
    rw [← hb]
    cases id <;> simp [addIdRef]
  by_cases hr : refs = []
  · subst hr
    simp only [List.length_nil, ne_eq, not_true_eq_false, if_false] at hm
    rw [hm]
    refine ⟨b1, b2, b3, fun h => absurd rfl h, fun k => ?_⟩
    rw [b4]; simp
  · rw [if_pos (by simpa using hr)] at hm
    rw [hm]
    refine ⟨bInsert_sorted _ _ _ b1, fun e he => ?_, fun v => ?_, fun _ => bInsert_mem _ _ _, fun k => ?_⟩
    · exact bInsert_mem_ne _ (hn e.1 (List.mem_map.2 ⟨e, he, rfl⟩)).2 _ (b2 e he)
    · rw [← b3]
      constructor
      · intro h
        rcases mem_bInsert h with ⟨h, _⟩ | h
        · exact absurd h (by decide)
        · exact h
      · exact bInsert_mem_ne _ (by decide) _
    · rw [keys_bInsert, b4]
      simp only [ne_eq, hr, not_false_eq_true, and_true]
      tauto

mutual
theorem item_shown (id : Option JV) (i : Item) (hw : ItemWf i) (hn : ItemNames i) : ItemShown id i (itemJV id i) := by
  match i with
  | .mk vs refs =>
    rw [ItemWf] at hw
    rw [ItemNames] at hn
    obtain ⟨h1, h2, h3, h4, h5⟩ := item_map (id := id) (refs := refs) hw.1 fun k hk => ident_ne (valsNames_mem hn k hk)
    rw [ItemShown, itemJV]
    exact ⟨_, rfl, h1, vals_shown vs hw.2.2 hn _ h2, h3, fun h => ⟨_, h4 h, refs_shown hw.2.1⟩, h5⟩
theorem vals_shown (vs : List (String × SabVal)) (hw : ValsWf vs) (hn : ValsNames vs) (m : List (String × JV))
    (hm : ∀ e ∈ vs, (e.1, sabJV e.2) ∈ m) : ValsShown vs m := by
  match vs with
  | [] => rw [ValsShown]; trivial
  | (k, v) :: r =>
    rw [ValsWf] at hw
    rw [ValsNames] at hn
    rw [ValsShown]
    exact ⟨⟨_, hm _ List.mem_cons_self, sab_shown v hw.1 hn.2.1⟩,
      vals_shown r hw.2 hn.2.2 m fun e he => hm e (List.mem_cons_of_mem _ he)⟩
theorem sab_shown (v : SabVal) (hw : SabWf v) (hn : SabNames v) : SabShown v (sabJV v) := by
  match v with
  | .param p => rw [SabShown, sabJV]
  | .cil l =>
    rw [SabWf] at hw
    rw [SabNames] at hn
    rw [SabShown, sabJV]
    exact ⟨_, rfl, items_shown l hw hn⟩
  | .milNone => rw [SabShown, sabJV]
  | .mil l n =>
    rw [SabWf] at hw
    rw [SabNames] at hn
    rw [SabShown, sabJV]
    exact ⟨_, rfl, mut_shown l hw hn⟩
theorem items_shown (l : List Item) (hw : ItemsWf l) (hn : ItemsNames l) : ItemsShown l (itemsJV l) := by
  match l with
  | [] => rw [ItemsShown, itemsJV]
  | i :: r =>
    rw [ItemsWf] at hw
    rw [ItemsNames] at hn
    rw [ItemsShown, itemsJV]
    exact ⟨_, _, rfl, item_shown none i hw.1 hn.1, items_shown r hw.2 hn.2⟩
theorem mut_shown (l : List (Nat × Item)) (hw : MutWf l) (hn : MutNames l) : MutShown l (mutItemsJV l) := by
  match l with
  | [] => rw [MutShown, mutItemsJV]
  | (id, i) :: r =>
    rw [MutWf] at hw
    rw [MutNames] at hn
    rw [MutShown, mutItemsJV]
    exact ⟨_, _, rfl, item_shown _ i hw.1 hn.1, mut_shown r hw.2 hn.2⟩
end

end Verif.Export
