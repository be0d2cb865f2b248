import Verif.Spec.ExportText
import Verif.Lemmas.ExportDef
/-!
# The JSON of an object does not depend on the order of its maps
-/
namespace Verif.Export
open Diff Core Source

section
variable {α : Type}

/-- sorted lists with the same entries are the same -/
theorem sorted_eq : ∀ {l m : List (String × α)}, (l.map (·.1)).Pairwise (· < ·) → (m.map (·.1)).Pairwise (· < ·) → l.Perm m → l = m := by
  intro l m hl hm hp
  refine hp.eq_of_pairwise (le := fun a b => a.1 < b.1) ?_ (List.pairwise_map.1 hl) (List.pairwise_map.1 hm)
  intro a b _ _ h1 h2
  exact absurd (String.lt_trans h1 h2) (String.lt_irrefl _)

theorem strings_eq {l m : List String} (hl : l.Pairwise (· < ·)) (hm : m.Pairwise (· < ·)) (h : ∀ x, x ∈ l ↔ x ∈ m) : l = m := by
  have hp : l.Perm m := (List.perm_ext_iff_of_nodup (sorted_nodup hl) (sorted_nodup hm)).2 h
  refine hp.eq_of_pairwise (le := fun a b => a < b) ?_ hl hm
  intro a b _ _ h1 h2
  exact absurd (String.lt_trans h1 h2) (String.lt_irrefl _)

theorem btree_eq {l m : List (String × α)} (h : (l.map (·.1)).Nodup) (hp : l.Perm m) : btree l = btree m := by
  have hm : (m.map (·.1)).Nodup := ((hp.map _).nodup_iff).1 h
  exact sorted_eq (btree_sorted _) (btree_sorted _) (((btree_perm l h).trans hp).trans (btree_perm m hm).symm)

end

theorem bset_sorted (l : List String) : (bset l).Pairwise (· < ·) := btree_sorted _

theorem bset_eq {l m : List String} (h : l.Perm m) : bset l = bset m :=
  strings_eq (bset_sorted l) (bset_sorted m) fun x => by rw [mem_bset, mem_bset, h.mem_iff]

theorem valueMap_eq {l m : List (String × String × JV)} (h : (l.map (·.1)).Nodup) (hp : l.Perm m) : valueMap l = valueMap m := by
  unfold valueMap
  rw [btree_eq h hp]

theorem itemVals_map : ∀ vs : List (String × SabVal), itemVals vs = vs.map fun e => (e.1, e.1, sabJV e.2)
  | [] => by simp [itemVals]
  | (k, v) :: r => by simp [itemVals, itemVals_map r]

theorem addIdRef_eq {id : Option JV} {refs refs' : AMap (Qv String)} {m : List (String × JV)} (h : (refs.map (·.1)).Nodup)
    (hp : refs.Perm refs') : addIdRef id refs m = addIdRef id refs' m := by
  have hb : btree (refs.map fun e => (e.1, refJV e.2)) = btree (refs'.map fun e => (e.1, refJV e.2)) :=
    btree_eq (by rw [List.map_map]; exact h) (hp.map _)
  unfold addIdRef
  rw [hb, hp.length_eq]

theorem addRefOld_eq {refs refs' : RefDefI} {old old' : List String} {m : List (String × JV)}
    (h : (refs.refs.map fun e => withSuffix e.1 e.2.2.2).Nodup) (hp : ShuffledRefs refs refs') (ho : old.Perm old') :
    addRefOld refs old m = addRefOld refs' old' m := by
  have hb : refDefJV refs = refDefJV refs' := btree_eq (by rw [List.map_map]; exact h) (hp.1.map _)
  unfold addRefOld setJV
  rw [hb, hp.1.length_eq, hp.2, ho.length_eq, bset_eq ho]

theorem shuffledVals_keys {vs ws : List (String × SabVal)} : ShuffledVals vs ws → vs.map (·.1) = ws.map (·.1)
  | .nil => rfl
  | .cons _ h => by simp [shuffledVals_keys h]

theorem shuffledMembers_keys {vs ws : List (String × Nat × LDefVal)} : ShuffledMembers vs ws → vs.map (·.1) = ws.map (·.1)
  | .nil => rfl
  | .cons _ h => by simp [shuffledMembers_keys h]

mutual
theorem item_eq (id : Option JV) {i j : Item} (h : ShuffledItem i j) (hw : ItemWf i) : itemJV id i = itemJV id j := by
  match i, j, h with
  | .mk vs refs, .mk us refs', .mk (ws := ws) h1 h2 h3 =>
    rw [ItemWf] at hw
    rw [itemJV, itemJV, addIdRef_eq hw.2.1 h3, vals_eq h1 hw.2.2, valueMap_eq (m := itemVals us)]
    · rw [itemVals_map, List.map_map]
      have := hw.1
      rw [shuffledVals_keys h1] at this
      exact this
    · rw [itemVals_map, itemVals_map]
      exact h2.map _
theorem vals_eq {vs ws : List (String × SabVal)} (h : ShuffledVals vs ws) (hw : ValsWf vs) : itemVals vs = itemVals ws := by
  match vs, ws, h with
  | [], [], .nil => rfl
  | (k, v) :: r, (_, w) :: s, .cons h1 h2 =>
    rw [ValsWf] at hw
    rw [itemVals, itemVals, sab_eq h1 hw.1, vals_eq h2 hw.2]
theorem sab_eq {v w : SabVal} (h : ShuffledSab v w) (hw : SabWf v) : sabJV v = sabJV w := by
  match v, w, h with
  | .param p, _, .param => rfl
  | .cil l, .cil m, .cil h =>
    rw [SabWf] at hw
    rw [sabJV, sabJV, items_eq h hw]
  | .milNone, _, .milNone => rfl
  | .mil l n, .mil m _, .mil h =>
    rw [SabWf] at hw
    rw [sabJV, sabJV, mut_eq h hw]
theorem items_eq {l m : List Item} (h : ShuffledItems l m) (hw : ItemsWf l) : itemsJV l = itemsJV m := by
  match l, m, h with
  | [], [], .nil => rfl
  | i :: r, j :: s, .cons h1 h2 =>
    rw [ItemsWf] at hw
    rw [itemsJV, itemsJV, item_eq none h1 hw.1, items_eq h2 hw.2]
theorem mut_eq {l m : List (Nat × Item)} (h : ShuffledMut l m) (hw : MutWf l) : mutItemsJV l = mutItemsJV m := by
  match l, m, h with
  | [], [], .nil => rfl
  | (id, i) :: r, (_, j) :: s, .cons h1 h2 =>
    rw [MutWf] at hw
    rw [mutItemsJV, mutItemsJV, item_eq _ h1 hw.1, mut_eq h2 hw.2]
end

mutual
theorem def_eq {d e : LDef} (h : ShuffledDef d e) (hw : DefWf d) : ldefJV d = ldefJV e := by
  match d, e, h with
  | .mk ms refs old, .mk us refs' old', .mk (ns := ns) h1 h2 h3 h4 =>
    rw [DefWf] at hw
    rw [ldefJV, ldefJV, addRefOld_eq hw.2.1 h3 h4, members_eq h1 hw.2.2, valueMap_eq (m := ldefMembers us)]
    · rw [ldefMembers_map, List.map_map]
      have := hw.1
      rw [shuffledMembers_keys h1] at this
      exact this
    · rw [ldefMembers_map, ldefMembers_map]
      exact h2.map _
theorem members_eq {vs ws : List (String × Nat × LDefVal)} (h : ShuffledMembers vs ws) (hw : MembersWf vs) :
    ldefMembers vs = ldefMembers ws := by
  match vs, ws, h with
  | [], [], .nil => rfl
  | (k, id, v) :: r, (_, _, w) :: s, .cons h1 h2 =>
    rw [MembersWf] at hw
    rw [ldefMembers, ldefMembers, defVal_eq k h1 hw.1, members_eq h2 hw.2]
theorem defVal_eq (k : String) {v w : LDefVal} (h : ShuffledDefVal v w) (hw : DefValWf v) : ldefVal k v = ldefVal k w := by
  match v, w, h with
  | .param p vt, _, .param => rfl
  | .cilDef d, .cilDef e, .cil h =>
    rw [DefValWf] at hw
    rw [ldefVal, ldefVal, def_eq h hw]
  | .milDef d u, .milDef e _, .mil h =>
    rw [DefValWf] at hw
    rw [ldefVal, ldefVal, def_eq h hw]
end

theorem shuffledTable_eq {l m : List (String × Item)} (h : ShuffledTable l m) (hw : ∀ e ∈ l, ItemWf e.2) :
    l.map (·.1) = m.map (·.1) ∧
      l.map (fun e => (e.1, itemJV (some (.string e.1)) e.2)) = m.map fun e => (e.1, itemJV (some (.string e.1)) e.2) := by
  induction h with
  | nil => simp
  | cons h1 _ ih =>
    obtain ⟨h2, h3⟩ := ih fun e he => hw e (List.mem_cons_of_mem _ he)
    exact ⟨by simp [h2], by rw [List.map_cons, List.map_cons, h3, item_eq _ h1 (hw _ List.mem_cons_self)]⟩

/-- a map of functions of the entries, sorted before or after -/
theorem bInsert_map {α β : Type} (f : String → α → β) (k : String) (v : α) : ∀ m : List (String × α),
    (bInsert k v m).map (fun e => (e.1, f e.1 e.2)) = bInsert k (f k v) (m.map fun e => (e.1, f e.1 e.2))
  | [] => rfl
  | (l, w) :: r => by
    simp only [bInsert, List.map_cons]
    split
    · rfl
    · split
      · rfl
      · rw [List.map_cons, bInsert_map f k v r]

theorem btree_map {α β : Type} (f : String → α → β) (l : List (String × α)) :
    (btree l).map (fun e => (e.1, f e.1 e.2)) = btree (l.map fun e => (e.1, f e.1 e.2)) := by
  unfold btree
  suffices h : ∀ (l m : List (String × α)), (l.foldl (fun m e => bInsert e.1 e.2 m) m).map (fun e => (e.1, f e.1 e.2)) =
      (l.map fun e => (e.1, f e.1 e.2)).foldl (fun m e => bInsert e.1 e.2 m) (m.map fun e => (e.1, f e.1 e.2)) from h l []
  intro l
  induction l with
  | nil => exact fun m => rfl
  | cons e l ih =>
    intro m
    rw [List.foldl_cons, ih, bInsert_map]
    rfl

theorem tableItems_map (l : AMap Item) : tableItems l = (btree (l.map fun e => (e.1, itemJV (some (.string e.1)) e.2))).map (·.2) := by
  unfold tableItems
  rw [← btree_map (fun k i => itemJV (some (.string k)) i) l, List.map_map]
  rfl

theorem rootList_eq {v w : RootValI} {s t : RootSab} (h : ShuffledVal v w) (hs : ShuffledNow s t) (hw : ValWf v)
    (hm : ∀ l, s = .list (some l) → MutWf l.1) : rootListJV v s = rootListJV w t := by
  cases h with
  | param => simp [rootListJV]
  | table h1 h2 h3 h4 =>
    obtain ⟨hw1, hw2, hw3⟩ := hw
    obtain ⟨e1, e2⟩ := shuffledTable_eq h2 hw3
    simp only [rootListJV]
    rw [def_eq h1 hw1, tableItems_map, tableItems_map, e2, btree_eq _ (h3.map _)]
    · unfold oldAttr
      rw [h4.length_eq, bset_eq h4]
    · rw [List.map_map]
      rw [e1] at hw2
      exact hw2
  | clist h1 h2 =>
    simp only [rootListJV]
    rw [def_eq h1 hw.1, items_eq h2 hw.2]
  | mlist h1 =>
    cases hs with
    | param => simp [rootListJV]
    | undef =>
      simp only [rootListJV]
      rw [def_eq h1 hw]
    | list h2 =>
      simp only [rootListJV]
      rw [def_eq h1 hw, mut_eq h2 (hm _ rfl)]

/-- what a name has in shuffled maps -/
theorem shuffledSabun_get {s t : AMap RootSab} (h : ShuffledSabun s t) (k : String) :
    (s.get k = none ∧ t.get k = none) ∨ ∃ v w, s.get k = some v ∧ t.get k = some w ∧ ShuffledNow v w := by
  induction h with
  | nil => exact .inl ⟨rfl, rfl⟩
  | @cons k' v w r s h1 _ ih =>
    by_cases e : k' = k
    · subst e
      exact .inr ⟨v, w, by simp [AMap.get], by simp [AMap.get], h1⟩
    · have e' : ¬ k = k' := fun h => e h.symm
      simpa [AMap.get, e'] using ih

theorem shuffledSabun_keys {s t : List (String × RootSab)} (h : ShuffledSabun s t) : s.map (·.1) = t.map (·.1) := by
  induction h with
  | nil => rfl
  | cons _ _ ih => simp [ih]

theorem shuffledDefs_keys {s t : List (String × Nat × RootValI)} (h : ShuffledDefs s t) : s.map (·.1) = t.map (·.1) := by
  induction h with
  | nil => rfl
  | cons _ _ ih => simp [ih]

theorem rootMember_eq {s t : AMap RootSab} {k : String} {v w : RootValI} (h : ShuffledVal v w) (hw : ValWf v)
    (hs : (s.get k = none ∧ t.get k = none) ∨ ∃ v w, s.get k = some v ∧ t.get k = some w ∧ ShuffledNow v w)
    (hm : ∀ l, s.get k = some (.list (some l)) → MutWf l.1) : rootMember s k v = rootMember t k w := by
  rcases hs with ⟨h1, h2⟩ | ⟨a, b, h1, h2, h3⟩
  · cases h <;> simp [rootMember, h1, h2]
  · have hl := rootList_eq h h3 hw fun l e => hm l (by rw [h1, e])
    cases h with
    | param => cases h3 <;> simp [rootMember, h1, h2]
    | _ => simp only [rootMember, h1, h2, hl]

theorem rootMember_np (s : AMap RootSab) (k : String) (v : RootValI) : rootMember s k v = .err ∨ ∃ l, rootMember s k v = .ok l := by
  cases v with
  | param p vt => right; rw [rootMember]; split <;> exact ⟨_, rfl⟩
  | table d l old =>
    unfold rootMember
    cases s.get k <;> simp [rootListJV]
  | clist d l =>
    unfold rootMember
    cases s.get k <;> simp [rootListJV]
  | mlist d u =>
    unfold rootMember
    cases s.get k with
    | none => simp
    | some x =>
      cases x with
      | param p => left; simp [rootListJV]
      | list o =>
        cases o <;> simp [rootListJV]

theorem rootMembers_defs {s t : AMap RootSab} {d e : AMap (Nat × RootValI)} (h : ShuffledDefs d e)
    (he : ∀ k v w, (k, v) ∈ d.map (fun e => (e.1, e.2.2)) → ShuffledVal v w → rootMember s k v = rootMember t k w) :
    rootMembers s d = rootMembers t e := by
  induction h with
  | nil => rfl
  | cons h1 _ ih =>
    rw [rootMembers, rootMembers, he _ _ _ (by simp) h1, ih fun k v w hm => he k v w (by simp only [List.map_cons, List.mem_cons]; exact .inr hm)]

/-- the members in another order -/
theorem rootMembers_perm {s : AMap RootSab} {d e : AMap (Nat × RootValI)} (h : d.Perm e) :
    (rootMembers s d = .err ∧ rootMembers s e = .err) ∨ ∃ l m, rootMembers s d = .ok l ∧ rootMembers s e = .ok m ∧ l.Perm m := by
  induction h with
  | nil => exact .inr ⟨_, _, rfl, rfl, .refl _⟩
  | @cons x l₁ l₂ _ ih =>
    obtain ⟨k, id, v⟩ := x
    simp only [rootMembers]
    rcases rootMember_np s k v with h | ⟨a, h⟩
    · left; simp [h]
    · rcases ih with ⟨h1, h2⟩ | ⟨l, m, h1, h2, h3⟩
      · left; simp [h, h1, h2]
      · right; exact ⟨a ++ l, a ++ m, by simp [h, h1], by simp [h, h2], h3.append_left _⟩
  | swap x y l =>
    obtain ⟨k, id, v⟩ := x
    obtain ⟨k', id', v'⟩ := y
    simp only [rootMembers]
    have hr : ∀ d, rootMembers s d = .err ∨ ∃ l, rootMembers s d = .ok l := by
      intro d
      induction d with
      | nil => exact .inr ⟨_, rfl⟩
      | cons x d ih =>
        obtain ⟨k, id, v⟩ := x
        simp only [rootMembers]
        rcases rootMember_np s k v with h | ⟨a, h⟩
        · left; simp [h]
        · rcases ih with h1 | ⟨b, h1⟩
          · left; simp [h, h1]
          · right; exact ⟨a ++ b, by simp [h, h1]⟩
    rcases rootMember_np s k v with h | ⟨a, h⟩ <;> rcases rootMember_np s k' v' with h' | ⟨b, h'⟩ <;> rcases hr l with h'' | ⟨c, h''⟩
    · left; simp [h, h', h'']
    · left; simp [h, h', h'']
    · left; simp [h, h', h'']
    · left; simp [h, h', h'']
    · left; simp [h, h', h'']
    · left; simp [h, h', h'']
    · left; simp [h, h', h'']
    · right
      refine ⟨b ++ (a ++ c), a ++ (b ++ c), by simp [h, h', h''], by simp [h, h', h''], ?_⟩
      rw [← List.append_assoc, ← List.append_assoc]
      exact List.perm_append_comm.append_right _
  | trans _ _ ih1 ih2 =>
    rcases ih1 with ⟨h1, h2⟩ | ⟨l, m, h1, h2, h3⟩
    · rcases ih2 with ⟨h4, h5⟩ | ⟨l', m', h4, h5, h6⟩
      · exact .inl ⟨h1, h5⟩
      · rw [h2] at h4; cases h4
    · rcases ih2 with ⟨h4, h5⟩ | ⟨l', m', h4, h5, h6⟩
      · rw [h2] at h4; cases h4
      · rw [h2] at h4
        cases h4
        exact .inr ⟨l, m', h1, h5, h3.trans h6⟩

end Verif.Export
