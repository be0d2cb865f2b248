import Verif.Model.Core
/-! # Maps: reading after writing -/
namespace Verif.Core.AMap
variable {α : Type}

theorem get_insert_self (m : AMap α) (k : String) (v : α) : (m.insert k v).get k = some v := by
  induction m with
  | nil => simp [insert, get]
  | cons e r ih =>
    obtain ⟨k', v'⟩ := e
    unfold insert
    by_cases h : k = k'
    · rw [if_pos h]; simp [get]
    · rw [if_neg h]; simp [get, h, ih]

theorem get_insert_ne (m : AMap α) {k k' : String} (v : α) (h : k' ≠ k) : (m.insert k v).get k' = m.get k' := by
  induction m with
  | nil => simp [insert, get, h]
  | cons e r ih =>
    obtain ⟨k'', v'⟩ := e
    unfold insert
    by_cases hk : k = k''
    · rw [if_pos hk]; subst hk; simp [get, h]
    · rw [if_neg hk]; simp [get, ih]

theorem get_insert (m : AMap α) (k k' : String) (v : α) : (m.insert k v).get k' = if k' = k then some v else m.get k' := by
  by_cases h : k' = k
  · rw [if_pos h, h, get_insert_self]
  · rw [if_neg h, get_insert_ne m v h]

theorem get_remove_ne (m : AMap α) {k k' : String} (h : k' ≠ k) : (m.remove k).get k' = m.get k' := by
  induction m with
  | nil => rfl
  | cons e r ih =>
    obtain ⟨k'', v'⟩ := e
    unfold remove
    by_cases hk : k = k''
    · rw [if_pos hk]; subst hk; simp [get, h]
    · rw [if_neg hk]; simp [get, ih]

theorem mem_of_get {m : AMap α} {k : String} {v : α} (h : m.get k = some v) : (k, v) ∈ m := by
  induction m with
  | nil => simp [get] at h
  | cons e r ih =>
    obtain ⟨k', v'⟩ := e
    unfold get at h
    by_cases hk : k = k'
    · rw [if_pos hk] at h; cases h; subst hk; exact List.mem_cons_self
    · rw [if_neg hk] at h; exact List.mem_cons_of_mem _ (ih h)

theorem get_of_mem {m : AMap α} (hm : m.Wf) {k : String} {v : α} (h : (k, v) ∈ m) : m.get k = some v := by
  induction m with
  | nil => cases h
  | cons e r ih =>
    obtain ⟨k', v'⟩ := e
    have hd : k' ∉ r.map (·.1) ∧ (r.map (·.1)).Nodup := List.nodup_cons.1 hm
    unfold get
    rcases List.mem_cons.1 h with h | h
    · cases h; rw [if_pos rfl]
    · have hne : k ≠ k' := fun he => hd.1 (he ▸ List.mem_map.2 ⟨_, h, rfl⟩)
      rw [if_neg hne]; exact ih hd.2 h

theorem get_eq_none {m : AMap α} {k : String} : m.get k = none ↔ k ∉ m.map (·.1) := by
  induction m with
  | nil => simp [get]
  | cons e r ih =>
    obtain ⟨k', v'⟩ := e
    unfold get
    by_cases hk : k = k'
    · rw [if_pos hk]; simp [hk]
    · rw [if_neg hk, ih]; simp [hk]

theorem keys_insert (m : AMap α) (k : String) (v : α) :
    (m.insert k v).map (·.1) = if k ∈ m.map (·.1) then m.map (·.1) else m.map (·.1) ++ [k] := by
  induction m with
  | nil => simp [insert]
  | cons e r ih =>
    obtain ⟨k', v'⟩ := e
    unfold insert
    by_cases hk : k = k'
    · rw [if_pos hk]; simp [hk]
    · rw [if_neg hk, List.map_cons, ih]
      by_cases hr : k ∈ r.map (·.1)
      · rw [if_pos hr, if_pos (show k ∈ List.map (·.1) ((k', v') :: r) from List.mem_cons_of_mem _ hr)]; rfl
      · rw [if_neg hr, if_neg]
        · rfl
        · intro h
          rcases List.mem_cons.1 h with h | h
          · exact hk h
          · exact hr h

theorem Wf.insert {m : AMap α} (h : m.Wf) (k : String) (v : α) : (m.insert k v).Wf := by
  unfold Wf
  rw [keys_insert]
  by_cases hk : k ∈ m.map (·.1)
  · rw [if_pos hk]; exact h
  · rw [if_neg hk]
    refine List.nodup_append.2 ⟨h, List.nodup_cons.2 ⟨List.not_mem_nil, List.nodup_nil⟩, ?_⟩
    intro a ha b hb hab
    rw [List.mem_singleton] at hb
    exact hk (hb ▸ hab ▸ ha)

theorem sublist_remove (m : AMap α) (k : String) : (m.remove k).Sublist m := by
  induction m with
  | nil => exact List.Sublist.slnil
  | cons e r ih =>
    obtain ⟨k', v'⟩ := e
    unfold remove
    by_cases hk : k = k'
    · rw [if_pos hk]; exact List.sublist_cons_self _ _
    · rw [if_neg hk]; exact ih.cons_cons _

theorem Wf.remove {m : AMap α} (h : m.Wf) (k : String) : (m.remove k).Wf :=
  List.Nodup.sublist ((sublist_remove m k).map (·.1)) h

theorem get_remove_self {m : AMap α} (h : m.Wf) (k : String) : (m.remove k).get k = none := by
  induction m with
  | nil => rfl
  | cons e r ih =>
    obtain ⟨k', v'⟩ := e
    have hd : k' ∉ r.map (·.1) ∧ (r.map (·.1)).Nodup := List.nodup_cons.1 h
    unfold AMap.remove
    by_cases hk : k = k'
    · rw [if_pos hk, hk]; exact get_eq_none.2 hd.1
    · rw [if_neg hk]; unfold get; rw [if_neg hk]; exact ih hd.2

end Verif.Core.AMap
