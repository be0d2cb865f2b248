import Verif.Lemmas.ExportShown
import Verif.Props.ExportRoot
/-!
# C90: what is in the JSON of an object
-/
namespace Verif.Export
open Diff Core Source

/-- C90: the JSON of an object does not depend on the order in which the entries of its maps come, at any level. -/
theorem C90_order (r r' : Root) (hw : RootWf r) (h : Shuffled r r') : rootToJson r = rootToJson r' := by
  obtain ⟨ds, h1, h2⟩ := h.defs
  obtain ⟨ss, h3, h4⟩ := h.sabun
  have hss : AMap.Wf ss := by
    have := hw.sabun
    rw [shuffledSabun_keys h3] at this
    exact this
  have hrs : AMap.Wf r'.sabun := ((h4.map _).nodup_iff).1 hss
  have hdn : (ds.map (·.1)).Nodup := by
    have := hw.defs
    rwa [shuffledDefs_keys h1] at this
  have e1 : rootMembers r.sabun r.defs = rootMembers r'.sabun ds := by
    refine rootMembers_defs h1 fun k v w hm hv => ?_
    obtain ⟨e, he, e1⟩ := List.mem_map.1 hm
    simp only [Prod.mk.injEq] at e1
    obtain ⟨rfl, rfl⟩ := e1
    refine rootMember_eq hv (hw.vals e he) ?_ fun l hl => hw.items _ (AMap.mem_of_get hl) l rfl
    rw [← get_of_perm h4 hrs]
    exact shuffledSabun_get h3 e.1
  have ho : setJV r.old = setJV r'.old := by
    unfold setJV
    rw [bset_eq h.old]
  unfold rootToJson
  rw [e1, ho]
  rcases rootMembers_perm (s := r'.sabun) h2 with ⟨h5, h6⟩ | ⟨l, m, h5, h6, h7⟩
  · rw [h5, h6]
  · rw [h5, h6, Res.map_ok, Res.map_ok, valueMap_eq ((rootMembers_keys h5).1.nodup hdn) h7]

/-- C90: so the text is the same text. -/
theorem C90_text (disp : BitVec 64 → List Char) (r r' : Root) (hw : RootWf r) (h : Shuffled r r') :
    (rootToJson r).map (pretty disp) = (rootToJson r').map (pretty disp) := by
  rw [C90_order r r' hw h]

/-- C90: the items of every mutable list of the root are in the JSON of the object under the name of the list, in their order, after the id that
is the next and the definition of the list; each has its id, its references and every one of its values, with the lists in it, and nothing else. -/
theorem C90_shown (r : Root) (hw : RootWf r) (hn : ∀ e ∈ r.defs, Names.Ident e.1.toList)
    (k : String) (id : Nat) (d : LDef) (u : Bool) (hk : (k, id, .mlist d u) ∈ r.defs) (l : List (Nat × Item)) (next : Nat)
    (hs : r.sabun.get k = some (.list (some (l, next)))) (hl : MutNames l) (m : List (String × JV)) (hr : rootToJson r = .ok (.map m)) :
    ∃ j a, (k, .array (.string "MList" :: .array [.string "NextID", .number (i64ToF64 next)] :: .array [j] :: a)) ∈ m ∧ MutShown l a := by
  obtain ⟨j, h1, h2⟩ := root_list_mem hw.defs hn hr hk (by simp) hs
  simp only [rootListJV, Res.ok.injEq] at h1
  subst h1
  exact ⟨_, _, h2, mut_shown l (hw.items _ (AMap.mem_of_get hs) _ rfl) hl⟩

/-- where the members that are written come from -/
theorem rootMembers_mem {sab : AMap RootSab} : ∀ {d : AMap (Nat × RootValI)} {l : List (String × String × JV)}, rootMembers sab d = .ok l →
    ∀ x ∈ l, ∃ k id v a, (k, id, v) ∈ d ∧ rootMember sab k v = .ok a ∧ x ∈ a
  | [], l, h, x, hx => by
    simp only [rootMembers, Res.ok.injEq] at h
    subst h
    cases hx
  | (k, id, v) :: d, l, h, x, hx => by
    rw [rootMembers] at h
    obtain ⟨a, h1, h⟩ := bind_inv h
    obtain ⟨b, h2, rfl⟩ := map_inv h
    rcases List.mem_append.1 hx with hx | hx
    · exact ⟨k, id, v, a, List.mem_cons_self, h1, hx⟩
    · obtain ⟨k', id', v', a', h3, h4, h5⟩ := rootMembers_mem h2 x hx
      exact ⟨k', id', v', a', List.mem_cons_of_mem _ h3, h4, h5⟩

/-- C90: the JSON of an object is a map sorted by names. The names in it are those of the parameters with their suffixes, those of the lists that have
a value in the object, and `Old`. -/
theorem C90_names (r : Root) (hw : RootWf r) (j : JV) (h : rootToJson r = .ok j) : ∃ m, j = .map m ∧ (m.map (·.1)).Pairwise (· < ·) ∧
    ∀ n, n ∈ m.map (·.1) ↔ n = "Old" ∨ (∃ k id p vt, (k, id, .param p vt) ∈ r.defs ∧ n = withSuffix k vt) ∨
      ∃ id v s, (n, id, v) ∈ r.defs ∧ (∀ p vt, v ≠ .param p vt) ∧ r.sabun.get n = some s := by
  unfold rootToJson at h
  obtain ⟨l, h1, rfl⟩ := map_inv h
  obtain ⟨h3, _, h5⟩ := rootMembers_keys h1
  refine ⟨_, rfl, bInsert_sorted _ _ _ (btree_sorted _), fun n => ?_⟩
  have hk : n ∈ (valueMap l).map (·.1) ↔ n ∈ l.map (·.2.1) := by
    unfold valueMap
    rw [keys_btree, (((btree_perm l (h3.nodup hw.defs)).map (·.2)).map (·.1)).mem_iff, List.map_map]
    rfl
  rw [keys_bInsert, hk]
  refine or_congr Iff.rfl ⟨fun hn => ?_, fun hn => ?_⟩
  · obtain ⟨x, hx, rfl⟩ := List.mem_map.1 hn
    obtain ⟨k, id, v, a, h6, h7, h8⟩ := rootMembers_mem h1 x hx
    cases v with
    | param p vt =>
      left
      refine ⟨k, id, p, vt, h6, ?_⟩
      simp only [rootMember] at h7
      split at h7 <;> cases h7 <;> rw [List.mem_singleton] at h8 <;> rw [h8]
    | _ =>
      right
      simp only [rootMember] at h7
      split at h7
      · rename_i s hs
        obtain ⟨j, _, rfl⟩ := map_inv h7
        rw [List.mem_singleton] at h8
        subst h8
        exact ⟨id, _, s, h6, by simp, hs⟩
      · cases h7; cases h8
  · rcases hn with ⟨k, id, p, vt, hm, rfl⟩ | ⟨id, v, s, hm, hv, hs⟩
    · obtain ⟨a, h6, h7⟩ := h5 k id _ hm
      simp only [rootMember] at h6
      split at h6 <;> cases h6 <;> exact List.mem_map.2 ⟨_, h7 _ List.mem_cons_self, rfl⟩
    · obtain ⟨a, h6, h7⟩ := h5 n id v hm
      cases v with
      | param p vt => exact absurd rfl (hv p vt)
      | _ =>
        simp only [rootMember, hs] at h6
        obtain ⟨j, _, rfl⟩ := map_inv h6
        exact List.mem_map.2 ⟨_, h7 _ List.mem_cons_self, rfl⟩

/-! ## An object -/

/-- an item with a value, a list and two references -/
def exItem : Item := .mk [("a", .param (.int (.val 1))), ("b", .cil [.mk [] []])] [("t", .val "x"), ("u", .null)]
/-- the same in another order -/
def exItem' : Item := .mk [("b", .cil [.mk [] []]), ("a", .param (.int (.val 1)))] [("u", .null), ("t", .val "x")]
def exDef : LDef := .mk [("a", 0, .param (.int (.val 0)) .normal), ("b", 1, .cilDef (.mk [] ⟨[], false, []⟩ []))]
  ⟨[("t", 0, .val "x", .normal), ("u", 1, .null, .nullable)], false, []⟩ ["o", "p"]
def exDef' : LDef := .mk [("b", 1, .cilDef (.mk [] ⟨[], false, []⟩ [])), ("a", 0, .param (.int (.val 0)) .normal)]
  ⟨[("u", 1, .null, .nullable), ("t", 0, .val "x", .normal)], false, []⟩ ["p", "o"]
def exRoot : Root := ⟨[("l", 0, .mlist exDef false), ("n", 1, .param (.bool (.val true)) .normal)], [("n", .param (.bool (.val false))), ("l", .list (some ([(3, exItem)], 4)))],
  ["q", "w"], []⟩
def exRoot' : Root := ⟨[("n", 1, .param (.bool (.val true)) .normal), ("l", 0, .mlist exDef' false)], [("l", .list (some ([(3, exItem')], 4))), ("n", .param (.bool (.val false)))],
  ["w", "q"], []⟩

theorem exRoot_wf : RootWf exRoot := by
  constructor
  · decide
  · intro e he
    simp only [exRoot, List.mem_cons, List.not_mem_nil, or_false] at he
    rcases he with rfl | rfl
    · simp [ValWf, exDef, DefWf, MembersWf, DefValWf]
      decide +kernel
    · simp [ValWf]
  · decide
  · intro e he l hl
    simp only [exRoot, List.mem_cons, List.not_mem_nil, or_false] at he
    rcases he with rfl | rfl
    · cases hl
    · cases hl
      simp [MutWf, exItem, ItemWf, ValsWf, SabWf, ItemsWf]

theorem exRoot_shuffled : Shuffled exRoot exRoot' := by
  have hi : ShuffledItem exItem exItem' := .mk (.cons .param (.cons (.cil (.cons (.mk .nil (.refl _) (.refl _)) .nil)) .nil)) (.swap ..) (.swap ..)
  have hd : ShuffledDef exDef exDef' :=
    .mk (.cons .param (.cons (.cil (.mk .nil (.refl _) ⟨.refl _, rfl⟩ (.refl _))) .nil)) (.swap ..) ⟨.swap .., rfl⟩ (.swap ..)
  exact ⟨⟨_, .cons (.mlist hd) (.cons .param .nil), .swap ..⟩, ⟨_, .cons .param (.cons (.list (.cons hi .nil)) .nil), .swap ..⟩, .swap ..⟩

/-- The objects differ, and their JSON is the same. -/
example : exRoot ≠ exRoot' ∧ rootToJson exRoot = rootToJson exRoot' :=
  ⟨by intro h; have := congrArg (fun r : Root => r.old) h; revert this; decide, C90_order _ _ exRoot_wf exRoot_shuffled⟩

/-- the hypotheses of `C90_shown` -/
example : ∃ m, rootToJson exRoot = .ok (.map m) ∧ (∀ e ∈ exRoot.defs, Names.Ident e.1.toList) ∧ ("l", 0, .mlist exDef false) ∈ exRoot.defs ∧
    exRoot.sabun.get "l" = some (.list (some ([(3, exItem)], 4))) ∧ MutNames [(3, exItem)] := by
  have hid : ∀ c : Char, Names.Lower c → Names.Ident [c] := fun c h => ⟨c, [], rfl, .inl h, by simp⟩
  have hl : ∀ s ∈ ["a", "b", "l", "n"], Names.Ident s.toList := by
    intro s hs
    simp only [List.mem_cons, List.not_mem_nil, or_false] at hs
    rcases hs with rfl | rfl | rfl | rfl
    · exact hid 'a' (by unfold Names.Lower; decide)
    · exact hid 'b' (by unfold Names.Lower; decide)
    · exact hid 'l' (by unfold Names.Lower; decide)
    · exact hid 'n' (by unfold Names.Lower; decide)
  refine ⟨_, rfl, ?_, by simp [exRoot], rfl, ?_⟩
  · intro e he
    simp only [exRoot, List.mem_cons, List.not_mem_nil, or_false] at he
    rcases he with rfl | rfl <;> exact hl _ (by simp)
  · simp only [MutNames, exItem, ItemNames, ValsNames, SabNames, ItemsNames]
    exact ⟨⟨hl _ (by simp), trivial, hl _ (by simp), ⟨trivial, trivial⟩, trivial⟩, trivial⟩

end Verif.Export
