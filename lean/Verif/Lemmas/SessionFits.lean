import Verif.Lemmas.Session
import Verif.Props.DiffLoaded
/-! # Sessions keep objects fitting, and are steps -/
namespace Verif.Named
open Diff Core Source LinkedMap

theorem itemFits_empty (d : LDef) : ItemFits d (.mk [] []) :=
  .mk List.nodup_nil List.nodup_nil (fun _ _ h => nomatch h) (fun _ h => nomatch h) (fun _ _ h => nomatch h) (fun _ _ _ h => nomatch h)
    (fun _ _ _ _ _ _ h => nomatch h) (fun _ _ h => nomatch h)

theorem itemFits_param {d : LDef} {values : AMap SabVal} {refs : AMap (Qv String)} (h : ItemFits d (.mk values refs)) {k : String} {id : Nat}
    {p q : Param} {vt : VType} (hk : d.members.get k = some (id, .param p vt)) (hq : ParamOk p.ptype vt q) :
    ItemFits d (.mk (values.insert k (.param q)) refs) := by
  cases h with | mk h1 h2 h3 h4 h5 h6 h7 h8 =>
  refine .mk (h1.insert _ _) h2 ?_ ?_ ?_ ?_ ?_ h8
  · intro k' p' hk'
    rcases mem_insert hk' with hk' | hk'
    · exact h3 k' p' hk'
    · cases hk'; exact ⟨id, p, vt, hk, hq⟩
  · intro k' hk'
    rcases mem_insert hk' with hk' | hk'
    · exact h4 k' hk'
    · cases hk'
  · intro k' items hk'
    rcases mem_insert hk' with hk' | hk'
    · exact h5 k' items hk'
    · cases hk'
  · intro k' items n hk'
    rcases mem_insert hk' with hk' | hk'
    · exact h6 k' items n hk'
    · cases hk'
  · intro k' items n id' d' u hk'
    rcases mem_insert hk' with hk' | hk'
    · exact h7 k' items n id' d' u hk'
    · cases hk'

theorem itemFits_mil {d d' : LDef} {values : AMap SabVal} {refs : AMap (Qv String)} (h : ItemFits d (.mk values refs)) {k : String} {id : Nat}
    {u : Bool} {items : List (Nat × Item)} {next : Nat} (hk : d.members.get k = some (id, .milDef d' u)) (hi : IdsOk items next)
    (ha : ∀ e ∈ items, ItemFits d' e.2) : ItemFits d (.mk (values.insert k (.mil items next)) refs) := by
  cases h with | mk h1 h2 h3 h4 h5 h6 h7 h8 =>
  refine .mk (h1.insert _ _) h2 ?_ ?_ ?_ ?_ ?_ h8
  · intro k' p' hk'
    rcases mem_insert hk' with hk' | hk'
    · exact h3 k' p' hk'
    · cases hk'
  · intro k' hk'
    rcases mem_insert hk' with hk' | hk'
    · exact h4 k' hk'
    · cases hk'
  · intro k' items hk'
    rcases mem_insert hk' with hk' | hk'
    · exact h5 k' items hk'
    · cases hk'
  · intro k' items n hk'
    rcases mem_insert hk' with hk' | hk'
    · exact h6 k' items n hk'
    · cases hk'; exact ⟨hi, id, d', u, hk⟩
  · intro k' items n id' d'' u' hk' hd
    rcases mem_insert hk' with hk' | hk'
    · exact h7 k' items n id' d'' u' hk' hd
    · cases hk'
      rw [hk] at hd
      cases hd
      exact ha

theorem ItemFits.inMil {d d' : LDef} {values : AMap SabVal} {refs : AMap (Qv String)} (h : ItemFits d (.mk values refs)) {k : String} {id : Nat}
    {u : Bool} {items : List (Nat × Item)} {next : Nat} (hk : d.members.get k = some (id, .milDef d' u)) (hv : values.get k = some (.mil items next)) :
    IdsOk items next ∧ ∀ e ∈ items, ItemFits d' e.2 := by
  cases h with | mk h1 h2 h3 h4 h5 h6 h7 h8 =>
  exact ⟨(h6 _ _ _ (AMap.mem_of_get hv)).1, h7 _ _ _ _ _ _ (AMap.mem_of_get hv) hk⟩

theorem idsOk_first {items : List (Nat × Item)} {next : Nat} (hf : FreshIds (items, next)) (h : IdsOk items next) (hn : next + 1 < 2 ^ 64)
    (hl : items.length + 1 < 2 ^ 62) (x : Item) : IdsOk ((next, x) :: items) (next + 1) := by
  refine ⟨(freshIds_first hf x).1, fun e he => ?_, hn, hl⟩
  rcases List.mem_cons.1 he with rfl | he
  · exact h.2.2.1
  · exact h.2.1 e he

theorem idsOk_last {items : List (Nat × Item)} {next : Nat} (hf : FreshIds (items, next)) (h : IdsOk items next) (hn : next + 1 < 2 ^ 64)
    (hl : items.length + 1 < 2 ^ 62) (x : Item) : IdsOk (items ++ [(next, x)]) (next + 1) := by
  refine ⟨(freshIds_last hf x).1, fun e he => ?_, hn, by simpa using hl⟩
  rcases List.mem_append.1 he with he | he
  · exact h.2.1 e he
  · cases List.mem_singleton.1 he; exact h.2.2.1

theorem idsOk_remove {a b : List (Nat × Item)} {x : Nat × Item} {next : Nat} (h : IdsOk (a ++ x :: b) next) : IdsOk (a ++ b) next := by
  have hs : (a ++ b).Sublist (a ++ x :: b) := List.Sublist.append_left (List.sublist_cons_self _ _) _
  exact ⟨h.1.sublist (hs.map _), fun e he => h.2.1 e (hs.subset he), h.2.2.1, lt_of_le_of_lt hs.length_le h.2.2.2⟩

theorem idsOk_inner {a b : List (Nat × Item)} {i : Nat} {x y : Item} {next : Nat} (h : IdsOk (a ++ (i, x) :: b) next) : IdsOk (a ++ (i, y) :: b) next := by
  obtain ⟨h1, h2, h3, h4⟩ := h
  refine ⟨by simpa using h1, fun e he => ?_, h3, by simpa using h4⟩
  rcases mem_middle (x := x) he with he | rfl
  · exact h2 e he
  · exact h2 (i, x) (List.mem_append_right _ List.mem_cons_self)

theorem fits_first {d : LDef} {items : List (Nat × Item)} (h : ∀ e ∈ items, ItemFits d e.2) (n : Nat) :
    ∀ e ∈ (n, Item.mk [] []) :: items, ItemFits d e.2 := by
  intro e he
  rcases List.mem_cons.1 he with rfl | he
  · exact itemFits_empty d
  · exact h e he

theorem fits_last {d : LDef} {items : List (Nat × Item)} (h : ∀ e ∈ items, ItemFits d e.2) (n : Nat) :
    ∀ e ∈ items ++ [(n, Item.mk [] [])], ItemFits d e.2 := by
  intro e he
  refine fits_first h n e ?_
  simpa [or_comm] using he

theorem fits_inner {d : LDef} {a b : List (Nat × Item)} {i : Nat} {x y : Item} (h : ∀ e ∈ a ++ (i, x) :: b, ItemFits d e.2) (hy : ItemFits d y) :
    ∀ e ∈ a ++ (i, y) :: b, ItemFits d e.2 := by
  intro e he
  rcases mem_middle (x := x) he with he | rfl
  · exact h e he
  · exact hy

theorem idsOk_nil : IdsOk [] 0 := ⟨List.nodup_nil, by simp, by norm_num, by norm_num⟩

theorem itemOp_fits {d : LDef} {x y : Item} (h : ItemOp d x y) : FreshItem x → ItemFits d x → ItemFits d y := by
  induction h with
  | set hk hq => exact fun _ h => itemFits_param h hk hq
  | ref hk hq =>
    intro _ h
    cases h with | mk h1 h2 h3 h4 h5 h6 h7 h8 =>
    refine .mk h1 (h2.insert _ _) h3 h4 h5 h6 h7 ?_
    intro k' q' hk'
    rcases mem_insert hk' with hk' | hk'
    · exact h8 k' q' hk'
    · cases hk'; exact ⟨_, _, _, hk, hq⟩
  | make hk _ => exact fun _ h => itemFits_mil h hk idsOk_nil (by simp)
  | first hk hv hn hl =>
    intro hf h
    obtain ⟨h1, h2⟩ := h.inMil hk hv
    exact itemFits_mil h hk (idsOk_first (hf.vals.2.1 _ _ _ (AMap.mem_of_get hv)) h1 hn hl _) (fits_first h2 _)
  | last hk hv hn hl =>
    intro hf h
    obtain ⟨h1, h2⟩ := h.inMil hk hv
    exact itemFits_mil h hk (idsOk_last (hf.vals.2.1 _ _ _ (AMap.mem_of_get hv)) h1 hn hl _) (fits_last h2 _)
  | remove hk hv =>
    intro hf h
    obtain ⟨h1, h2⟩ := h.inMil hk hv
    exact itemFits_mil h hk (idsOk_remove h1) (fun e he => h2 e (mem_without he))
  | @inner _ _ _ _ _ _ _ a b i x y _ hk hv _ ih =>
    intro hf h
    obtain ⟨h1, h2⟩ := h.inMil hk hv
    have hm : (i, x) ∈ a ++ (i, x) :: b := List.mem_append_right _ List.mem_cons_self
    exact itemFits_mil h hk (idsOk_inner h1) (fits_inner h2 (ih (hf.vals.2.2 _ _ _ (AMap.mem_of_get hv) _ hm) (h2 _ hm)))

/-! ## The root -/

/-- what a session keeps of a root object -/
structure RootKeeps (defs : AMap (Nat × RootValI)) (f t : AMap RootSab) : Prop where
  stays : ∀ k, t.get k = none → f.get k = none
  undef : ∀ k, f.get k = some (.list none) → t.get k = some (.list none) ∨ ∀ id d u, defs.get k ≠ some (id, .mlist d u)
  lists : ∀ k id d u l, defs.get k = some (id, .mlist d u) → f.get k = some (.list (some l)) →
    ∃ m, t.get k = some (.list (some m)) ∧ ListKeeps l.1 l.2 m.1 m.2 ∧ ∀ x ∈ l.1, ∀ y ∈ m.1, x.1 = y.1 → ItemKeeps d x.2 y.2

theorem rootKeeps_refl {defs : AMap (Nat × RootValI)} {s : AMap RootSab} (hf : ListsFresh s) : RootKeeps defs s s :=
  ⟨fun _ h => h, fun _ h => .inl h, fun k _ _ _ l _ hl => ⟨l, hl, listKeeps_refl _ _, fun _ hx _ hy he =>
    keeps_of_ids (hf k l hl).1 (hf k l hl).2 hx hy he⟩⟩

theorem rootKeeps_trans {defs : AMap (Nat × RootValI)} {a b c : AMap RootSab} (hf : ListsFresh a) (h1 : RootKeeps defs a b) (h2 : RootKeeps defs b c) :
    RootKeeps defs a c := by
  refine ⟨fun k h => h1.stays k (h2.stays k h), fun k h => ?_, fun k id d u l hk hl => ?_⟩
  · rcases h1.undef k h with h | h
    · exact h2.undef k h
    · exact .inr h
  · obtain ⟨m, hm, hlm, hi⟩ := h1.lists k id d u l hk hl
    obtain ⟨o, ho, hmo, hj⟩ := h2.lists k id d u m hk hm
    obtain ⟨f1, f2⟩ := hf k l hl
    refine ⟨o, ho, ListKeeps.trans f1 hlm hmo, fun x hx z hz he => ?_⟩
    have hy := ListKeeps.between f1 hlm hmo x.1 (List.mem_map.2 ⟨x, hx, rfl⟩) (List.mem_map.2 ⟨z, hz, he.symm⟩)
    obtain ⟨y, hy, hxy⟩ := List.mem_map.1 hy
    exact itemKeeps_trans (f2 x hx) (hi x hx y hy hxy.symm) (hj y hy z hz (hxy.trans he))

theorem listsFresh_put {s : AMap RootSab} (hf : ListsFresh s) (k : String) (v : RootSab)
    (h : ∀ l, v = .list (some l) → FreshIds l ∧ ∀ e ∈ l.1, FreshItem e.2) : ListsFresh (s.insert k v) := by
  intro k' l hl
  by_cases he : k' = k
  · subst he
    rw [AMap.get_insert_self] at hl
    exact h l (Option.some.inj hl)
  · rw [AMap.get_insert_ne _ _ he] at hl
    exact hf k' l hl

/-- the list of one member is replaced -/
theorem rootKeeps_put {defs : AMap (Nat × RootValI)} {s : AMap RootSab} (hf : ListsFresh s) {k : String} {l m : List (Nat × Item) × Nat}
    (hl : s.get k = some (.list (some l))) (h1 : ListKeeps l.1 l.2 m.1 m.2)
    (h2 : ∀ id d u, defs.get k = some (id, .mlist d u) → ∀ x ∈ l.1, ∀ y ∈ m.1, x.1 = y.1 → ItemKeeps d x.2 y.2) :
    RootKeeps defs s (s.insert k (.list (some m))) := by
  have hr := rootKeeps_refl (defs := defs) hf
  refine ⟨fun k' h => ?_, fun k' h => ?_, fun k' id d u l' hk hl' => ?_⟩
  · by_cases he : k' = k
    · subst he; rw [AMap.get_insert_self] at h; cases h
    · rw [AMap.get_insert_ne _ _ he] at h; exact h
  · by_cases he : k' = k
    · subst he; rw [hl] at h; cases h
    · rw [AMap.get_insert_ne _ _ he]; exact .inl h
  · by_cases he : k' = k
    · subst he
      rw [hl] at hl'
      cases hl'
      exact ⟨m, AMap.get_insert_self _ _ _, h1, h2 id d u hk⟩
    · rw [AMap.get_insert_ne _ _ he]
      exact hr.lists k' id d u l' hk hl'

theorem rootFits_list {defs : AMap (Nat × RootValI)} {s : AMap RootSab} (h : RootFits defs s) {k : String} {id : Nat} {d : LDef} {u : Bool}
    {m : List (Nat × Item) × Nat} (hk : defs.get k = some (id, .mlist d u)) (hi : IdsOk m.1 m.2) (ha : ∀ e ∈ m.1, ItemFits d e.2) :
    RootFits defs (s.insert k (.list (some m))) := by
  refine ⟨h.wf.insert _ _, ?_, ?_, ?_, ?_⟩
  · intro k' p hk'
    rcases mem_insert hk' with hk' | hk'
    · exact h.params k' p hk'
    · cases hk'
  · intro k' l hk'
    rcases mem_insert hk' with hk' | hk'
    · exact h.lists k' l hk'
    · cases hk'; exact ⟨id, d, u, hk⟩
  · intro k' l id' d' u' hk' hd
    rcases mem_insert hk' with hk' | hk'
    · exact h.items k' l id' d' u' hk' hd
    · cases hk'
      rw [hk] at hd
      cases hd
      exact ⟨hi, ha⟩
  · intro k' id' d' u' hd
    by_cases he : k' = k
    · subst he; exact ⟨_, AMap.get_insert_self _ _ _, fun _ h => nomatch h⟩
    · rw [AMap.get_insert_ne _ _ he]; exact h.there k' id' d' u' hd

theorem rootFits_param {defs : AMap (Nat × RootValI)} {s : AMap RootSab} (h : RootFits defs s) {k : String} {id : Nat} {p q : Param} {vt : VType}
    (hk : defs.get k = some (id, .param p vt)) (hq : ParamOk p.ptype vt q) : RootFits defs (s.insert k (.param q)) := by
  refine ⟨h.wf.insert _ _, ?_, ?_, ?_, ?_⟩
  · intro k' p' hk'
    rcases mem_insert hk' with hk' | hk'
    · exact h.params k' p' hk'
    · cases hk'; exact ⟨id, p, vt, hk, hq⟩
  · intro k' l hk'
    rcases mem_insert hk' with hk' | hk'
    · exact h.lists k' l hk'
    · cases hk'
  · intro k' l id' d' u' hk' hd
    rcases mem_insert hk' with hk' | hk'
    · exact h.items k' l id' d' u' hk' hd
    · cases hk'
  · intro k' id' d' u' hd
    by_cases he : k' = k
    · subst he; rw [hk] at hd; cases hd
    · rw [AMap.get_insert_ne _ _ he]; exact h.there k' id' d' u' hd

/-- One change keeps everything. -/
theorem rootOp_keeps {defs : AMap (Nat × RootValI)} {s t : AMap RootSab} (h : RootOp defs s t) (hf : ListsFresh s) (hs : RootFits defs s) :
    ListsFresh t ∧ RootFits defs t ∧ RootKeeps defs s t := by
  have fits : ∀ {k id d u items next}, defs.get k = some (id, .mlist d u) → s.get k = some (.list (some (items, next))) →
      IdsOk items next ∧ ∀ e ∈ items, ItemFits d e.2 := fun hk hl => hs.items _ _ _ _ _ (AMap.mem_of_get hl) hk
  cases h with
  | @set k id p q vt hk hq =>
    refine ⟨listsFresh_put hf _ _ (fun _ h => nomatch h), rootFits_param hs hk hq, fun k' h => ?_, fun k' h => ?_, fun k' id' d u l hd hl => ?_⟩
    · by_cases he : k' = k
      · subst he; rw [AMap.get_insert_self] at h; cases h
      · rw [AMap.get_insert_ne _ _ he] at h; exact h
    · by_cases he : k' = k
      · subst he; right; intro id' d u hd; rw [hk] at hd; cases hd
      · rw [AMap.get_insert_ne _ _ he]; exact .inl h
    · by_cases he : k' = k
      · subst he; rw [hk] at hd; cases hd
      · rw [AMap.get_insert_ne _ _ he]; exact (rootKeeps_refl hf).lists k' id' d u l hd hl
  | first hk hl hn hln =>
    obtain ⟨f1, f2⟩ := hf _ _ hl
    obtain ⟨g1, g2⟩ := fits hk hl
    refine ⟨listsFresh_put hf _ _ ?_, rootFits_list hs hk (idsOk_first f1 g1 hn hln _) (fits_first g2 _),
      rootKeeps_put hf hl (listKeeps_first f1 _) fun _ _ _ _ => keeps_first f1 f2⟩
    intro l hl'
    cases hl'
    refine ⟨freshIds_first f1 _, fun e he => ?_⟩
    rcases List.mem_cons.1 he with rfl | he
    · exact freshItem_empty
    · exact f2 e he
  | last hk hl hn hln =>
    obtain ⟨f1, f2⟩ := hf _ _ hl
    obtain ⟨g1, g2⟩ := fits hk hl
    refine ⟨listsFresh_put hf _ _ ?_, rootFits_list hs hk (idsOk_last f1 g1 hn hln _) (fits_last g2 _),
      rootKeeps_put hf hl (listKeeps_last f1 _) fun _ _ _ _ => keeps_last f1 f2⟩
    intro l hl'
    cases hl'
    refine ⟨freshIds_last f1 _, fun e he => ?_⟩
    rcases List.mem_append.1 he with he | he
    · exact f2 e he
    · cases List.mem_singleton.1 he; exact freshItem_empty
  | remove hk hl =>
    obtain ⟨f1, f2⟩ := hf _ _ hl
    obtain ⟨g1, g2⟩ := fits hk hl
    refine ⟨listsFresh_put hf _ _ ?_, rootFits_list hs hk (idsOk_remove g1) (fun e he => g2 e (mem_without he)),
      rootKeeps_put hf hl (listKeeps_remove f1) fun _ _ _ _ => keeps_remove f1 f2⟩
    intro l hl'
    cases hl'
    exact ⟨freshIds_remove f1, fun e he => f2 e (mem_without he)⟩
  | @inner k id d u a b i x y next hk hl hop =>
    obtain ⟨f1, f2⟩ := hf _ _ hl
    obtain ⟨g1, g2⟩ := fits hk hl
    have hm : (i, x) ∈ a ++ (i, x) :: b := List.mem_append_right _ List.mem_cons_self
    have fx := f2 _ hm
    refine ⟨listsFresh_put hf _ _ ?_, rootFits_list hs hk (idsOk_inner g1) (fits_inner g2 (itemOp_fits hop fx (g2 _ hm))),
      rootKeeps_put hf hl (listKeeps_inner _ _ _ _ _ _) fun id' d' u' hd => ?_⟩
    · intro l hl'
      cases hl'
      refine ⟨freshIds_inner f1, fun e he => ?_⟩
      rcases mem_middle (x := x) he with he | rfl
      · exact f2 e he
      · exact itemOp_fresh hop fx
    · rw [hk] at hd
      cases hd
      exact keeps_inner f1 f2 (itemOp_keeps hop fx)

theorem session_keeps {defs : AMap (Nat × RootValI)} {s t : AMap RootSab} (h : Session defs s t) (hf : ListsFresh s) (hs : RootFits defs s) :
    ListsFresh t ∧ RootFits defs t ∧ RootKeeps defs s t := by
  induction h with
  | start => exact ⟨hf, hs, rootKeeps_refl hf⟩
  | change _ hop ih =>
    obtain ⟨h1, h2, h3⟩ := ih
    obtain ⟨h4, h5, h6⟩ := rootOp_keeps hop h1 h2
    exact ⟨h4, h5, rootKeeps_trans hf h3 h6⟩

theorem itemStep_of_keeps {d : LDef} {f t : Item} (h : ItemKeeps d f t) : Settled d f t → ItemStep d f t := by
  induction h with
  | mk h1 h2 h3 h4 ih =>
    intro hs
    cases hs with | mk s1 s2 s3 =>
    refine .mk (fun k _ _ _ hk => h1 k (fun _ _ he => by rw [hk] at he; cases he)) s1 (fun k _ _ _ hk => h1 k (fun _ _ he => by rw [hk] at he; cases he)) ?_ ?_ (fun k _ _ => h4 k)
    · intro k id d' u l ln m mn hk hl hm
      obtain ⟨m', mn', hm', hkp⟩ := h2 k id d' u l ln hk hl
      rw [hm] at hm'
      cases hm'
      exact ⟨hkp.order, s2 k id d' u l ln m mn hk hl hm⟩
    · intro k id d' u l ln m mn hk hl hm x hx y hy he
      exact ih k id d' u l ln m mn hk hl hm x hx y hy he (s3 k id d' u l ln m mn hk hl hm x hx y hy he)

theorem rootStep_of_keeps {defs : AMap (Nat × RootValI)} {f t : AMap RootSab} (h : RootKeeps defs f t) (hs : RootSettled defs f t) :
    RootStepN defs f t := by
  refine ⟨fun k _ _ _ _ => h.stays k, hs.zeros, fun k id d u l m hk hl hm => ?_⟩
  obtain ⟨m', hm', hkp, hi⟩ := h.lists k id d u l hk hl
  rw [hm] at hm'
  cases hm'
  exact ⟨hkp.order, hs.nexts k id d u l m hk hl hm, fun x hx y hy he => itemStep_of_keeps (hi x hx y hy he) (hs.items k id d u l m hk hl hm x hx y hy he)⟩

theorem optUndefined_keeps {defs : AMap (Nat × RootValI)} {f t : AMap RootSab} (h : RootKeeps defs f t) (ho : OptUndefined defs f) :
    OptUndefined defs t := by
  intro k id d hk
  rcases h.undef k (ho k id d hk) with h | h
  · exact h
  · exact absurd hk (h id d true)

end Verif.Named
