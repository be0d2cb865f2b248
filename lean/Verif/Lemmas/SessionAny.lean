import Verif.Spec.SessionAny
import Verif.Lemmas.SessionFits
/-! # Sessions in which items are moved -/
namespace Verif.Named
open Diff Core Source LinkedMap

/-- the next id does not get smaller; new items have ids from the next id on -/
def ListGrows (l : List (Nat × Item)) (ln : Nat) (m : List (Nat × Item)) (mn : Nat) : Prop :=
  ln ≤ mn ∧ ∀ i ∈ m.map (·.1), i ∈ l.map (·.1) ∨ ln ≤ i

inductive ItemGrows : LDef → Item → Item → Prop
  | mk {d : LDef} {a b : Item} :
      (∀ k, (∀ id d', d.members.get k ≠ some (id, .cilDef d')) → b.values.get k = none → a.values.get k = none) →
      (∀ k id d' u l ln, d.members.get k = some (id, .milDef d' u) → a.values.get k = some (.mil l ln) →
        ∃ m mn, b.values.get k = some (.mil m mn) ∧ ListGrows l ln m mn) →
      (∀ k id d' u l ln m mn, d.members.get k = some (id, .milDef d' u) → a.values.get k = some (.mil l ln) →
        b.values.get k = some (.mil m mn) → ∀ x ∈ l, ∀ y ∈ m, x.1 = y.1 → ItemGrows d' x.2 y.2) →
      (∀ k, b.refs.get k = none → a.refs.get k = none) →
      ItemGrows d a b

theorem ListKeeps.grows {l m : List (Nat × Item)} {ln mn : Nat} (h : ListKeeps l ln m mn) : ListGrows l ln m mn := ⟨h.next, h.new⟩

theorem ItemKeeps.grows {d : LDef} {a b : Item} (h : ItemKeeps d a b) : ItemGrows d a b := by
  induction h with
  | mk h1 h2 _ h4 ih =>
    refine .mk h1 (fun k id d' u l ln hk hl => ?_) ih h4
    obtain ⟨m, mn, h5, h6⟩ := h2 k id d' u l ln hk hl
    exact ⟨m, mn, h5, h6.grows⟩

theorem itemGrows_refl {a : Item} (h : FreshItem a) (d : LDef) : ItemGrows d a a := (itemKeeps_refl h d).grows

/-- the value of one member is replaced by a list -/
theorem itemGrows_put {d : LDef} {values : AMap SabVal} {refs : AMap (Qv String)} (h : FreshItem (.mk values refs)) (k : String)
    (m : List (Nat × Item)) (mn : Nat)
    (h1 : ∀ l ln, values.get k = some (.mil l ln) → ListGrows l ln m mn)
    (h2 : ∀ id d' u l ln, d.members.get k = some (id, .milDef d' u) → values.get k = some (.mil l ln) →
      ∀ x ∈ l, ∀ y ∈ m, x.1 = y.1 → ItemGrows d' x.2 y.2) :
    ItemGrows d (.mk values refs) (.mk (values.insert k (.mil m mn)) refs) := by
  have hr := itemGrows_refl h d
  cases hr with | mk r1 r2 r3 r4 =>
  refine .mk ?_ ?_ ?_ (fun _ h => h)
  · intro k' _ hk
    by_cases he : k' = k
    · subst he
      rw [show (Item.mk (values.insert k' (.mil m mn)) refs).values = values.insert k' (.mil m mn) from rfl, AMap.get_insert_self] at hk
      cases hk
    · rw [show (Item.mk (values.insert k (.mil m mn)) refs).values = values.insert k (.mil m mn) from rfl, AMap.get_insert_ne _ _ he] at hk
      exact hk
  · intro k' id d' u l ln hk hl
    by_cases he : k' = k
    · subst he
      exact ⟨m, mn, AMap.get_insert_self _ _ _, h1 l ln hl⟩
    · refine ⟨l, ln, ?_, (listKeeps_refl l ln).grows⟩
      rw [show (Item.mk (values.insert k (.mil m mn)) refs).values = values.insert k (.mil m mn) from rfl, AMap.get_insert_ne _ _ he]
      exact hl
  · intro k' id d' u l ln m' mn' hk hl hm
    by_cases he : k' = k
    · subst he
      rw [show (Item.mk (values.insert k' (.mil m mn)) refs).values = values.insert k' (.mil m mn) from rfl, AMap.get_insert_self] at hm
      cases hm
      exact h2 id d' u l ln hk hl
    · rw [show (Item.mk (values.insert k (.mil m mn)) refs).values = values.insert k (.mil m mn) from rfl, AMap.get_insert_ne _ _ he] at hm
      exact r3 k' id d' u l ln m' mn' hk hl hm

theorem freshIds_perm {l m : List (Nat × Item)} {ln mn : Nat} (hp : m.Perm l) (hn : ln ≤ mn) (h : FreshIds (l, ln)) : FreshIds (m, mn) :=
  ⟨((hp.map (·.1)).nodup_iff).2 h.1, fun i hi => lt_of_lt_of_le (h.2 i ((hp.map (·.1)).mem_iff.1 hi)) hn⟩

theorem listGrows_perm {l m : List (Nat × Item)} {ln mn : Nat} (hp : m.Perm l) (hn : ln ≤ mn) : ListGrows l ln m mn :=
  ⟨hn, fun _ hi => .inl ((hp.map (·.1)).mem_iff.1 hi)⟩

theorem grows_perm {d : LDef} {l m : List (Nat × Item)} {n : Nat} (hp : m.Perm l) (hf : FreshIds (l, n)) (hi : ∀ e ∈ l, FreshItem e.2) :
    ∀ x ∈ l, ∀ y ∈ m, x.1 = y.1 → ItemGrows d x.2 y.2 := fun _ hx _ hy he => (keeps_of_ids hf hi hx (hp.mem_iff.1 hy) he).grows

theorem grows_inner {d : LDef} {a b : List (Nat × Item)} {i : Nat} {z w : Item} {n : Nat} (hf : FreshIds (a ++ (i, z) :: b, n))
    (hi : ∀ e ∈ a ++ (i, z) :: b, FreshItem e.2) (h : ItemGrows d z w) : ∀ x ∈ a ++ (i, z) :: b, ∀ y ∈ a ++ (i, w) :: b, x.1 = y.1 →
    ItemGrows d x.2 y.2 := by
  intro x hx y hy he
  by_cases hyi : y = (i, w)
  · subst hyi
    have : x = (i, z) := eq_of_nodup hf.1 hx (List.mem_append_right _ List.mem_cons_self) he
    subst this
    exact h
  · rcases mem_middle (x := z) hy with hy | hy
    · exact (keeps_of_ids hf hi hx hy he).grows
    · exact absurd hy hyi

theorem idsOk_perm {l m : List (Nat × Item)} {ln mn : Nat} (hp : m.Perm l) (hn : mn < 2 ^ 64) (h : IdsOk l ln) : IdsOk m mn :=
  ⟨((hp.map (·.1)).nodup_iff).2 h.1, fun e he => h.2.1 e (hp.mem_iff.1 he), hn, by rw [hp.length_eq]; exact h.2.2.2⟩

/-- One change of an item keeps everything. -/
theorem itemChange_keeps {d : LDef} {x y : Item} (h : ItemChange d x y) : FreshItem x → ItemFits d x →
    FreshItem y ∧ ItemFits d y ∧ ItemGrows d x y := by
  induction h with
  | op h => exact fun hx hf => ⟨itemOp_fresh h hx, itemOp_fits h hx hf, (itemOp_keeps h hx).grows⟩
  | @arrange d d' values refs k id u l m ln mn hk hv hp hn hlt =>
    intro hx hf
    have f1 := hx.vals.2.1 _ _ _ (AMap.mem_of_get hv)
    have f2 := hx.vals.2.2 _ _ _ (AMap.mem_of_get hv)
    obtain ⟨g1, g2⟩ := hf.inMil hk hv
    refine ⟨hx.put _ _ (fun _ h => nomatch h) ?_, itemFits_mil hf hk (idsOk_perm hp hlt g1) (fun e he => g2 e (hp.mem_iff.1 he)),
      itemGrows_put hx _ _ _ ?_ ?_⟩
    · intro items n he
      cases he
      exact ⟨freshIds_perm hp hn f1, fun e he => f2 e (hp.mem_iff.1 he)⟩
    · intro l' ln' hl; rw [hv] at hl; cases hl; exact listGrows_perm hp hn
    · intro id' d'' u' l' ln' _ hl; rw [hv] at hl; cases hl; exact grows_perm hp f1 f2
  | @inner d d' values refs k id u a b i x y next hk hv _ ih =>
    intro hx hf
    have f1 := hx.vals.2.1 _ _ _ (AMap.mem_of_get hv)
    have f2 := hx.vals.2.2 _ _ _ (AMap.mem_of_get hv)
    obtain ⟨g1, g2⟩ := hf.inMil hk hv
    have hm : (i, x) ∈ a ++ (i, x) :: b := List.mem_append_right _ List.mem_cons_self
    obtain ⟨e1, e2, e3⟩ := ih (f2 _ hm) (g2 _ hm)
    refine ⟨hx.put _ _ (fun _ h => nomatch h) ?_, itemFits_mil hf hk (idsOk_inner g1) (fits_inner g2 e2), itemGrows_put hx _ _ _ ?_ ?_⟩
    · intro items n he
      cases he
      refine ⟨freshIds_inner f1, fun e he => ?_⟩
      rcases mem_middle (x := x) he with he | rfl
      · exact f2 e he
      · exact e1
    · intro l ln hl; rw [hv] at hl; cases hl; exact (listKeeps_inner _ _ _ _ _ _).grows
    · intro id' d'' u' l ln hk' hl
      rw [hv] at hl; cases hl
      rw [hk] at hk'; cases hk'
      exact grows_inner f1 f2 e3

/-! ## The root -/

structure RootGrows (defs : AMap (Nat × RootValI)) (f t : AMap RootSab) : Prop where
  stays : ∀ k, t.get k = none → f.get k = none
  undef : ∀ k, f.get k = some (.list none) → t.get k = some (.list none) ∨ ∀ id d u, defs.get k ≠ some (id, .mlist d u)
  lists : ∀ k id d u l, defs.get k = some (id, .mlist d u) → f.get k = some (.list (some l)) →
    ∃ m, t.get k = some (.list (some m)) ∧ ListGrows l.1 l.2 m.1 m.2 ∧ ∀ x ∈ l.1, ∀ y ∈ m.1, x.1 = y.1 → ItemGrows d x.2 y.2

theorem RootKeeps.grows {defs : AMap (Nat × RootValI)} {f t : AMap RootSab} (h : RootKeeps defs f t) : RootGrows defs f t := by
  refine ⟨h.stays, h.undef, fun k id d u l hk hl => ?_⟩
  obtain ⟨m, h1, h2, h3⟩ := h.lists k id d u l hk hl
  exact ⟨m, h1, h2.grows, fun x hx y hy he => (h3 x hx y hy he).grows⟩

/-- the list of one member is replaced -/
theorem rootGrows_put {defs : AMap (Nat × RootValI)} {s : AMap RootSab} (hf : ListsFresh s) {k : String} {l m : List (Nat × Item) × Nat}
    (hl : s.get k = some (.list (some l))) (h1 : ListGrows l.1 l.2 m.1 m.2)
    (h2 : ∀ id d u, defs.get k = some (id, .mlist d u) → ∀ x ∈ l.1, ∀ y ∈ m.1, x.1 = y.1 → ItemGrows d x.2 y.2) :
    RootGrows defs s (s.insert k (.list (some m))) := by
  have hr := (rootKeeps_refl (defs := defs) hf).grows
  refine ⟨fun k' h => ?_, fun k' h => ?_, fun k' id d u l' hk hl' => ?_⟩
  · by_cases he : k' = k
    · subst he; rw [AMap.get_insert_self] at h; cases h
    · rw [AMap.get_insert_ne _ _ he] at h; exact h
  · by_cases he : k' = k
    · subst he; rw [hl] at h; cases h
    · rw [AMap.get_insert_ne _ _ he]; exact .inl h
  · by_cases he : k' = k
    · subst he
      rw [hl] at hl'
      cases hl'
      exact ⟨m, AMap.get_insert_self _ _ _, h1, h2 id d u hk⟩
    · rw [AMap.get_insert_ne _ _ he]
      exact hr.lists k' id d u l' hk hl'

theorem rootChange_keeps {defs : AMap (Nat × RootValI)} {s t : AMap RootSab} (h : RootChange defs s t) (hf : ListsFresh s) (hs : RootFits defs s) :
    ListsFresh t ∧ RootFits defs t ∧ RootGrows defs s t := by
  have fits : ∀ {k id d u items next}, defs.get k = some (id, .mlist d u) → s.get k = some (.list (some (items, next))) →
      IdsOk items next ∧ ∀ e ∈ items, ItemFits d e.2 := fun hk hl => hs.items _ _ _ _ _ (AMap.mem_of_get hl) hk
  cases h with
  | op h => obtain ⟨h1, h2, h3⟩ := rootOp_keeps h hf hs; exact ⟨h1, h2, h3.grows⟩
  | arrange hk hl hp hn hlt =>
    obtain ⟨f1, f2⟩ := hf _ _ hl
    obtain ⟨g1, g2⟩ := fits hk hl
    refine ⟨listsFresh_put hf _ _ ?_, rootFits_list hs hk (idsOk_perm hp hlt g1) (fun e he => g2 e (hp.mem_iff.1 he)),
      rootGrows_put hf hl (listGrows_perm hp hn) fun _ _ _ _ => grows_perm hp f1 f2⟩
    intro l hl'
    cases hl'
    exact ⟨freshIds_perm hp hn f1, fun e he => f2 e (hp.mem_iff.1 he)⟩
  | @inner k id d u a b i x y next hk hl hop =>
    obtain ⟨f1, f2⟩ := hf _ _ hl
    obtain ⟨g1, g2⟩ := fits hk hl
    have hm : (i, x) ∈ a ++ (i, x) :: b := List.mem_append_right _ List.mem_cons_self
    obtain ⟨e1, e2, e3⟩ := itemChange_keeps hop (f2 _ hm) (g2 _ hm)
    refine ⟨listsFresh_put hf _ _ ?_, rootFits_list hs hk (idsOk_inner g1) (fits_inner g2 e2),
      rootGrows_put hf hl (listKeeps_inner _ _ _ _ _ _).grows fun id' d' u' hd => ?_⟩
    · intro l hl'
      cases hl'
      refine ⟨freshIds_inner f1, fun e he => ?_⟩
      rcases mem_middle (x := x) he with he | rfl
      · exact f2 e he
      · exact e1
    · rw [hk] at hd
      cases hd
      exact grows_inner f1 f2 e3

theorem optUndefined_grows {defs : AMap (Nat × RootValI)} {f t : AMap RootSab} (h : RootGrows defs f t) (ho : OptUndefined defs f) :
    OptUndefined defs t := by
  intro k id d hk
  rcases h.undef k (ho k id d hk) with h | h
  · exact h
  · exact absurd hk (h id d true)

end Verif.Named
