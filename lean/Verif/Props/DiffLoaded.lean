import Verif.Lemmas.SourceWf
import Verif.Props.AccessLoaded
import Verif.Props.DiffNamed
/-!
# Diffs of loaded objects

C72 for objects as they are loaded: what loading and validation ensure is what the diffs need.
-/
namespace Verif.Named
open VarInt Codec Diff Core Source LinkedMap Intf

/-- The values of an item are of their Rust types and in memory, at every depth. -/
inductive InMemory : Item → Prop
  | mk {values : AMap SabVal} {refs : AMap (Qv String)} :
      (∀ k p, (k, SabVal.param p) ∈ values → p.Fits) →
      (∀ k s, (k, Qv.val s) ∈ refs → (strBytes s).length < 2 ^ 63) →
      (∀ k items n, (k, SabVal.mil items n) ∈ values → n < 2 ^ 64 ∧ items.length < 2 ^ 62 ∧ ∀ e ∈ items, e.1 < 2 ^ 64) →
      (∀ k items n, (k, SabVal.mil items n) ∈ values → ∀ e ∈ items, InMemory e.2) → InMemory (.mk values refs)

theorem allows_iff (vt : VType) (t : QvType) : vt.Allows t ↔ varAcceptable vt t = true := by
  cases vt <;> cases t <;> simp [VType.Allows, varAcceptable]

theorem eraseMembers_get (k : String) : ∀ l : AMap (Nat × LDefVal), AMap.get (eraseMembers l) k = (l.get k).map fun e => e.2.erase
  | [] => rfl
  | (k', id, v) :: r => by
    have ih := eraseMembers_get k r
    simp only [AMap.get, eraseMembers] at ih ⊢
    split <;> first | rfl | exact ih

theorem eraseRefs_get (k : String) : ∀ l : AMap (Nat × Qv String × VType), AMap.get (l.map fun e => (e.1, e.2.2)) k = (l.get k).map fun e => e.2
  | [] => rfl
  | (k', id, v) :: r => by
    have ih := eraseRefs_get k r
    simp only [AMap.get, List.map_cons] at ih ⊢
    split <;> first | rfl | exact ih

theorem LDef.erase_members (d : LDef) (k : String) : d.erase.members.get k = (d.members.get k).map fun e => e.2.erase := by
  cases d with | mk m r o => exact eraseMembers_get k m

theorem LDef.erase_refs (d : LDef) (k : String) : d.erase.refs.refs.get k = (d.refs.refs.get k).map fun e => e.2 := by
  cases d with | mk m r o => exact eraseRefs_get k r.refs

/-- Validated items fit their definitions. -/
theorem itemFits_of_valid {defs : AMap RootVal} {b : Bool} {it : Item} (hw : WfItem it) : ∀ {d : LDef}, FreshItem it → InMemory it →
    validateItem defs b d.erase it = .ok () → ItemFits d it := by
  induction hw with
  | @mk values refs hv hr _ _ _ ih =>
    intro d hf hm h
    have key : ∀ k v, (k, v) ∈ values → ∃ id dv, d.members.get k = some (id, dv) ∧ dv.erase.acceptable v = true ∧
        validateValue defs b dv.erase v = .ok () := by
      intro k v hk
      obtain ⟨dv, h1, h2, h3⟩ := validateValues_mem (validateItem_values h) hk
      rw [LDef.erase_members] at h1
      cases hg : d.members.get k with
      | none => rw [hg] at h1; cases h1
      | some e =>
        rw [hg] at h1
        simp only [Option.map_some, Option.some.injEq] at h1
        subst h1
        exact ⟨e.1, e.2, rfl, h2, h3⟩
    cases hf with | mk f1 f2 f3 =>
    cases hm with | mk m1 m2 m3 m4 =>
    refine .mk hv hr ?_ ?_ ?_ ?_ ?_ ?_
    · intro k p hk
      obtain ⟨id, dv, h1, h2, h3⟩ := key k _ hk
      cases dv with
      | param q vt =>
        refine ⟨id, q, vt, h1, ?_⟩
        simp only [LDefVal.erase, DefVal.acceptable, DefVal.type, SabVal.type, DefVal.varType, SabVal.qvType, Bool.and_eq_true, decide_eq_true_eq,
          MemberType.param.injEq, ptype_eq] at h2
        exact ⟨h2.1.symm, (allows_iff _ _).2 h2.2, m1 k p hk⟩
      | cilDef d' => simp [LDefVal.erase, DefVal.acceptable, DefVal.type, SabVal.type] at h2
      | milDef d' u => simp [LDefVal.erase, DefVal.acceptable, DefVal.type, SabVal.type] at h2
    · intro k hk
      obtain ⟨id, dv, h1, h2, h3⟩ := key k _ hk
      cases dv with
      | param q vt => simp [LDefVal.erase, DefVal.acceptable, DefVal.type, SabVal.type] at h2
      | cilDef d' => simp [LDefVal.erase, DefVal.acceptable, DefVal.type, SabVal.type] at h2
      | milDef d' u =>
        cases u with
        | true => exact ⟨id, d', h1⟩
        | false => simp [LDefVal.erase, DefVal.acceptable, DefVal.varType, SabVal.qvType, varAcceptable] at h2
    · intro k items hk
      obtain ⟨id, dv, h1, h2, h3⟩ := key k _ hk
      cases dv with
      | param q vt => simp [LDefVal.erase, DefVal.acceptable, DefVal.type, SabVal.type] at h2
      | cilDef d' => exact ⟨id, d', h1⟩
      | milDef d' u => simp [LDefVal.erase, DefVal.acceptable, DefVal.type, SabVal.type] at h2
    · intro k items n hk
      obtain ⟨id, dv, h1, h2, h3⟩ := key k _ hk
      obtain ⟨a, b, c⟩ := m3 k items n hk
      refine ⟨⟨(f2 k items n hk).1, c, a, b⟩, ?_⟩
      cases dv with
      | param q vt => simp [LDefVal.erase, DefVal.acceptable, DefVal.type, SabVal.type] at h2
      | cilDef d' => simp [LDefVal.erase, DefVal.acceptable, DefVal.type, SabVal.type] at h2
      | milDef d' u => exact ⟨id, d', u, h1⟩
    · intro k items n id d' u hk hd e he
      obtain ⟨id', dv, h1, h2, h3⟩ := key k _ hk
      rw [hd] at h1
      simp only [Option.some.injEq, Prod.mk.injEq] at h1
      obtain ⟨_, rfl⟩ := h1
      refine ih k items n hk e he (f3 k items n hk e he) (m4 k items n hk e he) ?_
      simp only [LDefVal.erase, validateValue] at h3
      exact validateMutList_mem h3 e.1 e.2 he
    · intro k q hk
      have hrefs : validateRefs defs d.erase.refs refs b = .ok () := by
        unfold validateItem at h
        exact (Core.Res.bind_eq_ok h).choose_spec.1
      unfold validateRefs at hrefs
      obtain ⟨_, _, hrefs⟩ := Core.Res.bind_eq_ok hrefs
      obtain ⟨q0, vt, h1, h2, _⟩ := validateRef_inv (forEach_ok hrefs _ hk)
      rw [LDef.erase_refs] at h1
      cases hg : d.refs.refs.get k with
      | none => rw [hg] at h1; cases h1
      | some e =>
        rw [hg] at h1
        simp only [Option.map_some, Option.some.injEq] at h1
        refine ⟨e.1, q0, vt, by rw [← h1], ?_⟩
        refine ⟨(allows_iff _ _).2 ((fitsRef_iff _ _).1 h2), ?_⟩
        cases q with
        | val s => exact m2 k s hk
        | null => trivial
        | undef => trivial

/-- the stored lists of a root object are in memory, with distinct ids below the next ids -/
def ListsInMemory (s : AMap RootSab) : Prop :=
  ∀ k l, s.get k = some (.list (some l)) → l.2 < 2 ^ 64 ∧ l.1.length < 2 ^ 62 ∧ (∀ e ∈ l.1, e.1 < 2 ^ 64) ∧ ∀ e ∈ l.1, InMemory e.2

def ListsFresh (s : AMap RootSab) : Prop :=
  ∀ k l, s.get k = some (.list (some l)) → FreshIds l ∧ ∀ e ∈ l.1, FreshItem e.2

/-- What is stored in a loaded source is declared, if each name is declared once. -/
theorem loaded_declared (env : Env) (he : env.Sound) (files : List (String × JVal)) (r : Source.Root) (h : loadDir env files = .ok r)
    (l : List Source.Decl) (hl : SourceDecls files l) (hd : Distinct l) (k : String) (s : RootSab) (hs : r.sabun.get k = some s) :
    ∃ id d u m, r.defs.get k = some (id, .mlist d u) ∧ s = .list m := by
  obtain ⟨⟨L⟩, _⟩ := loads env he h
  obtain ⟨lr, lf, h1, rfl⟩ := hl
  obtain ⟨rfl, rfl⟩ := L.unique h1
  obtain ⟨h2, h3, h4⟩ := L.distinct hd
  have hn : k ∈ names (L.rd ++ L.fd) := by
    rw [names_app, List.mem_append]
    have hs' := hs
    rw [L.sabun] at hs'
    rcases addMembers_sab_mem _ _ _ hs' with hs' | ⟨y, hs'⟩
    · left
      have := (root_keys L.rootOf L.ins k).1
      apply this
      by_contra hc
      rw [L.rootOf.keys, ← AMap.get_eq_none] at hc
      rw [(L.rootOf.none k hc).2] at hs'
      cases hs'
    · right
      have := L.memberNames (sortZ (·.2) L.z) fun _ h => h
      unfold Loads.fd
      rw [← this, List.mem_map]
      exact ⟨_, hs', rfl⟩
  obtain ⟨d, hd1, hd2⟩ := List.mem_map.1 hn
  obtain ⟨i, hi⟩ := List.mem_iff_getElem?.1 hd1
  obtain ⟨y, sab, ⟨x, ha, hb⟩, hc, hs'⟩ := h3 i d hi
  rw [hd2] at hc hs'
  rw [hs] at hs'
  subst hs'
  cases x <;> simp only [intoRootVal, Res.ok.injEq, Prod.mk.injEq, Option.some.injEq, reduceCtorEq, and_false] at hb
  obtain ⟨hb1, hb2⟩ := hb
  subst hb1
  exact ⟨i, _, _, _, hc, hb2.symm⟩

/-- **C72, loaded objects fit.** What a validated source that declares each name once stores fits its definition, if the ids are distinct. -/
theorem C72_loaded_fits_partial (env : Env) (he : env.Sound) (files : List (String × JVal)) (r : Source.Root) (h : loadValid env files = .ok r)
    (l : List Source.Decl) (hl : SourceDecls files l) (hd : Distinct l) (hf : ListsFresh r.sabun) (hm : ListsInMemory r.sabun) :
    RootFits r.defs r.sabun := by
  obtain ⟨r', h1, h2⟩ := bind_inv h
  obtain ⟨_, hv, rfl⟩ := map_inv h2
  have hdecl := loaded_declared env he files r' h1 l hl hd
  obtain ⟨⟨L⟩, _⟩ := loads env he h1
  have hw := L.sabWf
  refine ⟨hw, ?_, ?_, ?_, ?_⟩
  · intro k p hk
    obtain ⟨_, _, _, _, _, hc⟩ := hdecl k _ (AMap.get_of_mem hw hk)
    cases hc
  · intro k m hk
    obtain ⟨id, d, u, m', hc, _⟩ := hdecl k _ (AMap.get_of_mem hw hk)
    exact ⟨id, d, u, hc⟩
  · intro k m id d u hk hg
    have hk' := AMap.get_of_mem hw hk
    obtain ⟨f1, f2⟩ := hf k m hk'
    obtain ⟨m1, m2, m3, m4⟩ := hm k m hk'
    refine ⟨⟨f1.1, m3, m1, m2⟩, fun e hem => ?_⟩
    obtain ⟨v, vt, d', u', m', _, hx, hc⟩ := (loaded_from env he h1).1 k _ hk'
    cases hc
    refine itemFits_of_valid (item_wf env he vt v _ hx m rfl e hem) (f2 e hem) (m4 e hem) ?_ (defs := r'.erase.defs) (b := false)
    refine validateRoot_holds hv (Holds.mlist (k := k) (u := u) (items := m.1) (next := m.2) (i := e.1) ?_ ?_ hem)
    · show (k, RootVal.mlist d.erase u) ∈ r'.defs.map fun e => (e.1, e.2.2.erase)
      exact List.mem_map.2 ⟨(k, id, .mlist d u), AMap.mem_of_get hg, rfl⟩
    · exact hk'
  · intro k id d u hg
    obtain ⟨l, hl⟩ := loaded_lists env he h1 k id d u hg
    exact ⟨_, hl, fun _ h => nomatch h⟩

/-- The same for a source without numeric ids: nothing about the ids has to be assumed. -/
theorem C72_loaded_plain_partial (env : Env) (he : env.Sound) (files : List (String × JVal)) (hp : ∀ e ∈ files, Plain e.2) (r : Source.Root)
    (h : loadValid env files = .ok r) (l : List Source.Decl) (hl : SourceDecls files l) (hd : Distinct l) (hm : ListsInMemory r.sabun) :
    RootTable r.defs r.table ∧ RootFits r.defs r.sabun := by
  obtain ⟨r', h1, h2⟩ := bind_inv h
  obtain ⟨_, hv, rfl⟩ := map_inv h2
  exact ⟨C72_loaded_table env he files r' h1 l hl hd,
    C72_loaded_fits_partial env he files r' h l hl hd (C60_plain_partial env he files hp r' h1).1 hm⟩

end Verif.Named
