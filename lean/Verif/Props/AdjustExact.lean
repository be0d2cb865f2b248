import Verif.Spec.AdjustExact
import Verif.Props.Adjust
/-!
# C18, C19: what becomes of lists, exactly
-/
namespace Verif.Core
open Diff

theorem adjustRefs_out {d : RefDef} (hw : d.refs.Wf) (refs : AMap (Qv String)) (k : String) :
    OutRef d k (refs.get k) ((adjustRefs d.refs refs []).get k) := by
  obtain ⟨h1, h2, h3⟩ := adjustRefs_get refs [] hw k
  cases hd : d.refs.get k with
  | none => rw [h1 hd]; exact .dropped hd
  | some x =>
    cases hr : refs.get k with
    | some q => rw [h2 x q hd hr]; exact .kept hd
    | none =>
      rw [h3 x hd hr]
      obtain ⟨q, vt⟩ := x
      cases vt with
      | normal => exact .unset (.inl hd)
      | nullable => exact .unset (.inr hd)
      | undefiable => exact .undef (.inl hd)
      | undefNullable => exact .undef (.inr hd)

theorem constructNext_out (l : List (Nat × Item)) (next : Nat) :
    (l ≠ [] → constructNext l next = next) ∧ (l = [] → constructNext l next = 0) := by
  unfold constructNext
  cases l with
  | nil => exact ⟨fun h => absurd rfl h, fun _ => rfl⟩
  | cons _ _ => exact ⟨fun _ => rfl, fun h => nomatch h⟩

/-- a stored value before and after -/
def OutVal (inner : ListDef → String → ListDef) (d : ListDef) : SabVal → SabVal → Prop
  | .param p, v' => v' = .param p
  | .milNone, v' => v' = .milNone
  | .mil l next, v' => ∃ l' next', v' = .mil l' next' ∧ OutItems inner d l l' ∧ (l ≠ [] → next' = next) ∧ (l = [] → next' = 0)
  | .cil _, _ => False

mutual
theorem adjustItems_out (inner : ListDef → String → ListDef) (d : ListDef) (hw : WfUnder inner d) : (l : List (Nat × Item)) →
    ∀ l', adjustItems inner d l = .ok l' → OutItems inner d l l'
  | [] => by
    intro l' h
    unfold adjustItems at h
    cases h
    exact .nil
  | (id, it) :: r => by
    intro l' h
    unfold adjustItems at h
    obtain ⟨it', h1, h⟩ := Res.bind_eq_ok h
    obtain ⟨r', h2, h⟩ := Res.map_eq_ok h
    cases h
    exact .cons (adjustItem_out inner d hw it it' h1) (adjustItems_out inner d hw r r' h2)
theorem adjustItem_out (inner : ListDef → String → ListDef) (d : ListDef) (hw : WfUnder inner d) : (it : Item) →
    ∀ it', adjustItem inner d it = .ok it' → OutItem inner d it it'
  | .mk values refs => by
    intro it' h
    unfold adjustItem at h
    obtain ⟨out, h1, h⟩ := Res.map_eq_ok h
    cases h
    refine .mk ?_ (adjustRefs_out (hw d .refl).2 refs)
    intro k
    obtain ⟨g1, g2, g3⟩ := adjustLoop_get (hw d .refl).1 h1 k
    change OutSlot inner d k (AMap.get values k) (AMap.get out k)
    cases hd : d.members.get k with
    | none => rw [g1 hd]; exact .dropped hd
    | some dv =>
      cases hk : AMap.get values k with
      | none =>
        have := (g3 dv hd (by rw [adjustValues_get, hk]; rfl)).2
        rw [this]
        cases hu : undefVal dv with
        | none =>
          refine .unset hd fun v hv => ?_
          rw [undefined_iff, hu] at hv
          cases hv
        | some v => exact .undef hd ((undefined_iff dv v).2 hu)
      | some v =>
        obtain ⟨v', hv', ho⟩ := g2 dv _ hd (by rw [adjustValues_get, hk]; rfl)
        rw [ho]
        have := adjustVals_out inner d hw values k v hk v' hv'
        cases v with
        | param p => rw [show v' = SabVal.param p from this]; exact .param hd
        | milNone => rw [show v' = SabVal.milNone from this]; exact .milNone hd
        | mil l next =>
          obtain ⟨l', next', he, ha, hx, hy⟩ := this
          rw [he]
          exact .mil hd ha hx hy
        | cil _ => exact this.elim
theorem adjustVals_out (inner : ListDef → String → ListDef) (d : ListDef) (hw : WfUnder inner d) : (vs : List (String × SabVal)) →
    ∀ k v, AMap.get vs k = some v → ∀ v', adjustValue inner (inner d k) v = .ok v' → OutVal inner (inner d k) v v'
  | [] => by intro k v h; cases h
  | (k0, v0) :: r => by
    intro k v h v' hv
    unfold AMap.get at h
    by_cases hk : k = k0
    · rw [if_pos hk] at h
      have h : v0 = v := Option.some.inj h
      exact h ▸ adjustVal_out inner (inner d k) (hw.inner k) v0 v' (h ▸ hv)
    · rw [if_neg hk] at h
      exact adjustVals_out inner d hw r k v h v' hv
theorem adjustVal_out (inner : ListDef → String → ListDef) (d : ListDef) (hw : WfUnder inner d) : (v : SabVal) →
    ∀ v', adjustValue inner d v = .ok v' → OutVal inner d v v'
  | .param p => by intro v' h; unfold adjustValue at h; cases h; rfl
  | .milNone => by intro v' h; unfold adjustValue at h; cases h; rfl
  | .cil _ => by intro v' h; unfold adjustValue at h; cases h
  | .mil l next => by
    intro v' h
    unfold adjustValue at h
    obtain ⟨l', h1, h⟩ := Res.map_eq_ok h
    exact ⟨l', _, h.symm, adjustItems_out inner d hw l l' h1, constructNext_out l next⟩
end

/-! ## The result is determined -/

theorem outRef_unique {d : RefDef} {k : String} {a b c : Option (Qv String)} (h : OutRef d k a b) (h' : OutRef d k a c) : b = c := by
  cases h with
  | kept hd =>
    cases h' with
    | kept _ => rfl
    | dropped h => rw [hd] at h; cases h
  | dropped hd =>
    cases h' with
    | kept h => rw [hd] at h; cases h
    | dropped _ => rfl
    | undef h => rcases h with h | h <;> (rw [hd] at h; cases h)
    | unset h => rfl
  | undef hd =>
    cases h' with
    | dropped h => rcases hd with hd | hd <;> (rw [hd] at h; cases h)
    | undef _ => rfl
    | unset h => rcases hd with hd | hd <;> rcases h with h | h <;> (rw [hd] at h; cases h)
  | unset hd =>
    cases h' with
    | dropped _ => rfl
    | undef h => rcases hd with hd | hd <;> rcases h with h | h <;> (rw [hd] at h; cases h)
    | unset _ => rfl

theorem undefined_unique {dv : DefVal} {v w : SabVal} (h : Undefined dv v) (h' : Undefined dv w) : v = w := by
  rw [undefined_iff] at h h'
  exact Option.some.inj (h.symm.trans h')

theorem undefined_same {dv : DefVal} {v : SabVal} (h : Undefined dv v) : SameSlot (some v) (some v) := by
  induction h with
  | param _ ih => exact ih
  | mil => exact .milNone
  | _ => exact .param

mutual
theorem outItem_unique {inner : ListDef → String → ListDef} : {d : ListDef} → {it a b : Item} → OutItem inner d it a → OutItem inner d it b → SameItem a b
  | _, _, _, _, .mk h1 h2, .mk g1 g2 => .mk (fun k => outSlot_unique (h1 k) (g1 k)) fun k => outRef_unique (h2 k) (g2 k)
theorem outSlot_unique {inner : ListDef → String → ListDef} {d : ListDef} {k : String} {v a b : Option SabVal} (h : OutSlot inner d k v a)
    (h' : OutSlot inner d k v b) : SameSlot a b := by
  match h with
  | .param hd =>
    match h' with
    | .param _ => exact .param
    | .dropped h => rw [hd] at h; cases h
  | .milNone hd =>
    match h' with
    | .milNone _ => exact .milNone
    | .dropped h => rw [hd] at h; cases h
  | .mil (l := l) (l' := l1) hd hl e1 e2 =>
    match h' with
    | .mil _ hl' f1 f2 =>
      refine .mil (outItems_unique hl hl') ?_
      by_cases hn : l = []
      · right
        subst hn
        cases hl
        rfl
      · left
        rw [e1 hn, f1 hn]
    | .dropped h => rw [hd] at h; cases h
  | .dropped hd =>
    match h' with
    | .param h => rw [hd] at h; cases h
    | .milNone h => rw [hd] at h; cases h
    | .mil h _ _ _ => rw [hd] at h; cases h
    | .dropped _ => exact .none
    | .undef h _ => rw [hd] at h; cases h
    | .unset _ _ => exact .none
  | .undef hd hu =>
    match h' with
    | .dropped h => rw [hd] at h; cases h
    | .undef h hu' =>
      rw [hd] at h
      cases h
      rw [undefined_unique hu hu']
      exact undefined_same hu'
    | .unset h hu' =>
      rw [hd] at h
      cases h
      exact absurd hu (hu' _)
  | .unset hd hu =>
    match h' with
    | .dropped _ => exact .none
    | .undef h hu' =>
      rw [hd] at h
      cases h
      exact absurd hu' (hu _)
    | .unset _ _ => exact .none
theorem outItems_unique {inner : ListDef → String → ListDef} : {d : ListDef} → {l a b : List (Nat × Item)} → OutItems inner d l a → OutItems inner d l b →
    SameItems a b
  | _, _, _, _, .nil, .nil => .nil
  | _, _, _, _, .cons hi hr, .cons gi gr => .cons (outItem_unique hi gi) (outItems_unique hr gr)
end

/-! ## When nothing changes -/

theorem outRef_same {d : RefDef} {k : String} {a b : Option (Qv String)} (h : OutRef d k a b) : a = b ↔
    (∀ q vt, d.refs.get k = some (q, vt) → vt = .undefiable ∨ vt = .undefNullable → a = none → d.refs.get k = none) ∧
    ∀ q, a = some q → ∃ x, d.refs.get k = some x := by
  cases h with
  | kept hd => exact ⟨fun _ => ⟨fun _ _ _ _ h => (nomatch h), fun _ _ => ⟨_, hd⟩⟩, fun _ => rfl⟩
  | dropped hd =>
    constructor
    · rintro rfl
      exact ⟨fun _ _ h => (by rw [hd] at h; cases h), fun _ h => (nomatch h)⟩
    · rintro ⟨_, h⟩
      cases a with
      | none => rfl
      | some q =>
        obtain ⟨x, h⟩ := h q rfl
        rw [hd] at h
        cases h
  | undef hd =>
    constructor
    · intro h; cases h
    · rintro ⟨h, _⟩
      rcases hd with hd | hd
      · have := h _ _ hd (.inl rfl) rfl
        rw [hd] at this
        cases this
      · have := h _ _ hd (.inr rfl) rfl
        rw [hd] at this
        cases this
  | unset hd =>
    refine ⟨fun _ => ⟨fun q vt h hv _ => ?_, fun _ h => nomatch h⟩, fun _ => rfl⟩
    rcases hd with hd | hd <;> (rw [hd] at h; cases h; rcases hv with hv | hv <;> cases hv)

mutual
theorem outItem_same {inner : ListDef → String → ListDef} : {d : ListDef} → {it it' : Item} → OutItem inner d it it' →
    (SameItem it it' ↔ FullItem inner d d it ∧ DeclItem inner d it)
  | d, it, it', .mk h1 h2 => by
    have hs := fun k => outSlot_same (h1 k)
    have hr := fun k => outRef_same (h2 k)
    constructor
    · rintro ⟨g1, g2⟩
      refine ⟨.mk ?_ ?_ ?_, .mk ?_ ?_ ?_⟩
      · exact fun k dv v hd hu hn => ((hs k).1 (g1 k)).1 dv v hd hu hn
      · exact fun k q vt hd hv hn => ((hr k).1 (g2 k)).1 q vt hd hv hn
      · exact fun k l next he => (((hs k).1 (g1 k)).2.2 l next he).1
      · exact fun k v he => ((hs k).1 (g1 k)).2.1 v he
      · exact fun k q he => ((hr k).1 (g2 k)).2 q he
      · exact fun k l next he => (((hs k).1 (g1 k)).2.2 l next he).2
    · rintro ⟨⟨f1, f2, f3⟩, ⟨e1, e2, e3⟩⟩
      refine .mk (fun k => (hs k).2 ⟨f1 k, e1 k, fun l next he => ⟨f3 k l next he, e3 k l next he⟩⟩) fun k => (hr k).2 ⟨f2 k, e2 k⟩
theorem outSlot_same {inner : ListDef → String → ListDef} : {d : ListDef} → {k : String} → {a b : Option SabVal} → OutSlot inner d k a b →
    (SameSlot a b ↔ (∀ dv v, d.members.get k = some dv → Undefined dv v → a = none → d.members.get k = none) ∧
      (∀ v, a = some v → ∃ dv, d.members.get k = some dv) ∧
      ∀ l next, a = some (.mil l next) → FullItems inner (inner d k) (inner d k) l ∧ DeclItems inner (inner d k) l)
  | _, _, _, _, .param hd => ⟨fun _ => ⟨fun _ _ _ _ h => (nomatch h), fun _ _ => ⟨_, hd⟩, fun _ _ h => (nomatch h)⟩, fun _ => .param⟩
  | _, _, _, _, .milNone hd => ⟨fun _ => ⟨fun _ _ _ _ h => (nomatch h), fun _ _ => ⟨_, hd⟩, fun _ _ h => (nomatch h)⟩, fun _ => .milNone⟩
  | d, k, _, _, .mil (l := l) (next := next) (next' := next') hd hl e1 e2 => by
    have ih := outItems_same hl
    constructor
    · intro h
      cases h with
      | mil hs _ =>
        refine ⟨fun _ _ _ _ h => (nomatch h), fun _ _ => ⟨_, hd⟩, ?_⟩
        intro l next he
        cases he
        exact ih.1 hs
    · rintro ⟨_, _, h⟩
      refine .mil (ih.2 (h _ _ rfl)) ?_
      by_cases hn : l = []
      · exact .inr hn
      · exact .inl (e1 hn)
  | d, k, a, _, .dropped hd => by
    constructor
    · intro h
      cases h
      exact ⟨fun _ _ h => (by rw [hd] at h; cases h), fun _ h => (nomatch h), fun _ _ h => (nomatch h)⟩
    · rintro ⟨_, h, _⟩
      cases a with
      | none => exact .none
      | some v =>
        obtain ⟨dv, h⟩ := h v rfl
        rw [hd] at h
        cases h
  | d, k, _, _, .undef hd hu => by
    constructor
    · intro h; cases h
    · rintro ⟨h, _⟩
      have := h _ _ hd hu rfl
      rw [hd] at this
      cases this
  | d, k, _, _, .unset hd hu => by
    refine ⟨fun _ => ⟨fun dv v h hv _ => ?_, fun _ h => (nomatch h), fun _ _ h => (nomatch h)⟩, fun _ => .none⟩
    rw [hd] at h
    cases h
    exact absurd hv (hu v)
theorem outItems_same {inner : ListDef → String → ListDef} : {d : ListDef} → {l l' : List (Nat × Item)} → OutItems inner d l l' →
    (SameItems l l' ↔ FullItems inner d d l ∧ DeclItems inner d l)
  | _, _, _, .nil => ⟨fun _ => ⟨.nil, .nil⟩, fun _ => .nil⟩
  | _, _, _, .cons hi hr => by
    have h1 := outItem_same hi
    have h2 := outItems_same hr
    constructor
    · intro h
      cases h with
      | cons a b => exact ⟨.cons (h1.1 a).1 (h2.1 b).1, .cons (h1.1 a).2 (h2.1 b).2⟩
    · rintro ⟨a, b⟩
      cases a with
      | cons a1 a2 =>
        cases b with
        | cons b1 b2 => exact .cons (h1.2 ⟨a1, b1⟩) (h2.2 ⟨a2, b2⟩)
end

/-! ## The theorems -/

theorem wfUnder_innerDef {d : ListDef} (hd : d.members.Wf ∧ d.refs.refs.Wf) : WfUnder innerDef d := by
  intro d' hd'
  have : d' = d := by
    induction hd' with
    | refl => rfl
    | step _ _ ih => exact ih
  rw [this]
  exact hd

/-- **C18, exactly.** What becomes of a list of the root, for every object and at every depth: the definition of the list is used for the lists in
its items as well, what it does not declare is dropped, and what is not stored becomes undefined if it may be undefined. -/
theorem C18_exact (new old r : RootObj) (b : Bool) (hw : new.defs.Wf) (h : adjustVersions new old b = .ok r) (k : String) (d : ListDef) (u : Bool)
    (hk : new.defs.get k = some (.mlist d u)) (ho : u = true → old.defs.get k ≠ none) (hd : d.members.Wf ∧ d.refs.refs.Wf)
    (l : List (Nat × Item)) (next : Nat) (hs : old.sabun.get k = some (.list (some (l, next)))) :
    ∃ l' next', r.sabun.get k = some (.list (some (l', next'))) ∧ OutItems innerDef d l l' ∧ (l ≠ [] → next' = next) ∧ (l = [] → next' = 0) := by
  obtain ⟨sabun, h1, rfl⟩ := adjustWith_ok h
  have hg := (adjustMembers_get hw h1 k).2.2.1 d u hk
  rw [if_neg (by
    intro hc
    rw [Bool.and_eq_true] at hc
    exact ho hc.1 (Option.isNone_iff_eq_none.1 hc.2)), hs] at hg
  obtain ⟨y, hy, hg⟩ := hg
  unfold adjustMlist at hy
  obtain ⟨l', hl, hy⟩ := Res.map_eq_ok hy
  rw [← hy] at hg
  exact ⟨l', _, hg, adjustItems_out innerDef d (wfUnder_innerDef hd) l l' hl, constructNext_out l next⟩

/-- What `OutItems` says determines the contents of the list. -/
theorem C18_determined (inner : ListDef → String → ListDef) (d : ListDef) (l a b : List (Nat × Item)) (ha : OutItems inner d l a)
    (hb : OutItems inner d l b) : SameItems a b := outItems_unique ha hb

/-- **C19, exactly.** Adjusted to its own version, a list of the root has the same contents if and only if, with the definition of the list taken for
the lists in its items as well, everything that is stored is declared and every member that may be undefined is stored. -/
theorem C19_exact (r r' : RootObj) (b : Bool) (hw : r.defs.Wf) (h : adjustVersions { r with sabun := [] } r b = .ok r') (k : String) (d : ListDef)
    (u : Bool) (hk : r.defs.get k = some (.mlist d u)) (hd : d.members.Wf ∧ d.refs.refs.Wf) (l : List (Nat × Item)) (next : Nat)
    (hs : r.sabun.get k = some (.list (some (l, next)))) :
    ∃ l' next', r'.sabun.get k = some (.list (some (l', next'))) ∧
      (SameItems l l' ↔ FullItems innerDef d d l ∧ DeclItems innerDef d l) ∧ (next' = next ↔ l ≠ [] ∨ next = 0) := by
  obtain ⟨l', next', h1, h2, h3, h4⟩ := C18_exact { r with sabun := [] } r r' b hw h k d u hk (fun _ => by rw [hk]; simp) hd l next hs
  refine ⟨l', next', h1, outItems_same h2, ?_⟩
  by_cases hn : l = []
  · rw [h4 hn]
    constructor
    · intro h; exact .inr h.symm
    · rintro (h | h)
      · exact absurd hn h
      · exact h.symm
  · exact ⟨fun _ => .inl hn, fun _ => h3 hn⟩

/-- the objects of the counterexamples meet the hypotheses -/
example : ∃ r, adjustVersions { nestedRoot with sabun := [] } nestedRoot true = .ok r ∧ nestedRoot.defs.Wf ∧
    nestedRoot.defs.get "l" = some (.mlist nestedDef false) ∧ (nestedDef.members.Wf ∧ nestedDef.refs.refs.Wf) ∧
    nestedRoot.sabun.get "l" = some (.list (some ([(0, .mk [("in", .mil [(0, .mk [("x", .param (.int (.val 5)))] [])] 1)] [])], 1))) :=
  ⟨_, rfl, by unfold AMap.Wf; decide, rfl, ⟨by unfold AMap.Wf; decide, by unfold AMap.Wf; decide⟩, rfl⟩

end Verif.Core
