import Verif.Lemmas.AMap
import Verif.Spec.Adjust
import Verif.Model.Adjust
import Verif.Props.Validate
/-! # Adjusting: what the loops leave -/
namespace Verif.Core
open Diff

theorem Res.map_eq_ok {α β : Type} {x : Res α} {f : α → β} {b : β} (h : x.map f = .ok b) : ∃ a, x = .ok a ∧ f a = b := by
  cases x with
  | ok a => exact ⟨a, rfl, by cases h; rfl⟩
  | err => cases h
  | panic => cases h

/-- what the loop stores for a member without a stored value -/
def undefVal : DefVal → Option SabVal
  | .param p vt => if canUndef vt then some (.param (toUndefined p)) else none
  | .milDef _ u => if u then some .milNone else none
  | .cilDef _ => none

theorem undefined_iff (dv : DefVal) (v : SabVal) : Undefined dv v ↔ undefVal dv = some v := by
  constructor
  · intro h
    induction h with
    | @param p q h ih =>
      simp only [undefVal, canUndef] at ih ⊢
      exact ih
    | _ => rfl
  · intro h
    cases dv with
    | param p vt =>
      have key : ∀ w, some (SabVal.param (toUndefined p)) = some w → Undefined (.param p .undefiable) w := by
        intro w hw
        cases hw
        cases p <;> constructor
      cases vt with
      | normal => cases h
      | nullable => cases h
      | undefiable => exact key _ h
      | undefNullable => exact .param (key _ h)
    | milDef d u =>
      cases u with
      | true => cases h; exact .mil
      | false => cases h
    | cilDef d => cases h

/-- The loop over the members of a definition, member by member. -/
theorem adjustLoop_get {ms : AMap DefVal} {old : AMap (Res SabVal)} {res out : AMap SabVal} (hw : ms.Wf)
    (h : adjustLoop ms old res = .ok out) (k : String) :
    (ms.get k = none → out.get k = res.get k) ∧
    (∀ dv o, ms.get k = some dv → old.get k = some o → ∃ v, o = .ok v ∧ out.get k = some v) ∧
    (∀ dv, ms.get k = some dv → old.get k = none → (∀ x, dv ≠ .cilDef x) ∧
      out.get k = match undefVal dv with | some v => some v | none => res.get k) := by
  induction ms generalizing old res with
  | nil =>
    cases h
    exact ⟨fun _ => rfl, fun _ _ h => (nomatch h), fun _ h => (nomatch h)⟩
  | cons e ms ih =>
    obtain ⟨k0, d0⟩ := e
    have hd : k0 ∉ ms.map (·.1) ∧ (ms.map (·.1)).Nodup := List.nodup_cons.1 hw
    have hn : AMap.get ms k0 = none := AMap.get_eq_none.2 hd.1
    have hw' : AMap.Wf ms := hd.2
    unfold adjustLoop at h
    by_cases hk : k = k0
    · subst hk
      have hg : AMap.get ((k, d0) :: ms) k = some d0 := by simp [AMap.get]
      rw [hg]
      refine ⟨(fun h => nomatch h), ?_, ?_⟩
      · rintro dv o ⟨⟩ ho
        rw [ho] at h
        obtain ⟨v, hv, h⟩ := Res.bind_eq_ok h
        refine ⟨v, hv, ?_⟩
        rw [(ih hw' h).1 hn, AMap.get_insert_self]
      · rintro dv ⟨⟩ ho
        rw [ho] at h
        cases d0 with
        | param p vt =>
          refine ⟨(fun _ h => nomatch h), ?_⟩
          simp only at h
          rw [(ih hw' h).1 hn]
          simp only [undefVal]
          by_cases hc : canUndef vt = true
          · simp only [if_pos hc, AMap.get_insert_self]
          · simp only [if_neg hc]
        | milDef d u =>
          refine ⟨(fun _ h => nomatch h), ?_⟩
          simp only at h
          rw [(ih hw' h).1 hn]
          simp only [undefVal]
          by_cases hc : u = true
          · simp only [if_pos hc, AMap.get_insert_self]
          · simp only [if_neg hc]
        | cilDef d => cases h
    · have hg : AMap.get ((k0, d0) :: ms) k = AMap.get ms k := by simp [AMap.get, hk]
      rw [hg]
      cases ho : old.get k0 with
      | some o =>
        rw [ho] at h
        obtain ⟨v, hv, h⟩ := Res.bind_eq_ok h
        have := ih hw' h
        rw [AMap.get_insert_ne _ _ hk, AMap.get_remove_ne _ hk] at this
        exact this
      | none =>
        rw [ho] at h
        cases d0 with
        | param p vt =>
          have := ih hw' h
          by_cases hc : canUndef vt = true
          · rw [if_pos hc, AMap.get_insert_ne _ _ hk] at this; exact this
          · rw [if_neg hc] at this; exact this
        | milDef d u =>
          have := ih hw' h
          by_cases hc : u = true
          · rw [if_pos hc, AMap.get_insert_ne _ _ hk] at this; exact this
          · rw [if_neg hc] at this; exact this
        | cilDef d => cases h

theorem adjustRefs_get {ds : AMap (Qv String × VType)} (old res : AMap (Qv String)) (hw : ds.Wf) (k : String) :
    (ds.get k = none → (adjustRefs ds old res).get k = res.get k) ∧
    (∀ x q, ds.get k = some x → old.get k = some q → (adjustRefs ds old res).get k = some q) ∧
    (∀ x, ds.get k = some x → old.get k = none →
      (adjustRefs ds old res).get k = if canUndef x.2 then some .undef else res.get k) := by
  induction ds generalizing old res with
  | nil => exact ⟨fun _ => rfl, fun _ _ h => (nomatch h), fun _ h => (nomatch h)⟩
  | cons e ds ih =>
    obtain ⟨k0, d0⟩ := e
    have hd : k0 ∉ ds.map (·.1) ∧ (ds.map (·.1)).Nodup := List.nodup_cons.1 hw
    have hn : AMap.get ds k0 = none := AMap.get_eq_none.2 hd.1
    have hw' : AMap.Wf ds := hd.2
    unfold adjustRefs
    by_cases hk : k = k0
    · subst hk
      have hg : AMap.get ((k, d0) :: ds) k = some d0 := by simp [AMap.get]
      rw [hg]
      refine ⟨(fun h => nomatch h), ?_, ?_⟩
      · rintro x q ⟨⟩ ho
        rw [ho]
        simp only
        rw [(ih _ _ hw').1 hn, AMap.get_insert_self]
      · rintro x ⟨⟩ ho
        rw [ho]
        simp only
        rw [(ih _ _ hw').1 hn]
        by_cases hc : canUndef d0.2 = true
        · rw [if_pos hc, if_pos hc, AMap.get_insert_self]
        · rw [if_neg hc, if_neg hc]
    · have hg : AMap.get ((k0, d0) :: ds) k = AMap.get ds k := by simp [AMap.get, hk]
      rw [hg]
      cases ho : old.get k0 with
      | some o =>
        have := ih (old.remove k0) (res.insert k0 o) hw'
        rw [AMap.get_insert_ne _ _ hk, AMap.get_remove_ne _ hk] at this
        exact this
      | none =>
        simp only
        have := ih old (if canUndef d0.2 then res.insert k0 .undef else res) hw'
        by_cases hc : canUndef d0.2 = true
        · rw [if_pos hc, AMap.get_insert_ne _ _ hk] at this; rw [if_pos hc]; exact this
        · rw [if_neg hc] at this; rw [if_neg hc]; exact this

theorem adjustValues_get (inner : ListDef → String → ListDef) (d : ListDef) (vs : List (String × SabVal)) (k : String) :
    AMap.get (adjustValues inner d vs) k = (AMap.get vs k).map (adjustValue inner (inner d k)) := by
  induction vs with
  | nil => unfold adjustValues; rfl
  | cons e r ih =>
    obtain ⟨k0, v0⟩ := e
    unfold adjustValues AMap.get
    by_cases hk : k = k0
    · rw [if_pos hk, if_pos hk, hk]; rfl
    · rw [if_neg hk, if_neg hk, ih]

/-- the definitions that the rule `inner` finds, starting from `d` -/
inductive Found' (inner : ListDef → String → ListDef) (d : ListDef) : ListDef → Prop
  | refl : Found' inner d d
  | step {d'} (k) : Found' inner d d' → Found' inner d (inner d' k)

/-- In all of them the names are distinct. -/
def WfUnder (inner : ListDef → String → ListDef) (d : ListDef) : Prop :=
  ∀ d', Found' inner d d' → d'.members.Wf ∧ d'.refs.refs.Wf

theorem Found'.inner {inner : ListDef → String → ListDef} {d d' : ListDef} {k : String} (h : Found' inner (inner d k) d') :
    Found' inner d d' := by
  induction h with
  | refl => exact .step k .refl
  | step k' _ ih => exact .step k' ih

theorem WfUnder.inner {inner : ListDef → String → ListDef} {d : ListDef} (h : WfUnder inner d) (k : String) : WfUnder inner (inner d k) :=
  fun d' hd => h d' hd.inner

/-- a stored value before and after -/
def ValRel (inner : ListDef → String → ListDef) (o d : ListDef) : SabVal → SabVal → Prop
  | .param p, v' => v' = .param p
  | .milNone, v' => v' = .milNone
  | .mil l next, v' => ∃ l' next', v' = .mil l' next' ∧ AdjItems inner o d l l' ∧ (next' = next ∨ l = [])
  | .cil _, _ => False

theorem canUndef_iff (vt : VType) : canUndef vt = true ↔ vt = .undefiable ∨ vt = .undefNullable := by
  cases vt <;> simp [canUndef]

theorem constructNext_eq (l : List (Nat × Item)) (next : Nat) : constructNext l next = next ∨ l = [] := by
  unfold constructNext
  cases l with
  | nil => right; rfl
  | cons _ _ => left; rfl

theorem adjustRefs_adj {o d : RefDef} (hw : d.refs.Wf) (refs : AMap (Qv String))
    (hf : ∀ k q vt, d.refs.get k = some (q, vt) → vt = .undefiable ∨ vt = .undefNullable → refs.get k = none → o.refs.get k = none)
    (k : String) : AdjRef o d k (refs.get k) ((adjustRefs d.refs refs []).get k) := by
  obtain ⟨h1, h2, h3⟩ := adjustRefs_get refs [] hw k
  cases hd : d.refs.get k with
  | none => rw [h1 hd]; exact .dropped hd
  | some x =>
    cases hr : refs.get k with
    | some q => rw [h2 x q hd hr]; exact .kept hd
    | none =>
      rw [h3 x hd hr]
      by_cases hc : canUndef x.2 = true
      · rw [if_pos hc]
        obtain ⟨q, vt⟩ := x
        have hvt := (canUndef_iff vt).1 hc
        refine .new (q := q) ?_ (hf k q vt hd hvt hr)
        rcases hvt with h | h
        · left; rw [hd, h]
        · right; rw [hd, h]
      · rw [if_neg hc]; exact .unset hd

mutual
theorem adjustItems_adj (inner : ListDef → String → ListDef) (o d : ListDef) (hw : WfUnder inner d) : (l : List (Nat × Item)) →
    ∀ l', adjustItems inner d l = .ok l' → FullItems inner o d l → AdjItems inner o d l l'
  | [] => by
    intro l' h _
    unfold adjustItems at h
    cases h
    exact .nil
  | (id, it) :: r => by
    intro l' h hf
    unfold adjustItems at h
    obtain ⟨it', h1, h⟩ := Res.bind_eq_ok h
    obtain ⟨r', h2, h⟩ := Res.map_eq_ok h
    cases h
    cases hf with
    | cons hi hr => exact .cons (adjustItem_adj inner o d hw it it' h1 hi) (adjustItems_adj inner o d hw r r' h2 hr)
theorem adjustItem_adj (inner : ListDef → String → ListDef) (o d : ListDef) (hw : WfUnder inner d) : (it : Item) →
    ∀ it', adjustItem inner d it = .ok it' → FullItem inner o d it → AdjItem inner o d it it'
  | .mk values refs => by
    intro it' h hf
    unfold adjustItem at h
    obtain ⟨out, h1, h⟩ := Res.map_eq_ok h
    cases h
    cases hf with
    | mk hv hr hn =>
      refine .mk ?_ (adjustRefs_adj (hw d .refl).2 refs hr)
      intro k
      obtain ⟨g1, g2, g3⟩ := adjustLoop_get (hw d .refl).1 h1 k
      change AdjSlot inner o d k (AMap.get values k) (AMap.get out k)
      cases hd : d.members.get k with
      | none => rw [g1 hd]; exact .dropped hd
      | some dv =>
        cases hk : AMap.get values k with
        | none =>
          have := (g3 dv hd (by rw [adjustValues_get, hk]; rfl)).2
          rw [this]
          cases hu : undefVal dv with
          | none => exact .unset hd
          | some v =>
            have hu' := (undefined_iff dv v).2 hu
            exact .new hd hu' (hv k dv v hd hu' hk)
        | some v =>
          obtain ⟨v', hv', ho⟩ := g2 dv _ hd (by rw [adjustValues_get, hk]; rfl)
          rw [ho]
          have := adjustVals_adj inner o d hw values k v hk v' hv' (fun l next he => hn k l next (he ▸ hk))
          cases v with
          | param p => rw [show v' = SabVal.param p from this]; exact .param hd
          | milNone => rw [show v' = SabVal.milNone from this]; exact .milNone hd
          | mil l next =>
            obtain ⟨l', next', he, ha, hx⟩ := this
            rw [he]
            exact .mil hd ha hx
          | cil _ => exact this.elim
theorem adjustVals_adj (inner : ListDef → String → ListDef) (o d : ListDef) (hw : WfUnder inner d) : (vs : List (String × SabVal)) →
    ∀ k v, AMap.get vs k = some v → ∀ v', adjustValue inner (inner d k) v = .ok v' →
      (∀ l next, v = .mil l next → FullItems inner (inner o k) (inner d k) l) → ValRel inner (inner o k) (inner d k) v v'
  | [] => by intro k v h; cases h
  | (k0, v0) :: r => by
    intro k v h v' hv hf
    unfold AMap.get at h
    by_cases hk : k = k0
    · rw [if_pos hk] at h
      have h : v0 = v := Option.some.inj h
      exact h ▸ adjustVal_adj inner (inner o k) (inner d k) (hw.inner k) v0 v' (h ▸ hv) (fun l next he => hf l next (h ▸ he))
    · rw [if_neg hk] at h
      exact adjustVals_adj inner o d hw r k v h v' hv hf
theorem adjustVal_adj (inner : ListDef → String → ListDef) (o d : ListDef) (hw : WfUnder inner d) : (v : SabVal) →
    ∀ v', adjustValue inner d v = .ok v' → (∀ l next, v = .mil l next → FullItems inner o d l) → ValRel inner o d v v'
  | .param p => by intro v' h _; unfold adjustValue at h; cases h; rfl
  | .milNone => by intro v' h _; unfold adjustValue at h; cases h; rfl
  | .cil _ => by intro v' h _; unfold adjustValue at h; cases h
  | .mil l next => by
    intro v' h hf
    unfold adjustValue at h
    obtain ⟨l', h1, h⟩ := Res.map_eq_ok h
    exact ⟨l', _, h.symm, adjustItems_adj inner o d hw l l' h1 (hf l next rfl), constructNext_eq l next⟩
end

/-! ## The root -/

/-- The loop over the members of the new definition, member by member. -/
theorem adjustMembers_get {inner : ListDef → String → ListDef} {oldDefs ms : AMap RootVal} {old res out : AMap RootSab} (hw : ms.Wf)
    (h : adjustMembers inner oldDefs ms old res = .ok out) (k : String) :
    (ms.get k = none → out.get k = res.get k) ∧
    (∀ p vt, ms.get k = some (.param p vt) → out.get k =
      if canUndef vt && (oldDefs.get k).isNone then some (.param (toUndefined p))
      else match old.get k with | some x => some x | none => res.get k) ∧
    (∀ d u, ms.get k = some (.mlist d u) →
      if u && (oldDefs.get k).isNone then out.get k = some (.list none)
      else match old.get k with
        | some x => ∃ y, adjustMlist inner d x = .ok y ∧ out.get k = match y with | some v => some v | none => res.get k
        | none => out.get k = res.get k) ∧
    (∀ d l o, ms.get k = some (.table d l o) → out.get k = res.get k) ∧
    (∀ d l, ms.get k = some (.clist d l) → out.get k = res.get k) := by
  induction ms generalizing old res with
  | nil =>
    unfold adjustMembers at h
    cases h
    exact ⟨fun _ => rfl, fun _ _ h => (nomatch h), fun _ _ h => (nomatch h), fun _ _ _ h => (nomatch h), fun _ _ h => (nomatch h)⟩
  | cons e ms ih =>
    obtain ⟨k0, v0⟩ := e
    have hd : k0 ∉ ms.map (·.1) ∧ (ms.map (·.1)).Nodup := List.nodup_cons.1 hw
    have hn : AMap.get ms k0 = none := AMap.get_eq_none.2 hd.1
    have hw' : AMap.Wf ms := hd.2
    by_cases hk : k = k0
    · subst hk
      have hg : AMap.get ((k, v0) :: ms) k = some v0 := by simp [AMap.get]
      rw [hg]
      refine ⟨(fun h => nomatch h), ?_, ?_, ?_, ?_⟩
      · rintro p vt ⟨⟩
        unfold adjustMembers at h
        by_cases hc : (canUndef vt && (oldDefs.get k).isNone) = true
        · rw [if_pos hc] at h
          rw [if_pos hc, (ih hw' h).1 hn, AMap.get_insert_self]
        · rw [if_neg hc] at h
          rw [if_neg hc]
          cases ho : old.get k with
          | none => rw [ho] at h; exact (ih hw' h).1 hn
          | some x => rw [ho] at h; simp only; rw [(ih hw' h).1 hn, AMap.get_insert_self]
      · rintro d u ⟨⟩
        unfold adjustMembers at h
        by_cases hc : (u && (oldDefs.get k).isNone) = true
        · rw [if_pos hc] at h
          rw [if_pos hc, (ih hw' h).1 hn, AMap.get_insert_self]
        · rw [if_neg hc] at h
          rw [if_neg hc]
          cases ho : old.get k with
          | none => rw [ho] at h; exact (ih hw' h).1 hn
          | some x =>
            rw [ho] at h
            obtain ⟨y, hy, h⟩ := Res.bind_eq_ok h
            refine ⟨y, hy, ?_⟩
            rw [(ih hw' h).1 hn]
            cases y with
            | none => rfl
            | some v => exact AMap.get_insert_self _ _ _
      · rintro d l o ⟨⟩
        unfold adjustMembers at h
        exact (ih hw' h).1 hn
      · rintro d l ⟨⟩
        unfold adjustMembers at h
        exact (ih hw' h).1 hn
    · have hg : AMap.get ((k0, v0) :: ms) k = AMap.get ms k := by simp [AMap.get, hk]
      rw [hg]
      unfold adjustMembers at h
      cases v0 with
      | param p vt =>
        simp only at h
        by_cases hc : (canUndef vt && (oldDefs.get k0).isNone) = true
        · rw [if_pos hc] at h
          have := ih hw' h
          rw [AMap.get_insert_ne _ _ hk] at this
          exact this
        · rw [if_neg hc] at h
          cases ho : old.get k0 with
          | none => rw [ho] at h; exact ih hw' h
          | some x =>
            rw [ho] at h
            have := ih hw' h
            rw [AMap.get_insert_ne _ _ hk, AMap.get_remove_ne _ hk] at this
            exact this
      | mlist d u =>
        simp only at h
        by_cases hc : (u && (oldDefs.get k0).isNone) = true
        · rw [if_pos hc] at h
          have := ih hw' h
          rw [AMap.get_insert_ne _ _ hk] at this
          exact this
        · rw [if_neg hc] at h
          cases ho : old.get k0 with
          | none => rw [ho] at h; exact ih hw' h
          | some x =>
            rw [ho] at h
            obtain ⟨y, hy, h⟩ := Res.bind_eq_ok h
            have := ih hw' h
            rw [AMap.get_remove_ne _ hk] at this
            cases y with
            | none => exact this
            | some v => rw [AMap.get_insert_ne _ _ hk] at this; exact this
      | table d l o => exact ih hw' h
      | clist d l => exact ih hw' h

theorem adjustWith_ok {inner : ListDef → String → ListDef} {new old r : RootObj} {b : Bool} (h : adjustWith inner new old b = .ok r) :
    ∃ sabun, adjustMembers inner old.defs new.defs old.sabun new.sabun = .ok sabun ∧ r = { new with sabun := sabun } := by
  obtain ⟨sabun, h1, h⟩ := Res.bind_eq_ok h
  obtain ⟨_, _, h⟩ := Res.map_eq_ok h
  exact ⟨sabun, h1, h.symm⟩

/-! ## Flat items: the rule for nested lists does not matter -/

theorem full_flat {i1 i2 : ListDef → String → ListDef} {o d : ListDef} {l : List (Nat × Item)} (hl : FlatItems l)
    (h : FullItems i1 o d l) : FullItems i2 o d l := by
  induction l with
  | nil => exact .nil
  | cons e r ih =>
    obtain ⟨id, it⟩ := e
    cases h with
    | cons hi hr =>
      refine .cons ?_ (ih (fun id it hm => hl id it (List.mem_cons_of_mem _ hm)) hr)
      cases hi with
      | mk h1 h2 _ =>
        refine .mk h1 h2 ?_
        intro k l' next hk
        rw [hl id it List.mem_cons_self k l' next hk]
        exact .nil

theorem adj_flat {i1 i2 : ListDef → String → ListDef} {o d : ListDef} {l l' : List (Nat × Item)} (hl : FlatItems l)
    (h : AdjItems i1 o d l l') : AdjItems i2 o d l l' := by
  induction l generalizing l' with
  | nil => cases h; exact .nil
  | cons e r ih =>
    obtain ⟨id, it⟩ := e
    cases h with
    | @cons _ _ _ _ it' _ r' hi hr =>
      refine .cons ?_ (ih (fun id it hm => hl id it (List.mem_cons_of_mem _ hm)) hr)
      cases hi with
      | mk h1 h2 =>
        refine .mk ?_ h2
        intro k
        have hs := h1 k
        have hflat := hl id it List.mem_cons_self k
        generalize it.values.get k = a at hs hflat
        generalize it'.values.get k = b at hs
        cases hs with
        | param hd => exact .param hd
        | milNone hd => exact .milNone hd
        | mil hd ha hx =>
          have he := hflat _ _ rfl
          subst he
          cases ha
          exact .mil hd .nil hx
        | dropped hd => exact .dropped hd
        | unset hd => exact .unset hd
        | new hd hu ho => exact .new hd hu ho

/-! ## The same definition -/

mutual
theorem same_of_adjItem {inner : ListDef → String → ListDef} : {d o : ListDef} → {it it' : Item} → AdjItem inner o d it it' → o = d →
    DeclItem inner d it → SameItem it it'
  | d, o, it, it', .mk h1 h2, ho, .mk g1 g2 g3 => by
    refine .mk ?_ ?_
    · intro k
      exact same_of_adjSlot (h1 k) ho (g1 k) (g3 k)
    · intro k
      have hr := h2 k
      have hdk := g2 k
      subst ho
      generalize it.refs.get k = a at hr hdk
      generalize it'.refs.get k = b at hr
      cases hr with
      | kept _ => rfl
      | dropped hd =>
        cases a with
        | none => rfl
        | some q =>
          obtain ⟨x, hx⟩ := hdk q rfl
          rw [hd] at hx
          cases hx
      | unset _ => rfl
      | new hd ho =>
        rcases hd with hd | hd <;> (rw [hd] at ho; cases ho)
theorem same_of_adjSlot {inner : ListDef → String → ListDef} : {d o : ListDef} → {k : String} → {a b : Option SabVal} →
    AdjSlot inner o d k a b → o = d → (∀ v, a = some v → ∃ dv, d.members.get k = some dv) →
    (∀ l next, a = some (.mil l next) → DeclItems inner (inner d k) l) → SameSlot a b
  | _, _, _, _, _, .param _, _, _, _ => .param
  | _, _, _, _, _, .milNone _, _, _, _ => .milNone
  | _, _, k, _, _, .mil _ ha hx, ho, _, hdecl => .mil (same_of_adjItems ha (ho ▸ rfl) (hdecl _ _ rfl)) hx
  | _, _, _, a, _, .dropped hd, _, hdecl, _ => by
    cases a with
    | none => exact .none
    | some v =>
      obtain ⟨dv, hx⟩ := hdecl v rfl
      rw [hd] at hx
      cases hx
  | _, _, _, _, _, .unset _, _, _, _ => .none
  | _, _, _, _, _, .new hd _ ho, he, _, _ => by
    subst he
    rw [hd] at ho
    cases ho
theorem same_of_adjItems {inner : ListDef → String → ListDef} : {d o : ListDef} → {l l' : List (Nat × Item)} → AdjItems inner o d l l' →
    o = d → DeclItems inner d l → SameItems l l'
  | _, _, _, _, .nil, _, _ => .nil
  | _, _, _, _, .cons hi hr, ho, .cons gi gr => .cons (same_of_adjItem hi ho gi) (same_of_adjItems hr ho gr)
end

end Verif.Core
