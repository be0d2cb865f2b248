import Verif.Spec.Convert
import Verif.Props.Adjust
import Verif.Props.SetGet
import Verif.Props.Split
import Verif.Props.DiffLoaded
/-!
# C94: the conversion of old data
-/
namespace Verif.Core
open Diff

theorem toUndefined_iff (p q : Param) : q = toUndefined p ↔ SameKind p q ∧ IsUndef q := by
  constructor
  · rintro rfl
    cases p <;> exact ⟨by constructor, by simp [IsUndef, toUndefined]⟩
  · rintro ⟨hk, hu⟩
    cases hk <;> simp [IsUndef] at hu <;> rw [hu] <;> rfl

/-- what is stored for a parameter after the conversion -/
theorem adjust_param {new old r : RootObj} {b : Bool} (hw : new.defs.Wf) (hn : new.Fresh) (h : adjustVersions new old b = .ok r) {k : String}
    {p : Param} {vt : VType} (hk : new.defs.get k = some (.param p vt)) :
    (old.defs.get k = none → Undefiable vt → r.sabun.get k = some (.param (toUndefined p))) ∧
    ((old.defs.get k = none → ¬ Undefiable vt) → r.sabun.get k = old.sabun.get k) := by
  obtain ⟨sabun, h1, rfl⟩ := adjustWith_ok h
  have hg := (adjustMembers_get hw h1 k).2.1 p vt hk
  rw [hn k p vt hk] at hg
  refine ⟨fun h2 h3 => ?_, fun h2 => ?_⟩
  · change sabun.get k = _
    rw [hg, if_pos (by simp [h2, (canUndef_iff vt).2 h3])]
  · change sabun.get k = _
    rw [hg, if_neg (by
      intro hc
      simp only [Bool.and_eq_true, canUndef_iff, Option.isNone_iff_eq_none] at hc
      exact h2 hc.2 hc.1)]
    cases old.sabun.get k <;> rfl

theorem adjust_defs {new old r : RootObj} {b : Bool} (h : adjustVersions new old b = .ok r) : r.defs = new.defs := by
  obtain ⟨sabun, h1, rfl⟩ := adjustWith_ok h
  rfl

/-- **C94.** What is read from every parameter of the root after the conversion, for all versions and data: the value that was set,
undefined if the old version did not have the member and the new one allows it, the new default otherwise. -/
theorem C94_read (new old r : RootObj) (b : Bool) (hw : new.defs.Wf) (hn : new.Fresh) (ho : old.Stores) (h : adjustVersions new old b = .ok r)
    (k : String) (p : Param) (vt : VType) (hk : new.defs.get k = some (.param p vt)) (q : Param) :
    getRootParam r k = some q ↔ Converted new old k q := by
  obtain ⟨h1, h2⟩ := adjust_param hw hn h hk
  have hd : r.defs.get k = some (.param p vt) := by rw [adjust_defs h]; exact hk
  unfold getRootParam
  rw [hd]
  by_cases hc : old.defs.get k = none ∧ Undefiable vt
  · rw [h1 hc.1 hc.2]
    constructor
    · rintro ⟨⟩
      exact .undef hk hc.1 hc.2 ((toUndefined_iff p _).1 rfl).1 ((toUndefined_iff p _).1 rfl).2
    · intro hq
      cases hq with
      | kept e1 e2 =>
        obtain ⟨v, hv⟩ := ho k _ e2
        rw [hc.1] at hv
        cases hv
      | undef e1 e2 e3 e4 e5 =>
        rw [hk] at e1
        cases e1
        rw [(toUndefined_iff p q).2 ⟨e4, e5⟩]
      | default e1 e2 e3 =>
        rw [hk] at e1
        cases e1
        exact absurd hc.2 (e3 hc.1)
  · have hc' : old.defs.get k = none → ¬ Undefiable vt := fun a b => hc ⟨a, b⟩
    rw [h2 hc']
    constructor
    · intro hq
      split at hq
      · rename_i q' e
        cases hq
        exact .kept hk e
      · rename_i e
        cases hq
        exact .default hk e hc'
    · intro hq
      cases hq with
      | kept e1 e2 => rw [e2]
      | undef e1 e2 e3 e4 e5 =>
        rw [hk] at e1
        cases e1
        exact absurd ⟨e2, e3⟩ hc
      | default e1 e2 e3 =>
        rw [hk] at e1
        cases e1
        split
        · rename_i q' e
          exact absurd e (e2 q')
        · rfl

/-- **C94 for lists.** A list that the old version did not have is undefined if the new one allows it; a list that was not changed in the old
version is the one of the new source; an undefined list stays undefined. (C18_exact is about the items of changed lists.) -/
theorem C94_list (new old r : RootObj) (b : Bool) (hw : new.defs.Wf) (h : adjustVersions new old b = .ok r)
    (k : String) (d : ListDef) (u : Bool) (hk : new.defs.get k = some (.mlist d u)) :
    (old.defs.get k = none → u = true → r.sabun.get k = some (.list none)) ∧
    ((old.defs.get k = none → u = false) →
      ((∀ l, old.sabun.get k ≠ some (.list l)) → r.sabun.get k = new.sabun.get k) ∧
      (old.sabun.get k = some (.list none) → r.sabun.get k = some (.list none))) := by
  obtain ⟨sabun, h1, rfl⟩ := adjustWith_ok h
  have hg := (adjustMembers_get hw h1 k).2.2.1 d u hk
  change (_ → _ → sabun.get k = _) ∧ (_ → (_ → sabun.get k = _) ∧ (_ → sabun.get k = _))
  refine ⟨fun h2 h3 => ?_, fun h2 => ?_⟩
  · rw [if_pos (by simp [h2, h3])] at hg
    exact hg
  · rw [if_neg (by
      intro hc
      rw [Bool.and_eq_true, Option.isNone_iff_eq_none] at hc
      rw [h2 hc.2] at hc
      exact absurd hc.1 (by simp))] at hg
    refine ⟨fun h3 => ?_, fun h3 => ?_⟩
    · cases hs : old.sabun.get k with
      | none => rw [hs] at hg; exact hg
      | some x =>
        cases x with
        | list l => exact absurd hs (h3 l)
        | param q =>
          rw [hs] at hg
          obtain ⟨y, h4, h5⟩ := hg
          cases h4
          exact h5
    · rw [h3] at hg
      obtain ⟨y, h4, h5⟩ := hg
      cases h4
      exact h5

/-! ## The wrappers of the manual -/

section
variable {f g : Int → Int} {o n n2 : String}

/-- **C94, the first wrapper of the manual.** For data of the first version it returns the old value times ten if there is one, and the new
default otherwise. -/
theorem C94_wrapper (f : Int → Int) (o n n2 : String) (new old r : RootObj) (b : Bool) (d : Int) (hw : new.defs.Wf) (hn : new.Fresh)
    (h : adjustVersions new old b = .ok r) (h1 : Version1 o n n2 old) (h2 : Version2 o n n2 d new) (v : Option Int) (hv : Set old o v) :
    wrapper f o n r = some ((v.map f).getD d) := by
  obtain ⟨⟨d1, a1⟩, a2, _⟩ := h1
  obtain ⟨b1, b2, _⟩ := h2
  have e1 := (adjust_param hw hn h b2).1 a2 (.inl rfl)
  have e2 := (adjust_param hw hn h b1).2 (fun e => by rw [a1] at e; cases e)
  rw [hv] at e2
  have hd := adjust_defs h
  unfold wrapper
  have r1 : getRootParam r n = some (.int .undef) := by unfold getRootParam; rw [e1]; rfl
  have r3 : getRootParamDef r n = some (.int (.val d)) := by unfold getRootParamDef; rw [hd, b2]
  rw [r1]
  cases v with
  | none =>
    have r2 : getRootParam r o = some (.int .null) := by unfold getRootParam; rw [e2, hd, b1]; rfl
    simp only [r2, r3]; rfl
  | some i =>
    have r2 : getRootParam r o = some (.int (.val i)) := by unfold getRootParam; rw [e2]; rfl
    simp only [r2]; rfl

/-- Once the new value is set, the wrapper returns it. -/
theorem C94_wrapper_set (f : Int → Int) (o n n2 : String) (r : RootObj) (d i : Int) (h2 : Version2 o n n2 d r) :
    wrapper f o n (setRoot r n (.int (.val i))).1 = some i := by
  obtain ⟨b1, b2, _⟩ := h2
  have : getRootParam (setRoot r n (.int (.val i))).1 n = some (.int (.val i)) := by
    unfold setRoot
    rw [b2]
    have hv : verifySet (.int (.val d)) .undefiable (.int (.val i)) = none := rfl
    cases hs : r.sabun.get n with
    | none => simp [hv, getRootParam, AMap.get_insert_self]
    | some x => cases x <;> simp [hv, getRootParam, AMap.get_insert_self]
  unfold wrapper
  rw [this]

/-- Data made by the new version has its default. -/
theorem C94_wrapper_new (f : Int → Int) (o n n2 : String) (r : RootObj) (d : Int) (hn : r.Fresh) (h2 : Version2 o n n2 d r) :
    wrapper f o n r = some d := by
  obtain ⟨b1, b2, _⟩ := h2
  have : getRootParam r n = some (.int (.val d)) := by unfold getRootParam; rw [hn _ _ _ b2, b2]
  unfold wrapper
  rw [this]

theorem wrapper2_of {f g : Int → Int} {o n n2 : String} {r : RootObj} {d : Int} (h3 : Version3 o n n2 d r) (v : Option Int)
    (h1 : r.sabun.get n2 = some (.param (.int .undef))) (h2 : r.sabun.get n = some (.param (.int .undef))) (hv : Set r o v) :
    wrapper2 f g o n n2 r = some ((v.map fun i => g (f i)).getD d) := by
  obtain ⟨b1, b2, b3⟩ := h3
  have r1 : getRootParam r n2 = some (.int .undef) := by unfold getRootParam; rw [h1]
  have r2 : getRootParam r n = some (.int .undef) := by unfold getRootParam; rw [h2]
  have r3 : getRootParamDef r n2 = some (.int (.val d)) := by unfold getRootParamDef; rw [b3]
  unfold wrapper2 middle
  rw [r1, r2]
  cases v with
  | none =>
    have r4 : getRootParam r o = some (.int .null) := by unfold getRootParam; rw [hv, b1]; rfl
    simp only [r4, r3]; rfl
  | some i =>
    have r4 : getRootParam r o = some (.int (.val i)) := by unfold getRootParam; rw [hv]; rfl
    simp only [r4]; rfl

/-- **C94, the second wrapper of the manual, for data of the first version.** -/
theorem C94_wrapper2_first (f g : Int → Int) (o n n2 : String) (new old r : RootObj) (b : Bool) (d : Int) (hw : new.defs.Wf) (hn : new.Fresh)
    (h : adjustVersions new old b = .ok r) (h1 : Version1 o n n2 old) (h3 : Version3 o n n2 d new) (v : Option Int) (hv : Set old o v) :
    wrapper2 f g o n n2 r = some ((v.map fun i => g (f i)).getD d) := by
  obtain ⟨⟨d1, a1⟩, a2, a3⟩ := h1
  have h3' := h3
  obtain ⟨b1, b2, b3⟩ := h3
  refine wrapper2_of (by unfold Version3 at *; rw [adjust_defs h]; exact h3') v ((adjust_param hw hn h b3).1 a3 (.inl rfl))
    ((adjust_param hw hn h b2).1 a2 (.inr rfl)) ?_
  unfold Set
  rw [(adjust_param hw hn h b1).2 (fun e => by rw [a1] at e; cases e)]
  exact hv

/-- **The same if the data was saved in the second version in between.** -/
theorem C94_wrapper2_between (f g : Int → Int) (o n n2 : String) (v3 v2 v1 r r' : RootObj) (b b' : Bool) (d d' : Int) (hw2 : v2.defs.Wf)
    (hw3 : v3.defs.Wf) (hn2 : v2.Fresh) (hn3 : v3.Fresh) (h : adjustVersions v2 v1 b = .ok r) (h' : adjustVersions v3 r b' = .ok r')
    (h1 : Version1 o n n2 v1) (h2 : Version2 o n n2 d v2) (h3 : Version3 o n n2 d' v3) (v : Option Int) (hv : Set v1 o v) :
    wrapper2 f g o n n2 r' = some ((v.map fun i => g (f i)).getD d') := by
  obtain ⟨⟨d1, a1⟩, a2, a3⟩ := h1
  obtain ⟨c1, c2, c3⟩ := h2
  have h3' := h3
  obtain ⟨b1, b2, b3⟩ := h3
  have hd := adjust_defs h
  refine wrapper2_of (by unfold Version3 at *; rw [adjust_defs h']; exact h3') v
    ((adjust_param hw3 hn3 h' b3).1 (by rw [hd]; exact c3) (.inl rfl)) ?_ ?_
  · rw [(adjust_param hw3 hn3 h' b2).2 (fun e => by rw [hd, c2] at e; cases e)]
    exact (adjust_param hw2 hn2 h c2).1 a2 (.inl rfl)
  · unfold Set
    rw [(adjust_param hw3 hn3 h' b1).2 (fun e => by rw [hd, c1] at e; cases e),
      (adjust_param hw2 hn2 h c1).2 (fun e => by rw [a1] at e; cases e)]
    exact hv

/-- **For data in which the new value was set in the second version**, it returns that value times three. -/
theorem C94_wrapper2_second (f g : Int → Int) (o n n2 : String) (v3 v2 r' : RootObj) (b' : Bool) (d d' i : Int) (hw3 : v3.defs.Wf) (hn3 : v3.Fresh)
    (h' : adjustVersions v3 v2 b' = .ok r') (h2 : Version2 o n n2 d v2) (h3 : Version3 o n n2 d' v3) (hv : Set v2 n (some i)) :
    wrapper2 f g o n n2 r' = some (g i) := by
  obtain ⟨c1, c2, c3⟩ := h2
  obtain ⟨b1, b2, b3⟩ := h3
  have e1 := (adjust_param hw3 hn3 h' b3).1 c3 (.inl rfl)
  have e2 := (adjust_param hw3 hn3 h' b2).2 (fun e => by rw [c2] at e; cases e)
  rw [hv] at e2
  have r1 : getRootParam r' n2 = some (.int .undef) := by unfold getRootParam; rw [e1]; rfl
  have r2 : getRootParam r' n = some (.int (.val i)) := by unfold getRootParam; rw [e2]; rfl
  unfold wrapper2 middle
  rw [r1, r2]

end

/-! ## Several versions -/

/-- **C94, over a version in between.** The same is read as if the data had been converted at once, for members that the version in between
has if the first one had them, and that may be undefined in both later versions or in none if the first one did not have them. -/
theorem C94_steps_partial (v1 v2 v3 r r3 r' : RootObj) (b b' b'' : Bool) (hw2 : v2.defs.Wf) (hw3 : v3.defs.Wf) (hn2 : v2.Fresh) (hn3 : v3.Fresh)
    (ho : v1.Stores) (ho2 : v2.Stores) (h : adjustVersions v2 v1 b = .ok r) (h3 : adjustVersions v3 r b' = .ok r3) (h' : adjustVersions v3 v1 b'' = .ok r')
    (k : String) (p : Param) (vt : VType) (hk : v3.defs.get k = some (.param p vt))
    (hk2 : (∃ p2 vt2, v2.defs.get k = some (.param p2 vt2) ∧ (v1.defs.get k = none → (Undefiable vt2 ↔ Undefiable vt) ∧ SameKind p2 p)) ∨
      v1.defs.get k = none ∧ v2.defs.get k = none) :
    getRootParam r3 k = getRootParam r' k := by
  have hd := adjust_defs h
  have hd3 := adjust_defs h3
  have hd' := adjust_defs h'
  suffices e : r3.sabun.get k = r'.sabun.get k by
    unfold getRootParam
    rw [e, hd3, hd']
  obtain ⟨e1, e2⟩ := adjust_param hw3 hn3 h3 hk
  obtain ⟨f1, f2⟩ := adjust_param hw3 hn3 h' hk
  have none1 : v1.defs.get k = none → v1.sabun.get k = none := by
    intro hx
    cases hs : v1.sabun.get k with
    | none => rfl
    | some x =>
      obtain ⟨y, hy⟩ := ho k x hs
      rw [hx] at hy
      cases hy
  rcases hk2 with ⟨p2, vt2, g1, g2⟩ | ⟨g1, g2⟩
  · obtain ⟨c1, c2⟩ := adjust_param hw2 hn2 h g1
    rw [e2 (fun e => by rw [hd, g1] at e; cases e)]
    by_cases hx : v1.defs.get k = none
    · obtain ⟨g3, g4⟩ := g2 hx
      by_cases hu : Undefiable vt
      · rw [c1 hx (g3.2 hu), f1 hx hu]
        cases g4 <;> rfl
      · rw [c2 fun _ hu' => hu (g3.1 hu'), f2 fun _ => hu]
    · rw [c2 fun e => absurd e hx, f2 fun e => absurd e hx]
  · by_cases hu : Undefiable vt
    · rw [e1 (by rw [hd]; exact g2) hu, f1 g1 hu]
    · rw [e2 (fun _ => hu), f2 fun _ => hu, none1 g1]
      obtain ⟨sabun, q1, rfl⟩ := adjustWith_ok h
      change sabun.get k = none
      rw [(adjustMembers_get hw2 q1 k).1 g2]
      cases hs : v2.sabun.get k with
      | none => rfl
      | some x =>
        obtain ⟨y, hy⟩ := ho2 k x hs
        rw [g2] at hy
        cases hy

/-! ## Objects from source files -/

/-- What comes from source files that declare each name once is as the theorems need it. -/
theorem C94_loaded (env : Source.Env) (he : env.Sound) (files : List (String × Source.JVal)) (r : Source.Root) (h : Source.loadDir env files = .ok r)
    (l : List Source.Decl) (hl : Source.SourceDecls files l) (hd : Source.Distinct l) :
    r.erase.Fresh ∧ r.erase.Stores ∧ r.erase.defs.Wf := by
  refine ⟨fun k p vt hk => ?_, fun k x hx => ?_, ?_⟩
  · cases hs : r.erase.sabun.get k with
    | none => rfl
    | some s =>
      obtain ⟨id, d, u, m, h1, _⟩ := _root_.Verif.Named.loaded_declared env he files r h l hl hd k s hs
      rw [Source.erase_get, h1] at hk
      cases hk
  · obtain ⟨id, d, u, m, h1, _⟩ := _root_.Verif.Named.loaded_declared env he files r h l hl hd k x hx
    exact ⟨_, by rw [Source.erase_get, h1]; rfl⟩
  · obtain ⟨⟨L⟩, _⟩ := Source.loads env he h
    have := L.wf
    unfold AMap.Wf Source.Root.erase at *
    simpa [List.map_map, Function.comp_def] using this

theorem Stores.insert {r : RootObj} (h : r.Stores) {n : String} (hn : ∃ v, r.defs.get n = some v) (x : RootSab) :
    RootObj.Stores { r with sabun := r.sabun.insert n x } := by
  intro k y hy
  by_cases hk : k = n
  · subst hk; exact hn
  · simp only [AMap.get_insert_ne _ _ hk] at hy
    exact h k y hy

theorem setRoot_stores {r : RootObj} (h : r.Stores) (n : String) (q : Param) : (setRoot r n q).1.Stores := by
  unfold setRoot
  split
  · rename_i p vt hd
    split
    · exact h
    · simp only
      split <;> exact Stores.insert h ⟨_, hd⟩ _
  · exact h

/-- Editing keeps that what is stored is declared. -/
theorem runRoot_stores : ∀ (ops : List Op) {r : RootObj}, r.Stores → (runRoot r ops).Stores
  | [], _, h => h
  | .set n q :: ops, r, h => runRoot_stores ops (setRoot_stores h n q)
  | .initial n len :: ops, r, h => by
    refine runRoot_stores ops ?_
    unfold setInitialRoot
    split
    · exact Stores.insert h ⟨_, ‹_›⟩ _
    · exact h
  | .edit n f :: ops, r, h => by
    refine runRoot_stores ops ?_
    unfold modifyRoot
    split
    · exact Stores.insert h (h _ _ ‹_›) _
    · split
      · exact Stores.insert h ⟨_, ‹_›⟩ _
      · exact h
  | .touch n :: ops, r, h => by
    refine runRoot_stores ops ?_
    unfold touchRoot
    split
    · split
      · exact h
      · exact Stores.insert h ⟨_, ‹_›⟩ _
    · exact h

/-- **C94 from source files.** Data of an old source is edited in any way and converted to a new source. -/
theorem C94_sources_partial (env : Source.Env) (he : env.Sound) (files files' : List (String × Source.JVal)) (old new : Source.Root)
    (h : Source.loadValid env files = .ok old) (h' : Source.loadValid env files' = .ok new)
    (hd : ∀ l, Source.SourceDecls files l → Source.Distinct l) (hd' : ∀ l, Source.SourceDecls files' l → Source.Distinct l)
    (ops : List Op) (b : Bool) (r : RootObj) (hr : adjustVersions new.erase (runRoot old.erase ops) b = .ok r)
    (k : String) (p : Param) (vt : VType) (hk : new.erase.defs.get k = some (.param p vt)) (q : Param) :
    getRootParam r k = some q ↔ Converted new.erase (runRoot old.erase ops) k q := by
  obtain ⟨_, h1, h2⟩ := Source.bind_inv h
  obtain ⟨_, h3, rfl⟩ := Source.map_inv h2
  obtain ⟨_, h1', h2'⟩ := Source.bind_inv h'
  obtain ⟨_, h3', rfl⟩ := Source.map_inv h2'
  obtain ⟨l, hl, _⟩ := Source.C56_declares env he _ _ h1
  obtain ⟨l', hl', _⟩ := Source.C56_declares env he _ _ h1'
  obtain ⟨_, a2, _⟩ := C94_loaded env he _ _ h1 l hl (hd l hl)
  obtain ⟨b1, _, b3⟩ := C94_loaded env he _ _ h1' l' hl' (hd' l' hl')
  exact C94_read _ _ r b b3 b1 (runRoot_stores ops a2) hr k p vt hk q

/-! ## Examples and negations -/

def num (i : Int) : Param := .int (.val i)

/-- the versions of the manual -/
def manual1 : RootObj := { defs := [("oldValue", .param (num 10) .normal)], sabun := [], old := [] }
def manual2 : RootObj :=
  { defs := [("oldValue", .param (.int .null) .nullable), ("newValue", .param (num 100) .undefiable)], sabun := [], old := [] }
def manual3 : RootObj :=
  { defs := [("oldValue", .param (.int .null) .nullable), ("newValue", .param (.int .null) .undefNullable), ("newValue2", .param (num 280) .undefiable)]
    sabun := [], old := [] }

theorem fresh_nil {r : RootObj} (h : r.sabun = []) : r.Fresh := by
  intro k p vt _
  rw [h]
  rfl

example : Version1 "oldValue" "newValue" "newValue2" manual1 ∧ Version2 "oldValue" "newValue" "newValue2" 100 manual2 ∧
    Version3 "oldValue" "newValue" "newValue2" 280 manual3 ∧ manual2.Fresh ∧ manual3.Fresh ∧ manual2.defs.Wf ∧ manual3.defs.Wf ∧
    Set { manual1 with sabun := [("oldValue", .param (num 7))] } "oldValue" (some 7) :=
  ⟨⟨⟨_, rfl⟩, rfl, rfl⟩, ⟨rfl, rfl, rfl⟩, ⟨rfl, rfl, rfl⟩, fresh_nil rfl, fresh_nil rfl, by unfold AMap.Wf; decide, by unfold AMap.Wf; decide, rfl⟩

/-- the wrappers return 70 and 210 for 7 -/
example : ∃ r r3 r', adjustVersions manual2 { manual1 with sabun := [("oldValue", .param (num 7))] } true = .ok r ∧
    wrapper (· * 10) "oldValue" "newValue" r = some 70 ∧ adjustVersions manual3 r true = .ok r3 ∧
    wrapper2 (· * 10) (· * 3) "oldValue" "newValue" "newValue2" r3 = some 210 ∧
    adjustVersions manual3 { manual1 with sabun := [("oldValue", .param (num 7))] } true = .ok r' ∧
    wrapper2 (· * 10) (· * 3) "oldValue" "newValue" "newValue2" r' = some 210 :=
  ⟨_, _, _, rfl, rfl, rfl, rfl, rfl, rfl⟩

/-- the sources of the manual -/
def source1 : List (String × Source.JVal) := [("root", .map [("oldValue", .int 10)])]
def source2 : List (String × Source.JVal) :=
  [("root", .map [("oldValue?", .array [.string "Int", .null]), ("newValue!", .int 100)])]

/-- The value is set to 7 in the old version, and converted. -/
example : (match Source.loadValid Source.idEnv source1, Source.loadValid Source.idEnv source2 with
    | .ok old, .ok new => match adjustVersions new.erase (runRoot old.erase [.set "oldValue" (num 7)]) true with
      | .ok r => wrapper (· * 10) "oldValue" "newValue" r
      | _ => none
    | _, _ => none) = some 70 := by decide +kernel

/-- a version with `a : 0`, one without, and one with `a!` -/
def withA : RootObj := { defs := [("a", .param (num 0) .normal)], sabun := [], old := [] }
def withoutA : RootObj := { defs := [], sabun := [], old := [] }
def undefA : RootObj := { defs := [("a", .param (num 0) .undefiable)], sabun := [], old := [] }

/-- **A member that was removed and declared again.** At once the value is kept; over the version without the member it is lost. -/
theorem C94_negation_removed : ∃ r r3 r', adjustVersions withoutA { withA with sabun := [("a", .param (num 7))] } true = .ok r ∧
    adjustVersions withA r true = .ok r3 ∧ adjustVersions withA { withA with sabun := [("a", .param (num 7))] } true = .ok r' ∧
    getRootParam r3 "a" = some (num 0) ∧ getRootParam r' "a" = some (num 7) :=
  ⟨_, _, _, rfl, rfl, rfl, rfl, rfl⟩

/-- **A member that could be undefined and cannot any more.** The undefined value of the version in between stays. It is accepted by the
validation, and read from a member that is declared as not undefiable, for which the generated accessor panics. -/
theorem C94_negation_undefined : ∃ r r3 r', adjustVersions undefA withoutA true = .ok r ∧ adjustVersions withA r true = .ok r3 ∧
    adjustVersions withA withoutA true = .ok r' ∧ getRootParam r3 "a" = some (.int .undef) ∧ getRootParam r' "a" = some (num 0) :=
  ⟨_, _, _, rfl, rfl, rfl, rfl, rfl⟩

end Verif.Core
