import Verif.Lemmas.AMap
import Verif.Spec.SetGet
import Verif.Model.Adjust
import Mathlib.Data.List.Induction
/-!
# Assigning and reading members (C20, C21)
-/
namespace Verif.Core
open Diff

/-! ## Types -/

theorem sameKind_iff (p q : Param) : paramAcceptable p q = true ↔ SameKind p q := by
  constructor
  · intro h
    cases p <;> cases q <;> first | constructor | exact absurd h (by simp [paramAcceptable, ptype])
  · intro h
    cases h <;> rfl

theorem isNull_iff (q : Param) : IsNull q ↔ q.qvType = .null := by
  unfold IsNull
  constructor
  · rintro (h | h | h | h | h | h | h) <;> subst h <;> rfl
  · intro h
    rcases q with a | a | a | a | a | a | a <;> cases a <;> simp [Param.qvType, Qv.type] at h ⊢

theorem isUndef_iff (q : Param) : IsUndef q ↔ q.qvType = .undef := by
  unfold IsUndef
  constructor
  · rintro (h | h | h | h | h | h | h) <;> subst h <;> rfl
  · intro h
    rcases q with a | a | a | a | a | a | a <;> cases a <;> simp [Param.qvType, Qv.type] at h ⊢

theorem varAcceptable_iff (vt : VType) (t : QvType) : varAcceptable vt t = true ↔
    (t = .null → vt = .nullable ∨ vt = .undefNullable) ∧ (t = .undef → vt = .undefiable ∨ vt = .undefNullable) := by
  cases vt <;> cases t <;> simp [varAcceptable]

theorem fits_iff (p : Param) (vt : VType) (q : Param) :
    Fits p vt q ↔ paramAcceptable p q = true ∧ varAcceptable vt q.qvType = true := by
  unfold Fits
  rw [sameKind_iff, varAcceptable_iff, isNull_iff, isUndef_iff]

theorem verifySet_none (p : Param) (vt : VType) (q : Param) : verifySet p vt q = none ↔ Fits p vt q := by
  rw [fits_iff]
  unfold verifySet
  cases paramAcceptable p q <;> cases varAcceptable vt q.qvType <;> simp

theorem isZero_iff (len : Nat) (p z : Param) : IsZero len p z ↔ z = toDefaultValue len p := by
  constructor
  · intro h; cases h <;> rfl
  · rintro rfl; cases p <;> constructor

/-! ## C20 -/

/-- How an assignment to a root member that is a declared parameter goes if the value fits. -/
theorem setRoot_fits {r : RootObj} {n : String} {q p : Param} {vt : VType} (hd : r.defs.get n = some (.param p vt))
    (hf : Fits p vt q) : (setRoot r n q).1 = { r with sabun := r.sabun.insert n (.param q) } := by
  unfold setRoot
  simp only [hd, show verifySet p vt q = none from (verifySet_none p vt q).2 hf]
  cases r.sabun.get n with
  | none => rfl
  | some x => cases x <;> rfl

theorem setRoot_refused {r : RootObj} {n : String} {q : Param}
    (h : ¬ ∃ p vt, r.defs.get n = some (.param p vt) ∧ Fits p vt q) :
    (setRoot r n q).1 = r ∧ ∃ e, (setRoot r n q).2 = .error e := by
  unfold setRoot
  cases hd : r.defs.get n with
  | none => exact ⟨rfl, _, rfl⟩
  | some x =>
    cases x with
    | param p vt =>
      cases hv : verifySet p vt q with
      | some e => simp only [hv]; exact ⟨trivial, _, rfl⟩
      | none => exact absurd ⟨p, vt, hd, (verifySet_none p vt q).1 hv⟩ h
    | table _ _ _ => exact ⟨rfl, _, rfl⟩
    | clist _ _ => exact ⟨rfl, _, rfl⟩
    | mlist _ _ => exact ⟨rfl, _, rfl⟩

theorem setItem_fits {d : ListDef} {it : Item} {n : String} {q p : Param} {vt : VType} (hd : d.members.get n = some (.param p vt))
    (hf : Fits p vt q) : (setItem d it n q).1 = .mk (it.values.insert n (.param q)) it.refs := by
  unfold setItem
  simp only [hd, show verifySet p vt q = none from (verifySet_none p vt q).2 hf]
  cases it.values.get n with
  | none => rfl
  | some x => cases x <;> rfl

theorem setItem_refused {d : ListDef} {it : Item} {n : String} {q : Param}
    (h : ¬ ∃ p vt, d.members.get n = some (.param p vt) ∧ Fits p vt q) :
    (setItem d it n q).1 = it ∧ ∃ e, (setItem d it n q).2 = .ok (.error e) := by
  unfold setItem
  cases hd : d.members.get n with
  | none => exact ⟨rfl, _, rfl⟩
  | some x =>
    cases x with
    | param p vt =>
      cases hv : verifySet p vt q with
      | some e => simp only [hv]; exact ⟨trivial, _, rfl⟩
      | none => exact absurd ⟨p, vt, hd, (verifySet_none p vt q).1 hv⟩ h
    | cilDef _ => exact ⟨rfl, _, rfl⟩
    | milDef _ _ => exact ⟨rfl, _, rfl⟩

/-- **C20, root members.** An assignment succeeds exactly if the member is a declared parameter and the value fits it. If it fails the
object is unchanged. If it succeeds, it returns the value that was stored before, the member reads as the new value, and nothing else is
changed.

Partial: no list may be stored where a parameter is declared (`ParamsOk`); see `C20_negation_root`. -/
theorem C20_root_partial (r : RootObj) (hr : r.ParamsOk) (n : String) (q : Param) :
    ((∃ o, (setRoot r n q).2 = .ok o) ↔ ∃ p vt, r.defs.get n = some (.param p vt) ∧ Fits p vt q) ∧
    (∀ e, (setRoot r n q).2 = .error e → (setRoot r n q).1 = r) ∧
    (∀ o, (setRoot r n q).2 = .ok o →
      (∀ old, o = some old ↔ r.sabun.get n = some (.param old)) ∧
      getRootParam (setRoot r n q).1 n = some q ∧
      (setRoot r n q).1.defs = r.defs ∧ (setRoot r n q).1.old = r.old ∧
      ∀ m, m ≠ n → (setRoot r n q).1.sabun.get m = r.sabun.get m ∧
        getRootParam (setRoot r n q).1 m = getRootParam r m) := by
  by_cases h : ∃ p vt, r.defs.get n = some (.param p vt) ∧ Fits p vt q
  · obtain ⟨p, vt, hd, hf⟩ := h
    have h1 := setRoot_fits hd hf
    have h2 : ∃ o, (setRoot r n q).2 = .ok o ∧ ∀ old, o = some old ↔ r.sabun.get n = some (.param old) := by
      unfold setRoot
      simp only [hd, show verifySet p vt q = none from (verifySet_none p vt q).2 hf]
      cases hs : r.sabun.get n with
      | none => exact ⟨none, rfl, fun _ => by simp⟩
      | some x =>
        cases x with
        | param o => exact ⟨some o, rfl, fun _ => by simp⟩
        | list l => exact absurd hs (hr n p vt hd l)
    obtain ⟨o, ho, hold⟩ := h2
    refine ⟨⟨fun _ => ⟨p, vt, hd, hf⟩, fun _ => ⟨o, ho⟩⟩, ?_, ?_⟩
    · intro e he; rw [ho] at he; cases he
    · intro o' ho'
      rw [ho] at ho'
      cases ho'
      refine ⟨hold, ?_, ?_, ?_, ?_⟩
      · rw [h1]; unfold getRootParam; simp only [AMap.get_insert_self]
      · rw [h1]
      · rw [h1]
      · intro m hm
        rw [h1]
        have hg : (r.sabun.insert n (.param q)).get m = r.sabun.get m := AMap.get_insert_ne _ _ hm
        refine ⟨hg, ?_⟩
        unfold getRootParam
        simp only [hg]
  · obtain ⟨h1, e, he⟩ := setRoot_refused h
    refine ⟨⟨fun ⟨o, ho⟩ => ?_, fun h' => absurd h' h⟩, fun _ _ => h1, fun o ho => ?_⟩
    · rw [he] at ho; cases ho
    · rw [he] at ho; cases ho

/-- **C20, members of list items.** As `C20_root_partial`; the call does not panic.

Partial: no list may be stored where a parameter is declared; see `C20_negation_item`. -/
theorem C20_item_partial (d : ListDef) (it : Item) (hr : it.ParamsOk d) (n : String) (q : Param) :
    (∃ a, (setItem d it n q).2 = .ok a) ∧
    ((∃ o, (setItem d it n q).2 = .ok (.ok o)) ↔ ∃ p vt, d.members.get n = some (.param p vt) ∧ Fits p vt q) ∧
    (∀ e, (setItem d it n q).2 = .ok (.error e) → (setItem d it n q).1 = it) ∧
    (∀ o, (setItem d it n q).2 = .ok (.ok o) →
      (∀ old, o = some old ↔ it.values.get n = some (.param old)) ∧
      getItemParam d (setItem d it n q).1 n = some q ∧
      (setItem d it n q).1.refs = it.refs ∧
      ∀ m, m ≠ n → (setItem d it n q).1.values.get m = it.values.get m ∧
        getItemParam d (setItem d it n q).1 m = getItemParam d it m) := by
  by_cases h : ∃ p vt, d.members.get n = some (.param p vt) ∧ Fits p vt q
  · obtain ⟨p, vt, hd, hf⟩ := h
    have h1 := setItem_fits (it := it) hd hf
    have h2 : ∃ o, (setItem d it n q).2 = .ok (.ok o) ∧ ∀ old, o = some old ↔ it.values.get n = some (.param old) := by
      unfold setItem
      simp only [hd, show verifySet p vt q = none from (verifySet_none p vt q).2 hf]
      cases hs : it.values.get n with
      | none => exact ⟨none, rfl, fun _ => by simp⟩
      | some x =>
        obtain ⟨o, rfl⟩ := hr n p vt hd x hs
        exact ⟨some o, rfl, fun _ => by simp⟩
    obtain ⟨o, ho, hold⟩ := h2
    refine ⟨⟨_, ho⟩, ⟨fun _ => ⟨p, vt, hd, hf⟩, fun _ => ⟨o, ho⟩⟩, ?_, ?_⟩
    · intro e he; rw [ho] at he; cases he
    · intro o' ho'
      rw [ho] at ho'
      cases ho'
      refine ⟨hold, ?_, ?_, ?_⟩
      · rw [h1]; unfold getItemParam; simp only [Item.values, AMap.get_insert_self]
      · rw [h1]; rfl
      · intro m hm
        rw [h1]
        have hg : (it.values.insert n (.param q)).get m = it.values.get m := AMap.get_insert_ne _ _ hm
        refine ⟨hg, ?_⟩
        unfold getItemParam
        rw [show (Item.mk (it.values.insert n (.param q)) it.refs).values = it.values.insert n (.param q) from rfl, hg]
  · obtain ⟨h1, e, he⟩ := setItem_refused (it := it) h
    refine ⟨⟨_, he⟩, ⟨fun ⟨o, ho⟩ => ?_, fun h' => absurd h' h⟩, fun _ _ => h1, fun o ho => ?_⟩
    · rw [he] at ho; cases ho
    · rw [he] at ho; cases ho

/-! ### Examples and counterexamples -/

/-- an object with a nullable integer and a string -/
def demoRoot : RootObj :=
  { defs := [("n", .param (.int (.val 3)) .nullable), ("s", .param (.string (.val "a")) .normal),
      ("l", .mlist (.mk [("v", .param (.int (.val 0)) .normal)] ⟨[], false, []⟩ []) false)]
    sabun := [("s", .param (.string (.val "b")))]
    old := [] }

theorem demoRoot_ok : demoRoot.ParamsOk := by
  intro k p vt hd l hl
  have := AMap.mem_of_get hl
  simp [demoRoot] at this

/-- null is taken by the nullable integer and refused by the string; a string is refused by the integer -/
example : (∃ o, (setRoot demoRoot "n" (.int .null)).2 = .ok o) ∧ (setRoot demoRoot "s" (.string .null)).2 = .error .qvMismatch ∧
    (setRoot demoRoot "n" (.string (.val "x"))).2 = .error .typeMismatch ∧ (setRoot demoRoot "m" (.int .null)).2 = .error .notFound ∧
    (setRoot demoRoot "l" (.int .null)).2 = .error .notFound ∧
    (setRoot demoRoot "s" (.string (.val "c"))).2 = .ok (some (.string (.val "b"))) := ⟨⟨none, rfl⟩, rfl, rfl, rfl, rfl, rfl⟩

/-- the version in which the member `x` is a list -/
def listVersion : RootObj :=
  { defs := [("x", .mlist (.mk [] ⟨[], false, []⟩ []) false)], sabun := [("x", .list (some ([], 0)))], old := [] }
/-- the version in which it is an integer -/
def intVersion : RootObj := { defs := [("x", .param (.int (.val 0)) .normal)], sabun := [], old := [] }

/-- **C20 does not hold for all objects, root members.** Adjusting to a version (without validation) in which a list became an integer
keeps the list; then assigning an integer fails, but the object is changed: the member reads as the new value. -/
theorem C20_negation_root : ∃ r, adjustVersions intVersion listVersion false = .ok r ∧
    (setRoot r "x" (.int (.val 7))).2 = .error .notFound ∧
    getRootParam r "x" = some (.int (.val 0)) ∧ getRootParam (setRoot r "x" (.int (.val 7))).1 "x" = some (.int (.val 7)) :=
  ⟨_, rfl, rfl, rfl, rfl⟩

/-- lists of items in which `x` is a list, and an integer -/
def itemListVersion : RootObj :=
  { defs := [("l", .mlist (.mk [("x", .milDef (.mk [] ⟨[], false, []⟩ []) false)] ⟨[], false, []⟩ []) false)]
    sabun := [("l", .list (some ([(0, .mk [("x", .mil [] 0)] [])], 1)))], old := [] }
def itemIntDef : ListDef := .mk [("x", .param (.int (.val 0)) .normal)] ⟨[], false, []⟩ []
def itemIntVersion : RootObj := { defs := [("l", .mlist itemIntDef false)], sabun := [], old := [] }

/-- **C20 does not hold for all objects, list items.** The same in a list item: assigning panics. -/
theorem C20_negation_item : ∃ r it id next, adjustVersions itemIntVersion itemListVersion false = .ok r ∧
    r.sabun.get "l" = some (.list (some ([(id, it)], next))) ∧ (setItem itemIntDef it "x" (.int (.val 7))).2 = .panic :=
  ⟨_, _, _, _, rfl, rfl, rfl⟩

/-- **C20 does not hold for references.** `set_ref` accepts every table name, declared or not, and null for references that are not
nullable. -/
theorem C20_negation_ref (d : ListDef) (it : Item) (table : String) (id : Qv String) :
    (setRef it table id).2 = true ∧ getRefId d (setRef it table id).1 table = some id := by
  refine ⟨rfl, ?_⟩
  unfold getRefId setRef
  simp only [Item.refs, AMap.get_insert_self]

/-- What does hold for references: the new one is read, and no value and no other reference is changed. -/
theorem C20_ref_partial (d : ListDef) (it : Item) (table : String) (id : Qv String) :
    getRefId d (setRef it table id).1 table = some id ∧ (setRef it table id).1.values = it.values ∧
    ∀ t, t ≠ table → getRefId d (setRef it table id).1 t = getRefId d it t := by
  refine ⟨(C20_negation_ref d it table id).2, rfl, ?_⟩
  intro t ht
  unfold getRefId setRef
  simp only [Item.refs]
  rw [AMap.get_insert_ne _ _ ht]

/-- `set_enum` leaves exactly the reference that was set. -/
theorem C20_enum (it : Item) (table id : String) :
    (setEnum it table id).1.refs = [(table, .val id)] ∧ getEnum (setEnum it table id).1 = some (table, id) ∧
    (setEnum it table id).1.values = it.values := ⟨rfl, rfl, rfl⟩

/-! ## C21 -/

theorem runRoot_append (r : RootObj) (a b : List Op) : runRoot r (a ++ b) = runRoot (runRoot r a) b := by
  induction a generalizing r with
  | nil => rfl
  | cons op a ih => cases op <;> exact ih _

theorem runItem_append (d : ListDef) (it : Item) (a b : List Op) : runItem d it (a ++ b) = runItem d (runItem d it a) b := by
  induction a generalizing it with
  | nil => rfl
  | cons op a ih => cases op <;> exact ih _

theorem modifyRoot_eq (r : RootObj) (n : String) (f : Param → Param) :
    modifyRoot r n f = (getRootParam r n).map fun p => { r with sabun := r.sabun.insert n (.param (f p)) } := by
  unfold modifyRoot getRootParam
  cases r.sabun.get n with
  | none => cases r.defs.get n with
    | none => rfl
    | some x => cases x <;> rfl
  | some x => cases x with
    | param p => rfl
    | list l => cases r.defs.get n with
      | none => rfl
      | some x => cases x <;> rfl

theorem modifyItem_eq (d : ListDef) (it : Item) (n : String) (f : Param → Param) :
    modifyItem d it n f = (getItemParam d it n).map fun p => .mk (it.values.insert n (.param (f p))) it.refs := by
  unfold modifyItem getItemParam
  cases it.values.get n with
  | none => cases d.members.get n with
    | none => rfl
    | some x => cases x <;> rfl
  | some x => cases x with
    | param p => rfl
    | _ => cases d.members.get n with
      | none => rfl
      | some x => cases x <;> rfl

/-- A change never touches the definitions. -/
theorem runRoot_defs (r : RootObj) (ops : List Op) : (runRoot r ops).defs = r.defs := by
  induction ops generalizing r with
  | nil => rfl
  | cons op ops ih =>
    cases op with
    | set n q =>
      unfold runRoot; rw [ih]
      by_cases h : ∃ p vt, r.defs.get n = some (.param p vt) ∧ Fits p vt q
      · obtain ⟨p, vt, hd, hf⟩ := h; rw [setRoot_fits hd hf]
      · rw [(setRoot_refused h).1]
    | initial n len =>
      unfold runRoot; rw [ih]; unfold setInitialRoot
      cases r.defs.get n with
      | none => rfl
      | some x => cases x <;> rfl
    | edit n f =>
      unfold runRoot; rw [ih, modifyRoot_eq]
      cases getRootParam r n <;> rfl
    | touch n =>
      unfold runRoot; rw [ih]; unfold touchRoot
      cases r.defs.get n with
      | none => rfl
      | some x => cases x with
        | mlist d u => cases r.sabun.get n with
          | none => rfl
          | some y => cases y with
            | param _ => rfl
            | list l => cases l <;> rfl
        | _ => rfl

/-- A change of one member leaves what is stored for the others. -/
theorem stepRoot_other (r : RootObj) (op : Op) (n : String) (h : op.name ≠ n) : (runRoot r [op]).sabun.get n = r.sabun.get n := by
  have hn : n ≠ op.name := fun e => h e.symm
  cases op with
  | set m q =>
    change (setRoot r m q).1.sabun.get n = _
    by_cases h' : ∃ p vt, r.defs.get m = some (.param p vt) ∧ Fits p vt q
    · obtain ⟨p, vt, hd, hf⟩ := h'; rw [setRoot_fits hd hf]; exact AMap.get_insert_ne _ _ hn
    · rw [(setRoot_refused h').1]
  | initial m len =>
    change (setInitialRoot r m len).1.sabun.get n = _
    unfold setInitialRoot
    cases r.defs.get m with
    | none => rfl
    | some x => cases x <;> first | rfl | exact AMap.get_insert_ne _ _ hn
  | edit m f =>
    change ((modifyRoot r m f).getD r).sabun.get n = _
    rw [modifyRoot_eq]
    cases getRootParam r m with
    | none => rfl
    | some p => exact AMap.get_insert_ne _ _ hn
  | touch m =>
    change ((touchRoot r m).getD r).sabun.get n = _
    unfold touchRoot
    cases r.defs.get m with
    | none => rfl
    | some x => cases x with
      | mlist d u => cases r.sabun.get m with
        | none => exact AMap.get_insert_ne _ _ hn
        | some y => cases y with
          | param _ => exact AMap.get_insert_ne _ _ hn
          | list l => cases l with
            | none => exact AMap.get_insert_ne _ _ hn
            | some _ => rfl
      | _ => rfl

theorem stepItem_other (d : ListDef) (it : Item) (op : Op) (n : String) (h : op.name ≠ n) :
    (runItem d it [op]).values.get n = it.values.get n := by
  have hn : n ≠ op.name := fun e => h e.symm
  cases op with
  | set m q =>
    change (setItem d it m q).1.values.get n = _
    by_cases h' : ∃ p vt, d.members.get m = some (.param p vt) ∧ Fits p vt q
    · obtain ⟨p, vt, hd, hf⟩ := h'; rw [setItem_fits hd hf]; exact AMap.get_insert_ne _ _ hn
    · rw [(setItem_refused h').1]
  | initial m len =>
    change (setInitialItem d it m len).1.values.get n = _
    unfold setInitialItem
    cases d.members.get m with
    | none => rfl
    | some x => cases x <;> first | rfl | exact AMap.get_insert_ne _ _ hn
  | edit m f =>
    change ((modifyItem d it m f).getD it).values.get n = _
    rw [modifyItem_eq]
    cases getItemParam d it m with
    | none => rfl
    | some p => exact AMap.get_insert_ne _ _ hn
  | touch m =>
    change ((touchMil d it m).getD it).values.get n = _
    unfold touchMil
    cases d.members.get m with
    | none => rfl
    | some x => cases x with
      | milDef _ _ => cases it.values.get m with
        | none => exact AMap.get_insert_ne _ _ hn
        | some y => cases y <;> first | rfl | exact AMap.get_insert_ne _ _ hn
      | _ => rfl

/-- For every history there is exactly one last assigned value (or none). -/
theorem last_exists (n : String) (p : Param) (vt : VType) (ops : List Op) : ∃ v, Last n p vt ops v := by
  induction ops using List.reverseRec with
  | nil => exact ⟨none, .start⟩
  | append_singleton ops op ih =>
    obtain ⟨v, hv⟩ := ih
    by_cases h : op.name = n
    · subst h
      cases op with
      | set m q =>
        by_cases hf : Fits p vt q
        · exact ⟨_, .set hv hf⟩
        · exact ⟨_, .refused hv hf⟩
      | initial m len => exact ⟨_, .initial hv ((isZero_iff len p _).2 rfl)⟩
      | edit m f => exact ⟨_, .edit hv⟩
      | touch m => exact ⟨_, .touch hv⟩
    · exact ⟨v, .other hv h⟩

/-- **C21, root members.** After every history of changes of an object in which nothing was stored for a declared parameter, reading it
returns the last assigned value, or its default if none was assigned. -/
theorem C21_root (r : RootObj) (n : String) (p : Param) (vt : VType) (hd : r.defs.get n = some (.param p vt))
    (h0 : r.sabun.get n = none) (ops : List Op) :
    (∃ v, Last n p vt ops v) ∧ ∀ v, Last n p vt ops v → getRootParam (runRoot r ops) n = some (v.getD p) := by
  refine ⟨last_exists n p vt ops, ?_⟩
  intro v hv
  suffices h : (runRoot r ops).sabun.get n = v.map .param by
    unfold getRootParam
    rw [h, runRoot_defs, hd]
    cases v <;> rfl
  have hdef : ∀ ops, (runRoot r ops).defs.get n = some (.param p vt) := fun ops => by rw [runRoot_defs, hd]
  have hget : ∀ ops (v : Option Param), (runRoot r ops).sabun.get n = v.map .param → getRootParam (runRoot r ops) n = some (v.getD p) := by
    intro ops v h
    unfold getRootParam
    rw [h, hdef]
    cases v <;> rfl
  induction hv with
  | start => exact h0
  | other _ hne ih => rw [runRoot_append, stepRoot_other _ _ _ hne, ih]
  | @set ops _ q _ hf ih =>
    rw [runRoot_append]
    change (setRoot _ n q).1.sabun.get n = _
    rw [setRoot_fits (hdef ops) hf]
    exact AMap.get_insert_self _ _ _
  | @refused ops _ q _ hf ih =>
    rw [runRoot_append]
    change (setRoot _ n q).1.sabun.get n = _
    rw [(setRoot_refused (r := runRoot r ops) (n := n) (q := q) ?_).1, ih]
    rintro ⟨p', vt', hd', hf'⟩
    rw [hdef ops] at hd'
    cases hd'
    exact hf hf'
  | @initial ops _ len z _ hz ih =>
    rw [runRoot_append]
    change (setInitialRoot _ n len).1.sabun.get n = _
    unfold setInitialRoot
    rw [hdef ops, (isZero_iff len p z).1 hz]
    exact AMap.get_insert_self _ _ _
  | @edit ops v f _ ih =>
    rw [runRoot_append]
    change ((modifyRoot _ n f).getD _).sabun.get n = _
    rw [modifyRoot_eq, hget ops v ih]
    exact AMap.get_insert_self _ _ _
  | @touch ops v _ ih =>
    rw [runRoot_append]
    change ((touchRoot _ n).getD _).sabun.get n = _
    unfold touchRoot
    rw [hdef ops]
    exact ih

/-- **C21, members of list items.** The same for the items of lists. -/
theorem C21_item (d : ListDef) (it : Item) (n : String) (p : Param) (vt : VType) (hd : d.members.get n = some (.param p vt))
    (h0 : it.values.get n = none) (ops : List Op) :
    (∃ v, Last n p vt ops v) ∧ ∀ v, Last n p vt ops v → getItemParam d (runItem d it ops) n = some (v.getD p) := by
  refine ⟨last_exists n p vt ops, ?_⟩
  intro v hv
  suffices h : (runItem d it ops).values.get n = v.map .param by
    unfold getItemParam
    rw [h, hd]
    cases v <;> rfl
  have hget : ∀ ops (v : Option Param), (runItem d it ops).values.get n = v.map .param →
      getItemParam d (runItem d it ops) n = some (v.getD p) := by
    intro ops v h
    unfold getItemParam
    rw [h, hd]
    cases v <;> rfl
  induction hv with
  | start => exact h0
  | other _ hne ih => rw [runItem_append, stepItem_other _ _ _ _ hne, ih]
  | @set ops _ q _ hf ih =>
    rw [runItem_append]
    change (setItem _ _ n q).1.values.get n = _
    rw [setItem_fits hd hf]
    exact AMap.get_insert_self _ _ _
  | @refused ops _ q _ hf ih =>
    rw [runItem_append]
    change (setItem _ _ n q).1.values.get n = _
    rw [(setItem_refused (d := d) (it := runItem d it ops) (n := n) (q := q) ?_).1, ih]
    rintro ⟨p', vt', hd', hf'⟩
    rw [hd] at hd'
    cases hd'
    exact hf hf'
  | @initial ops _ len z _ hz ih =>
    rw [runItem_append]
    change (setInitialItem _ _ n len).1.values.get n = _
    unfold setInitialItem
    rw [hd, (isZero_iff len p z).1 hz]
    exact AMap.get_insert_self _ _ _
  | @edit ops v f _ ih =>
    rw [runItem_append]
    change ((modifyItem _ _ n f).getD _).values.get n = _
    rw [modifyItem_eq, hget ops v ih]
    exact AMap.get_insert_self _ _ _
  | @touch ops v _ ih =>
    rw [runItem_append]
    change ((touchMil _ _ n).getD _).values.get n = _
    unfold touchMil
    rw [hd]
    exact ih

/-- The default itself is what the source declares, whatever was assigned (`get_*_def`). -/
theorem C21_default (r : RootObj) (n : String) (p : Param) (vt : VType) (hd : r.defs.get n = some (.param p vt)) (ops : List Op) :
    getRootParamDef (runRoot r ops) n = some p := by
  unfold getRootParamDef
  rw [runRoot_defs, hd]

/-- There is a default exactly for the parameters that the source declares: lists and unknown names have none. -/
theorem C21_default_iff (r : RootObj) (n : String) (p : Param) (ops : List Op) :
    getRootParamDef (runRoot r ops) n = some p ↔ ∃ vt, r.defs.get n = some (.param p vt) := by
  unfold getRootParamDef
  rw [runRoot_defs]
  split
  · rename_i q vt h
    rw [h]
    simp
  · rename_i h
    constructor
    · intro h'; cases h'
    · rintro ⟨vt, h'⟩; exact absurd h' (h p vt)

/-- A member that nothing is assigned to keeps its value, whatever is assigned to others; without a stored value it has none unless it is a
declared parameter. -/
theorem C21_untouched (r : RootObj) (n : String) (ops : List Op) (h : ∀ op ∈ ops, op.name ≠ n) :
    getRootParam (runRoot r ops) n = getRootParam r n := by
  induction ops generalizing r with
  | nil => rfl
  | cons op ops ih =>
    rw [show op :: ops = [op] ++ ops from rfl, runRoot_append, ih _ fun o ho => h o (List.mem_cons_of_mem _ ho)]
    unfold getRootParam
    rw [stepRoot_other _ _ _ (h op List.mem_cons_self), runRoot_defs]

/-- a history: the integer is set to null, a string is refused, the string is edited -/
example : Last "n" (.int (.val 3)) .nullable
    ([] ++ [Op.set "n" (.int .null)] ++ [Op.set "n" (.string (.val "x"))] ++ [Op.edit "s" id]) (some (.int .null)) :=
  .other (.refused (.set .start ((fits_iff _ _ _).2 ⟨rfl, rfl⟩)) fun h => nomatch ((fits_iff _ _ _).1 h).1)
    (by decide)

example : demoRoot.defs.get "n" = some (.param (.int (.val 3)) .nullable) ∧ demoRoot.sabun.get "n" = none := ⟨rfl, rfl⟩

/-! ## Each member is stored at most once -/

theorem stepRoot_wf (r : RootObj) (op : Op) (h : r.sabun.Wf) : (runRoot r [op]).sabun.Wf := by
  cases op with
  | set n q =>
    simp only [runRoot]
    unfold setRoot
    split
    · split
      · exact h
      · split <;> exact AMap.Wf.insert h _ _
    · exact h
  | initial n len =>
    simp only [runRoot]
    unfold setInitialRoot
    split
    · exact AMap.Wf.insert h _ _
    · exact h
  | edit n f =>
    simp only [runRoot]
    unfold modifyRoot
    split
    · exact AMap.Wf.insert h _ _
    · split
      · exact AMap.Wf.insert h _ _
      · exact h
  | touch n =>
    simp only [runRoot]
    unfold touchRoot
    split
    · split
      · exact h
      · exact AMap.Wf.insert h _ _
    · exact h

/-- Whatever is assigned, each member of an object is stored at most once. -/
theorem C20_distinct_root (r : RootObj) (ops : List Op) (h : r.sabun.Wf) : (runRoot r ops).sabun.Wf := by
  induction ops generalizing r with
  | nil => exact h
  | cons op ops ih => rw [show op :: ops = [op] ++ ops from rfl, runRoot_append]; exact ih _ (stepRoot_wf r op h)

theorem stepItem_wf (d : ListDef) (it : Item) (op : Op) (h : it.values.Wf) : (runItem d it [op]).values.Wf := by
  cases op with
  | set n q =>
    simp only [runItem]
    unfold setItem
    split
    · split
      · exact h
      · split <;> exact AMap.Wf.insert h _ _
    · exact h
  | initial n len =>
    simp only [runItem]
    unfold setInitialItem
    split
    · exact AMap.Wf.insert h _ _
    · exact h
  | edit n f =>
    simp only [runItem]
    unfold modifyItem
    split
    · exact AMap.Wf.insert h _ _
    · split
      · exact AMap.Wf.insert h _ _
      · exact h
  | touch n =>
    simp only [runItem]
    unfold touchMil
    split
    · split
      · exact h
      · exact AMap.Wf.insert h _ _
    · exact h

/-- The same for an item. -/
theorem C20_distinct_item (d : ListDef) (it : Item) (ops : List Op) (h : it.values.Wf) : (runItem d it ops).values.Wf := by
  induction ops generalizing it with
  | nil => exact h
  | cons op ops ih => rw [show op :: ops = [op] ++ ops from rfl, runItem_append]; exact ih _ (stepItem_wf d it op h)

/-- The same for the references of an item. -/
theorem C20_distinct_refs (it : Item) (t : String) (id : Qv String) (h : it.refs.Wf) : (setRef it t id).1.refs.Wf :=
  AMap.Wf.insert h _ _

example : AMap.Wf (runRoot demoRoot [.set "n" (.int .null), .set "n" (.int (.val 4))]).sabun :=
  C20_distinct_root _ _ (by simp [AMap.Wf, demoRoot])

end Verif.Core
