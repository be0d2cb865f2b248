import Verif.Lemmas.DiffRoot
/-! The diff of an object to itself. -/
namespace Verif.Diff
open VarInt Codec Compaction LinkedMap

theorem eq64_self (a : BitVec 64) : eq64 a a = !f64.isNan a.toNat := by
  unfold eq64 Fmt.feq
  simp

theorem eqFloats_self (v : List (BitVec 64)) : eqFloats v v = true ↔ ∀ a ∈ v, f64.isNan a.toNat = false := by
  induction v with
  | nil => simp [eqFloats]
  | cons a v ih => simp [eqFloats, eq64_self, ih]

theorem identEq_self (p : Param) : identEq true p p = true ↔ p.NoNan := by
  cases p with
  | float q => cases q <;> simp [identEq, Qv.identEq, Param.NoNan, eq64_self]
  | floatArray q => cases q <;> simp [identEq, Qv.identEq, Param.NoNan, eqFloats_self]
  | bool q => cases q <;> simp [identEq, Qv.identEq, Param.NoNan]
  | int q => cases q <;> simp [identEq, Qv.identEq, Param.NoNan]
  | string q => cases q <;> simp [identEq, Qv.identEq, Param.NoNan]
  | intArray q => cases q <;> simp [identEq, Qv.identEq, Param.NoNan]
  | binary q => cases q <;> simp [identEq, Qv.identEq, Param.NoNan]

section
variable {S X D : Type}

theorem cell_self {ok : S → X → Prop} {gd : S → X → X → Option D} {nl : S → X → D} {nn : X → Prop}
    (hl : ∀ s x, ok s x → (gd s x x = none ↔ nn x)) {c : Option (Col S)} {f : Option (Cell X)} (hf : CellOk ok c f) :
    (paramDiff true f f = none ∧ listDiff gd nl c f f = none) ↔ CellNoNan nn f := by
  cases f with
  | none => simp [paramDiff, listDiff, CellNoNan]
  | some f =>
    cases f with
    | param p =>
      simp only [paramDiff, listDiff, CellNoNan, and_true]
      rw [← identEq_self]
      cases identEq true p p <;> simp
    | mil m =>
      obtain ⟨s, hs, hx⟩ := hf.tables
      cases m with
      | none => simp [paramDiff, listDiff, CellNoNan, hs]
      | some x =>
        simp only [paramDiff, listDiff, CellNoNan, hs, true_and, Option.map_eq_none_iff]
        exact hl s x (hx x rfl)

theorem refDiff_self (q : Option (Qv String)) : refDiff q q = none := by
  cases q <;> simp [refDiff]

theorem compareItems_self {ok : S → X → Prop} {gd : Ptr → S → X → X → Option D} {nl : S → X → D} {nn : X → Prop}
    (hl : ∀ s x, ok s x → (gd (fun _ => true) s x x = none ↔ nn x)) {tb : Table S} {r : Row X} (hr : RowOk ok tb r) :
    compareItems (fun _ => true) gd nl tb r r = none ↔ ∀ i, CellNoNan nn (entry r.values i) := by
  constructor
  · intro h i
    rcases compareItems_cases (ptr := fun _ => true) (gd := gd) (nl := nl) (tb := tb) (f := r) (t := r) with ⟨_, hp, hls, _⟩ | h'
    · by_cases hi : i < r.values.length
      · exact (cell_self (gd := gd fun _ => true) (nl := nl) hl (hr.2.1 i)).mp ⟨hp i hi, hls i hi⟩
      · rw [entry_ge (Nat.not_lt.mp hi)]; trivial
    · rw [h] at h'; cases h'
  · intro h
    unfold compareItems
    simp only
    rw [if_pos]
    refine ⟨collect_nil.mpr fun i hi => ?_, collect_nil.mpr fun i hi => refDiff_self _, collect_nil.mpr fun i hi => ?_⟩
    · exact ((cell_self (gd := gd fun _ => true) (nl := nl) hl (hr.2.1 i)).mpr (h i)).1
    · exact ((cell_self (gd := gd fun _ => true) (nl := nl) hl (hr.2.1 i)).mpr (h i)).2

theorem creates_old {old : Nat → Bool} {ni : Row X → RowDiff D} {prev : Option Nat} {Q : List (Nat × Row X)}
    (h : ∀ x ∈ Q, old x.1 = true) : creates old ni prev Q = [] := by
  induction Q generalizing prev with
  | nil => rfl
  | cons x Q ih =>
    rw [creates, if_pos (h x (by simp)), ih fun y hy => h y (by simp [hy])]
    rfl

theorem getMListDiff_self {ok : S → X → Prop} {gd : Ptr → S → X → X → Option D} {nl : S → X → D} {nn : X → Prop}
    (hl : ∀ s x, ok s x → (gd (fun _ => true) s x x = none ↔ nn x)) {tb : Table S} {l : SList (Row X)} (h : ListOk ok tb l) :
    getMListDiff (fun _ => true) gd nl tb l l = none ↔ ListNoNan nn l := by
  have hold : ∀ x ∈ l.items, oldItem (fun _ => true) gd nl tb l x = none ↔ ∀ i, CellNoNan nn (entry x.2.values i) := by
    intro x hx
    unfold oldItem
    rw [find_mem h.2.2.1 hx]
    simp only [Option.map_eq_none_iff]
    exact compareItems_self hl (h.2.2.2.2.2.2 x hx)
  unfold getMListDiff ListNoNan
  simp only
  rw [creates_old fun x hx => decide_eq_true (mem_ids hx), List.append_nil]
  constructor
  · intro he x hx
    split at he
    · rename_i h0
      exact (hold x hx).mp (List.filterMap_eq_nil_iff.mp (List.length_eq_zero_iff.mp h0) x hx)
    · cases he
  · intro he
    rw [if_pos]
    exact List.length_eq_zero_iff.mpr (List.filterMap_eq_nil_iff.mpr fun x hx => (hold x hx).mpr (he x hx))

end

theorem getDiffN_self (n : Nat) : ∀ s x, ObjOk n s x → (getDiffN n (fun _ => true) s x x = none ↔ ObjNoNan n x) := by
  induction n with
  | zero => intro s; exact Empty.elim s
  | succ n ih => intro s x h; exact getMListDiff_self ih h

theorem getRootDiff_self {n : Nat} {sch : RootSch n} {a : Root n} (ha : RootOk n sch a) (ho : OptListsUndefined n sch a) :
    getRootDiff n (fun _ => true) sch a a = .ok ⟨[], []⟩ ↔ ∀ i, CellNoNan (ObjNoNan n) (entry a i) := by
  rw [getRootDiff_eq _ ha ha ho ho]
  simp only [Res.ok.injEq, RootDiff.mk.injEq]
  rw [← List.length_eq_zero_iff, ← List.length_eq_zero_iff, collect_nil, collect_nil]
  constructor
  · rintro ⟨h1, h2⟩ i
    by_cases hi : i < a.length
    · exact (cell_self (nl := newListN n) (getDiffN_self n) (ha.2.2.1 i)).mp ⟨h1 i hi, h2 i hi⟩
    · rw [entry_ge (Nat.not_lt.mp hi)]; trivial
  · intro h
    exact ⟨fun i _ => ((cell_self (nl := newListN n) (getDiffN_self n) (ha.2.2.1 i)).mpr (h i)).1,
      fun i _ => ((cell_self (nl := newListN n) (getDiffN_self n) (ha.2.2.1 i)).mpr (h i)).2⟩

/-- Staying as it is is a step. -/
theorem cellStep_refl {S X : Type} {ok : S → X → Prop} {st : X → X → Prop} (hst : ∀ s x, ok s x → st x x) {c : Option (Col S)}
    {f : Option (Cell X)} (hf : CellOk ok c f) : CellStep st f f := by
  cases f with
  | none => rfl
  | some f =>
    cases f with
    | param p => cases p with
      | float q => cases q <;> first | trivial | exact fun _ => rfl
      | floatArray q => cases q <;> first | trivial | exact fun _ => rfl
      | bool q => trivial
      | int q => trivial
      | string q => trivial
      | intArray q => trivial
      | binary q => trivial
    | mil m => cases m with
      | none => trivial
      | some x =>
        obtain ⟨s, _, hx⟩ := hf.tables
        exact hst s x (hx x rfl)

theorem objStep_refl (n : Nat) : ∀ s x, ObjOk n s x → ObjStep n x x := by
  induction n with
  | zero => intro s; exact Empty.elim s
  | succ n ih =>
    intro s l h
    refine ⟨rfl, fun _ => rfl, ?_⟩
    intro x hx y hy he
    have hxy : x = y := List.inj_on_of_nodup_map h.2.2.1 hx hy he
    subst hxy
    exact ⟨fun i => cellStep_refl ih ((h.2.2.2.2.2.2 x hx).2.1 i), fun _ h => h⟩

theorem rootStep_refl {n : Nat} {sch : RootSch n} {a : Root n} (ha : RootOk n sch a) : RootStep n a a :=
  fun i => cellStep_refl (objStep_refl n) (ha.2.2.1 i)

end Verif.Diff
