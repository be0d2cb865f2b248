import Verif.Lemmas.DiffLegible
import Verif.Lemmas.DiffSelf
/-!
# Properties of diffs (C08 – C13)
-/
namespace Verif.Diff
open VarInt Codec Compaction LinkedMap

/-! ## C08 -/

/-- C08: the ids of changed parameters and lists, and of changed references, are stored, written, read back and visited by
the reading loops exactly as they were, whichever representation is chosen. -/
theorem C08_ids_roundtrip (P L : List Nat) (hP : Keys P) (hL : Keys L) (hd : ∀ i ∈ P, i ∉ L) (hlen : P.length + L.length < 2 ^ 64) :
    (∃ bytes, encodeVals (writeStoredIds (storeIds P L)) = .ok bytes ∧ (bytes.length < 2 ^ 60 → ∃ vals,
      decodeVals bytes = .ok (vals, []) ∧ readStoredIds vals = .ok (storeIds P L, []))) ∧
    (storeIds P L).ids.Nodup ∧ (∀ i, i ∈ (storeIds P L).ids ↔ i ∈ P ∨ i ∈ L) ∧
    (L = [] → (storeIds P L).ids = P ∧ storeIdsRef P = storeIds P []) ∧
    (∀ b, storeIds P L = .u64 b → ∀ (α : Type) (f : Nat → Rd KVal (Option α)), readWord b 0 f = readNumbers f (storeIds P L).ids) ∧
    (∀ v, storeIds P L = .bits v → ∀ (α : Type) (f : Nat → Rd KVal (Option α)),
      readWords64 f v 0 = readNumbers f (storeIds P L).ids) ∧
    (∀ v, storeIds P L = .numbers v → v = (storeIds P L).ids) := by
  have hspec := storeIds_spec P L hP hL hd hlen
  refine ⟨?_, hspec.2.2.1, hspec.2.1, ?_, ?_, ?_, ?_⟩
  · have hg : Good (.ok (writeStoredIds (storeIds P L))) readStoredIds true (storeIds P L) := by
      refine ⟨_, rfl, valid_writeStoredIds _ hspec.1, ?_⟩
      rw [norm_writeStoredIds]
      exact fun rest => read_writeStoredIds _ hspec.1 rest
    obtain ⟨bytes, h1, h2⟩ := good_bytes hg
    exact ⟨bytes, h1, fun hl => by simpa using h2 hl⟩
  · rintro rfl
    refine ⟨?_, storeIdsRef_eq P⟩
    have := filter_ids_params P [] hP hL hd hlen (fun _ => true) (fun _ _ => rfl) (fun i hi => nomatch hi)
    rwa [List.filter_eq_self.mpr (fun _ _ => rfl)] at this
  · intro b hb α f; rw [hb]; exact readWord_spec b 0 f
  · intro v hv α f; rw [hv]; exact readWords64_spec f v 0
  · intro v hv; rw [hv]; rfl

example : Keys [0, 5, 64, 700] ∧ Keys [3, 65] ∧ (∀ i ∈ [0, 5, 64, 700], i ∉ [3, 65]) ∧
    (∃ v, storeIds [0, 5, 64] [3, 65] = .bits v) ∧ (∃ b, storeIds [0, 5] [3] = .u64 b) ∧
    (∃ v, storeIds [700] [3] = .numbers v) ∧ (storeIds [0, 5, 64] [3, 65]).ids = [0, 3, 5, 64, 65] :=
  ⟨⟨by decide, by decide⟩, ⟨by decide, by decide⟩, by decide, ⟨_, rfl⟩, ⟨_, rfl⟩, ⟨_, rfl⟩, by decide⟩

/-! ## C13 -/

/-- C13, what does hold (partial): for every two objects of a definition, where no list of the root object that may be
undefined is defined, a diff is computed and written, and reading it gives the same diff if `rootReadable`, an error otherwise.
Missing: diffs that are not `rootReadable` cannot be read (`C13_negation`), and defined lists of that kind make `get_diff`
panic (`C13_get_diff_panics`). -/
theorem C13_written_diff_readable_partial (F : FloatOps) (n : Nat) (ptr : Ptr) (sch : RootSch n) (f t : Root n)
    (hf : RootOk n sch f) (ht : RootOk n sch t) (hof : OptListsUndefined n sch f) (hot : OptListsUndefined n sch t) :
    ∃ d bytes, getRootDiff n ptr sch f t = .ok d ∧ getDiff F n ptr sch f t = .ok bytes ∧
      (bytes.length < 2 ^ 60 → ∃ vals, decodeVals bytes = .ok (vals, []) ∧
        readRoot F n sch vals = if rootReadable n d then .ok (d, []) else .err) := by
  have hd := getRootDiff_eq ptr hf ht hof hot
  obtain ⟨bytes, h1, h2⟩ := good_bytes (good_root F n sch _ (getRootDiff_ok hf ht hof hot hd))
  refine ⟨_, bytes, hd, ?_, h2⟩
  unfold getDiff getKvals
  rw [hd, Res.bind_ok]
  exact h1

/-- C13 for definitions whose lists inside of lists have ids below 11, with members beside them below 22 (so, always with at most 11
members, and without lists inside): every diff is readable. -/
theorem C13_small_definitions (F : FloatOps) (n : Nat) (ptr : Ptr) (sch : RootSch n) (f t : Root n)
    (hs : ∀ i s, entry sch i = some (.mlist s) ∨ entry sch i = some (.optMil s) → LegibleTables n s)
    (hf : RootOk n sch f) (ht : RootOk n sch t) (hof : OptListsUndefined n sch f) (hot : OptListsUndefined n sch t) :
    ∃ d bytes, getRootDiff n ptr sch f t = .ok d ∧ getDiff F n ptr sch f t = .ok bytes ∧
      (bytes.length < 2 ^ 60 → ∃ vals, decodeVals bytes = .ok (vals, []) ∧ readRoot F n sch vals = .ok (d, [])) := by
  obtain ⟨d, bytes, h1, h2, h3⟩ := C13_written_diff_readable_partial F n ptr sch f t hf ht hof hot
  refine ⟨d, bytes, h1, h2, fun hl => ?_⟩
  obtain ⟨vals, h4, h5⟩ := h3 hl
  rw [if_pos (rootReadable_of_legible hs (getRootDiff_ok hf ht hof hot h1))] at h5
  exact ⟨vals, h4, h5⟩

/-- C13, exactly for which definitions every diff can be read: those in which lists inside of lists have ids below 11 and the members
beside them ids below 22. So at most 11 members are always fine, and lists without lists inside, whatever their size. -/
theorem C13_exact_definitions (n : Nat) (ptr : Ptr) (sch : RootSch n) (hlen : sch.length < 2 ^ 62)
    (hf : ∀ i s, entry sch i = some (.mlist s) ∨ entry sch i = some (.optMil s) → TablesFit n s) :
    (∀ f t d, RootOk n sch f → RootOk n sch t → OptListsUndefined n sch f → OptListsUndefined n sch t →
      getRootDiff n ptr sch f t = .ok d → rootReadable n d = true) ↔ ∀ i s, entry sch i = some (.mlist s) → LegibleTables n s := by
  constructor
  · intro h i s hi
    refine Classical.byContradiction fun hn => ?_
    obtain ⟨f, t, d, h1, h2, h3, h4, h5, h6⟩ := illegible_root ptr hlen hf hi hn
    rw [h f t d h1 h2 h3 h4 h5] at h6
    cases h6
  · intro h f t d h1 h2 h3 h4 h5
    exact rootReadable_of_mlist ptr h h1 h2 h3 h4 h5

/-- Definitions with at most 11 members. -/
theorem C13_few_members (n : Nat) (s : Sch (n + 1)) (hl : s.items.length ≤ 11)
    (hi : ∀ i t, entry s.items i = some (.mlist t) ∨ entry s.items i = some (.optMil t) → LegibleTables n t) : LegibleTables (n + 1) s :=
  fun i t h => ⟨by rcases h with h | h <;> exact lt_of_lt_of_le (entry_lt h) hl,
    fun j c hj => lt_of_lt_of_le (entry_lt hj) (by omega), hi i t h⟩

/-- If a list of the root object that may be undefined is defined in one of the objects, `get_diff` panics, always. -/
theorem C13_get_diff_panics (F : FloatOps) (n : Nat) (ptr : Ptr) (sch : RootSch n) (f t : Root n)
    (hf : RootOk n sch f) (ht : RootOk n sch t) (h : ¬ (OptListsUndefined n sch f ∧ OptListsUndefined n sch t)) :
    getDiff F n ptr sch f t = .panic := by
  unfold getDiff getKvals
  rw [getRootDiff_panic ptr hf ht h]
  rfl

/-! ### Objects for examples and counterexamples -/

def F0 : FloatOps := ⟨id, id, fun _ => 0, fun _ => 0⟩
def same : Ptr := fun _ => true

/-- An inner list: one integer. -/
def exInner : Sch 1 := ⟨[some (.param .int .normal)], []⟩
/-- A list: a float that may be null, an inner list, an inner list that may be undefined, and a reference. -/
def exTable : Sch 2 := ⟨[some (.param .float .nullable), some (.mlist exInner), some (.optMil exInner)], [.normal]⟩
/-- A root object: an integer and a list. -/
def exSch : RootSch 2 := [some (.param .int .normal), some (.mlist exTable)]

def intCell {X : Type} (i : Int) : Option (Cell X) := some (.param (.int (.val i)))
def exInnerList (l : List (Nat × Int)) (next : Nat) : Obj 1 := ⟨l.map fun x => (x.1, ⟨[intCell x.2], []⟩), next⟩

def exFrom : Root 2 := [intCell 1, some (.mil (some ⟨[
  (0, ⟨[some (.param (.float (.val 0))), some (.mil (some (exInnerList [(0, 5), (1, 6)] 2))), some (.mil none)], [some (.val "a")]⟩),
  (1, ⟨[some (.param (.float .null)), some (.mil (some (exInnerList [] 0))), some (.mil none)], [some (.val "b")]⟩),
  (2, ⟨[none, some (.mil (some (exInnerList [] 0))), some (.mil none)], [none]⟩)], 3⟩))]

def exTo : Root 2 := [intCell (-7), some (.mil (some ⟨[
  (4, ⟨[some (.param (.float .null)), some (.mil (some (exInnerList [(3, 9)] 4))), none], [some (.val "new")]⟩),
  (0, ⟨[some (.param (.float (.val 1))), some (.mil (some (exInnerList [(2, 7), (1, 6)] 3))), some (.mil (some (exInnerList [(0, 1)] 1)))],
    [some (.val "c")]⟩),
  (3, ⟨[none, some (.mil (some (exInnerList [] 0))), some (.mil none)], [none]⟩),
  (2, ⟨[none, some (.mil (some (exInnerList [(8, 8)] 9))), some (.mil none)], [some (.val "d")]⟩)], 5⟩))]

theorem exInner_ok (l : List (Nat × Int)) (next : Nat) (h1 : (l.map (·.1)).Nodup) (h2 : ∀ x ∈ l, x.1 < 2 ^ 64 ∧ InI64 x.2)
    (h3 : next < 2 ^ 64) (h4 : l.length < 2 ^ 62) : ObjOk 1 exInner (exInnerList l next) := by
  have hids : (exInnerList l next).ids = l.map (·.1) := by simp [exInnerList, SList.ids]
  refine ⟨by decide, by decide, by rw [hids]; exact h1, ?_, h3, by simpa [exInnerList] using h4, ?_⟩
  · rw [hids]; intro i hi
    obtain ⟨x, hx, rfl⟩ := List.mem_map.mp hi
    exact (h2 x hx).1
  · intro x hx
    obtain ⟨y, hy, rfl⟩ := List.mem_map.mp hx
    refine ⟨rfl, ?_, rfl, fun i q hq => ?_⟩
    · intro i
      match i with
      | 0 => exact ⟨rfl, trivial, (h2 y hy).2⟩
      | i + 1 => trivial
    · match i with
      | 0 => cases hq
      | i + 1 => cases hq

theorem exFrom_ok : RootOk 2 exSch exFrom := by
  refine ⟨by decide, rfl, ?_, ?_⟩
  · intro i
    match i with
    | 0 => exact ⟨rfl, trivial, by unfold Param.Fits; decide⟩
    | 1 =>
      refine ⟨by decide, by decide, by decide, by decide, by decide, by decide, ?_⟩
      intro x hx
      simp only [List.mem_cons, List.not_mem_nil, or_false] at hx
      rcases hx with rfl | rfl | rfl
      · refine ⟨rfl, ?_, rfl, ?_⟩
        · intro i
          match i with
          | 0 => exact ⟨rfl, trivial, trivial⟩
          | 1 => exact exInner_ok _ _ (by decide) (by decide) (by decide) (by decide)
          | 2 => trivial
          | i + 3 => trivial
        · intro i q hq
          match i with
          | 0 => cases hq; exact ⟨_, rfl, trivial, by decide⟩
          | i + 1 => cases hq
      · refine ⟨rfl, ?_, rfl, ?_⟩
        · intro i
          match i with
          | 0 => exact ⟨rfl, trivial, trivial⟩
          | 1 => exact exInner_ok _ _ (by decide) (by decide) (by decide) (by decide)
          | 2 => trivial
          | i + 3 => trivial
        · intro i q hq
          match i with
          | 0 => cases hq; exact ⟨_, rfl, trivial, by decide⟩
          | i + 1 => cases hq
      · refine ⟨rfl, ?_, rfl, ?_⟩
        · intro i
          match i with
          | 0 => trivial
          | 1 => exact exInner_ok _ _ (by decide) (by decide) (by decide) (by decide)
          | 2 => trivial
          | i + 3 => trivial
        · intro i q hq
          match i with
          | 0 => cases hq
          | i + 1 => cases hq
    | i + 2 => trivial
  · intro i s h
    match i with
    | 0 => rcases h with h | h <;> cases h
    | 1 => exact fun h => nomatch h
    | i + 2 => rcases h with h | h <;> cases h

theorem exTo_ok : RootOk 2 exSch exTo := by
  refine ⟨by decide, rfl, ?_, ?_⟩
  · intro i
    match i with
    | 0 => exact ⟨rfl, trivial, by unfold Param.Fits; decide⟩
    | 1 =>
      refine ⟨by decide, by decide, by decide, by decide, by decide, by decide, ?_⟩
      intro x hx
      simp only [List.mem_cons, List.not_mem_nil, or_false] at hx
      rcases hx with rfl | rfl | rfl | rfl
      · refine ⟨rfl, ?_, rfl, ?_⟩
        · intro i
          match i with
          | 0 => exact ⟨rfl, trivial, trivial⟩
          | 1 => exact exInner_ok _ _ (by decide) (by decide) (by decide) (by decide)
          | 2 => trivial
          | i + 3 => trivial
        · intro i q hq
          match i with
          | 0 => cases hq; exact ⟨_, rfl, trivial, by decide⟩
          | i + 1 => cases hq
      · refine ⟨rfl, ?_, rfl, ?_⟩
        · intro i
          match i with
          | 0 => exact ⟨rfl, trivial, trivial⟩
          | 1 => exact exInner_ok _ _ (by decide) (by decide) (by decide) (by decide)
          | 2 => exact exInner_ok _ _ (by decide) (by decide) (by decide) (by decide)
          | i + 3 => trivial
        · intro i q hq
          match i with
          | 0 => cases hq; exact ⟨_, rfl, trivial, by decide⟩
          | i + 1 => cases hq
      · refine ⟨rfl, ?_, rfl, ?_⟩
        · intro i
          match i with
          | 0 => trivial
          | 1 => exact exInner_ok _ _ (by decide) (by decide) (by decide) (by decide)
          | 2 => trivial
          | i + 3 => trivial
        · intro i q hq
          match i with
          | 0 => cases hq
          | i + 1 => cases hq
      · refine ⟨rfl, ?_, rfl, ?_⟩
        · intro i
          match i with
          | 0 => trivial
          | 1 => exact exInner_ok _ _ (by decide) (by decide) (by decide) (by decide)
          | 2 => trivial
          | i + 3 => trivial
        · intro i q hq
          match i with
          | 0 => cases hq; exact ⟨_, rfl, trivial, by decide⟩
          | i + 1 => cases hq
    | i + 2 => trivial
  · intro i s h
    match i with
    | 0 => rcases h with h | h <;> cases h
    | 1 => exact fun h => nomatch h
    | i + 2 => rcases h with h | h <;> cases h

theorem exOpt (r : Root 2) : OptListsUndefined 2 exSch r := by
  intro i s h
  match i with
  | 0 => cases h
  | 1 => cases h
  | i + 2 => cases h

theorem exSmall : ∀ i s, entry exSch i = some (.mlist s) ∨ entry exSch i = some (.optMil s) → LegibleTables 2 s := by
  intro i s h
  match i with
  | 0 => rcases h with h | h <;> cases h
  | 1 =>
    rcases h with h | h <;> cases h
    have hin : LegibleTables 1 exInner := by
      intro i t h
      match i with
      | 0 => rcases h with h | h <;> cases h
      | i + 1 => rcases h with h | h <;> cases h
    intro i t h
    match i with
    | 0 => rcases h with h | h <;> cases h
    | 1 => rcases h with h | h <;> cases h; exact ⟨by decide, fun j c hj => lt_of_lt_of_le (entry_lt hj) (by decide), hin⟩
    | 2 => rcases h with h | h <;> cases h; exact ⟨by decide, fun j c hj => lt_of_lt_of_le (entry_lt hj) (by decide), hin⟩
    | i + 3 => rcases h with h | h <;> cases h
  | i + 2 => rcases h with h | h <;> cases h

/-- The hypotheses of C13 hold for a case with changes everywhere; the diff is not empty and is read back. -/
example : RootOk 2 exSch exFrom ∧ RootOk 2 exSch exTo ∧ OptListsUndefined 2 exSch exFrom ∧ OptListsUndefined 2 exSch exTo ∧
    (∀ i s, entry exSch i = some (.mlist s) ∨ entry exSch i = some (.optMil s) → LegibleTables 2 s) ∧
    (∃ d, getRootDiff 2 same exSch exFrom exTo = .ok d ∧ d.params.length = 1 ∧ d.lists.length = 1) :=
  ⟨exFrom_ok, exTo_ok, exOpt _, exOpt _, exSmall, _, rfl, by decide +kernel, by decide +kernel⟩

/-- A definition with 12 members, the last one an inner list. -/
def wideTable : Sch 2 := ⟨List.replicate 11 (some (.param .int .normal)) ++ [some (.mlist exInner)], []⟩
def wideSch : RootSch 2 := [some (.mlist wideTable)]
def wideRoot (l : Obj 1) : Root 2 :=
  [some (.mil (some ⟨[(0, ⟨List.replicate 11 (intCell 0) ++ [some (.mil (some l))], []⟩)], 1⟩))]

/-- C13 is violated: if only the inner list with the member id 11 has changed, the diff is written but cannot be read. -/
theorem C13_negation : getDiff F0 2 same wideSch (wideRoot (exInnerList [] 0)) (wideRoot (exInnerList [(0, 5)] 1)) =
      .ok [1, 23, 1, 6, 255, 186, 223, 215, 123, 238, 11, 5] ∧
    ((decodeVals [1, 23, 1, 6, 255, 186, 223, 215, 123, 238, 11, 5]).bind fun p => readRoot F0 2 wideSch p.1) = .err := by
  decide +kernel

/-- A definition with 23 members, the first one an inner list. -/
def broadTable : Sch 2 := ⟨some (.mlist exInner) :: List.replicate 22 (some (.param .int .normal)), []⟩
def broadSch : RootSch 2 := [some (.mlist broadTable)]
def broadRoot (l : Obj 1) (v : Int) : Root 2 :=
  [some (.mil (some ⟨[(0, ⟨some (.mil (some l)) :: List.replicate 21 (intCell 0) ++ [intCell v], []⟩)], 1⟩))]

/-- The same with a list of a small id, if a member with an id beyond 21 has changed with it. -/
theorem C13_negation_two : (getDiff F0 2 same broadSch (broadRoot (exInnerList [] 0) 0) (broadRoot (exInnerList [(0, 5)] 1) 1)).bind
      (fun bytes => (decodeVals bytes).bind fun p => readRoot F0 2 broadSch p.1) = .err ∧
    (getDiff F0 2 same broadSch (broadRoot (exInnerList [] 0) 0) (broadRoot (exInnerList [(0, 5)] 1) 1)) ≠ .err := by
  decide +kernel

/-- A definition with 30 members and no list inside, of the kind `C13_exact_definitions` allows. -/
example : LegibleTables 2 (⟨List.replicate 30 (some (.param .int .normal)), []⟩ : Sch 2) := by
  intro i t h
  have : ∀ c : Col (Sch 1), entry (List.replicate 30 (some (Col.param .int .normal))) i = some c → c = .param .int .normal := by
    intro c hc
    unfold entry at hc
    rw [List.getElem?_replicate] at hc
    split at hc
    · exact (Option.some.inj hc).symm
    · cases hc
  rcases h with h | h <;> cases this _ h

/-! ## C09 -/

/-- C09, what does hold (partial): if the second object is reached from the first by a `RootStep` (no item moved against another, no
next id changed alone, no member becoming absent, no `0.0` turned into `-0.0`), then applying the written diff to the first object gives
the second one exactly, if the diff can be read. Missing: the cases excluded here, all of which fail (`C09_negation_…`, `C13_negation`,
`C13_get_diff_panics`). -/
theorem C09_diff_apply_restores_partial (F : FloatOps) (n : Nat) (ptr : Ptr) (sch : RootSch n) (f t : Root n)
    (hf : RootOk n sch f) (ht : RootOk n sch t) (hof : OptListsUndefined n sch f) (hot : OptListsUndefined n sch t)
    (hst : RootStep n f t) :
    ∃ d bytes, getRootDiff n ptr sch f t = .ok d ∧ getDiff F n ptr sch f t = .ok bytes ∧
      (rootReadable n d → bytes.length < 2 ^ 60 → applyDiff F n sch f bytes = .ok t) := by
  obtain ⟨d, bytes, h1, h2, h3⟩ := C13_written_diff_readable_partial F n ptr sch f t hf ht hof hot
  refine ⟨d, bytes, h1, h2, fun hr hl => ?_⟩
  obtain ⟨vals, h4, h5⟩ := h3 hl
  rw [if_pos hr] at h5
  unfold applyDiff applyKvals
  rw [h4, Res.bind_ok, h5, Res.bind_ok]
  exact applyRootDiff_mod hf ht hof hot hst h1

/-- C09 for definitions all of whose diffs can be read (`C13_exact_definitions`): no condition on the diff remains. -/
theorem C09_small_definitions_partial (F : FloatOps) (n : Nat) (ptr : Ptr) (sch : RootSch n) (f t : Root n)
    (hs : ∀ i s, entry sch i = some (.mlist s) ∨ entry sch i = some (.optMil s) → LegibleTables n s)
    (hf : RootOk n sch f) (ht : RootOk n sch t) (hof : OptListsUndefined n sch f) (hot : OptListsUndefined n sch t)
    (hst : RootStep n f t) :
    ∃ bytes, getDiff F n ptr sch f t = .ok bytes ∧ (bytes.length < 2 ^ 60 → applyDiff F n sch f bytes = .ok t) := by
  obtain ⟨d, bytes, h1, h2, h3⟩ := C09_diff_apply_restores_partial F n ptr sch f t hf ht hof hot hst
  exact ⟨bytes, h2, h3 (rootReadable_of_legible hs (getRootDiff_ok hf ht hof hot h1))⟩

theorem exStep : RootStep 2 exFrom exTo := by
  intro i
  match i with
  | 0 => trivial
  | 1 =>
    refine ⟨by unfold SameOrder; decide +kernel, fun h => absurd (congrArg List.length h) (by decide), ?_⟩
    intro x hx y hy he
    simp only [List.mem_cons, List.not_mem_nil, or_false] at hx hy
    rcases hx with rfl | rfl | rfl <;> rcases hy with rfl | rfl | rfl | rfl <;> first | (exact absurd he (by decide)) | skip
    · refine ⟨?_, ?_⟩
      · intro i
        match i with
        | 0 => exact fun h => absurd h (by decide)
        | 1 =>
          refine ⟨by unfold SameOrder; decide +kernel, fun h => absurd (congrArg (List.map (·.1)) h) (by decide), ?_⟩
          intro x hx y hy he
          refine ⟨?_, ?_⟩
          · obtain ⟨u, _, rfl⟩ := List.mem_map.mp hx
            obtain ⟨v, _, rfl⟩ := List.mem_map.mp hy
            intro i
            match i with
            | 0 => trivial
            | i + 1 => rfl
          · intro i _
            obtain ⟨u, _, rfl⟩ := List.mem_map.mp hx
            rfl
        | 2 => trivial
        | i + 3 => rfl
      · intro i hi
        match i with
        | 0 => cases hi
        | i + 1 => rfl
    · refine ⟨?_, ?_⟩
      · intro i
        match i with
        | 0 => rfl
        | 1 =>
          refine ⟨by unfold SameOrder; decide +kernel, fun h => absurd (congrArg List.length h) (by decide), ?_⟩
          intro x hx; cases hx
        | 2 => trivial
        | i + 3 => rfl
      · intro i hi
        match i with
        | 0 => rfl
        | i + 1 => rfl
  | i + 2 => rfl

/-- The hypotheses of C09 hold for a case with changes everywhere. -/
example : RootOk 2 exSch exFrom ∧ RootOk 2 exSch exTo ∧ OptListsUndefined 2 exSch exFrom ∧ OptListsUndefined 2 exSch exTo ∧
    RootStep 2 exFrom exTo ∧ exFrom ≠ exTo := ⟨exFrom_ok, exTo_ok, exOpt _, exOpt _, exStep,
    fun h => nomatch (Option.some.inj (congrArg List.head? h))⟩

/-- A root object with one list whose items are integers. -/
def oneSch : RootSch 1 := [some (.mlist exInner)]
def oneRoot (l : Obj 1) : Root 1 := [some (.mil (some l))]
def restored {n : Nat} (sch : RootSch n) (f t : Root n) : Res (Root n) := (getDiff F0 n same sch f t).bind (applyDiff F0 n sch f)

/-- C09 is violated by moving an item. -/
theorem C09_negation_move : restored oneSch (oneRoot (exInnerList [(0, 5), (1, 6)] 2)) (oneRoot (exInnerList [(1, 6), (0, 5)] 2)) =
    .ok (oneRoot (exInnerList [(0, 5), (1, 6)] 2)) := by decide +kernel

/-- C09 is violated by inserting an item and removing it again: the next id is lost. -/
theorem C09_negation_next_id : restored oneSch (oneRoot (exInnerList [(0, 5)] 1)) (oneRoot (exInnerList [(0, 5)] 2)) =
    .ok (oneRoot (exInnerList [(0, 5)] 1)) := by decide +kernel

/-- C09 is violated by changing `0.0` to `-0.0`. -/
theorem C09_negation_zero : restored (n := 0) [some (.param .float .normal)] [some (.param (.float (.val 0#64)))]
      [some (.param (.float (.val (1#64 <<< 63))))] = .ok [some (.param (.float (.val 0#64)))] ∧ (1#64 <<< 63) ≠ 0#64 := by
  decide +kernel

/-- C09 is violated by diffs that cannot be read. -/
theorem C09_negation_unreadable : restored wideSch (wideRoot (exInnerList [] 0)) (wideRoot (exInnerList [(0, 5)] 1)) = .err := by
  obtain ⟨h1, h2⟩ := C13_negation
  unfold restored
  rw [h1, Res.bind_ok]
  unfold applyDiff applyKvals
  cases h : decodeVals [1, 23, 1, 6, 255, 186, 223, 215, 123, 238, 11, 5] with
  | ok p => rw [h, Res.bind_ok] at h2; rw [Res.bind_ok, h2]; rfl
  | err => rfl
  | panic => rw [h] at h2; cases h2

/-- C09, C10 and C13 are violated by a defined list of the root object that may be undefined. -/
theorem C09_negation_undefiable : getDiff F0 1 same [some (.optMil exInner)] (oneRoot (exInnerList [] 0)) (oneRoot (exInnerList [(0, 5)] 1)) = .panic ∧
    getDiff F0 1 same [some (.optMil exInner)] (oneRoot (exInnerList [] 0)) (oneRoot (exInnerList [] 0)) = .panic := by
  decide +kernel

/-! ## C10 -/

/-- C10, exactly (partial): for objects that `get_diff` accepts, the diff of an object with itself (all shared strings and
arrays being the same) is empty iff the object contains no NaN. Missing: objects with a NaN (`C10_negation_nan`), defined lists that may be
undefined (`C09_negation_undefiable`), and equal but separately allocated strings and arrays (`C10_negation_pointers`). -/
theorem C10_self_diff_empty_partial (n : Nat) (sch : RootSch n) (a : Root n) (ha : RootOk n sch a) (ho : OptListsUndefined n sch a) :
    getRootDiff n (fun _ => true) sch a a = .ok ⟨[], []⟩ ↔ ∀ i, CellNoNan (ObjNoNan n) (entry a i) :=
  getRootDiff_self ha ho

/-- The diff of an object with an equal one, whatever is shared and even if not empty, is harmless: applying it changes nothing, if
it can be read. -/
theorem C10_self_diff_harmless_partial (F : FloatOps) (n : Nat) (ptr : Ptr) (sch : RootSch n) (a : Root n) (ha : RootOk n sch a)
    (ho : OptListsUndefined n sch a) :
    ∃ d bytes, getRootDiff n ptr sch a a = .ok d ∧ getDiff F n ptr sch a a = .ok bytes ∧
      (rootReadable n d → bytes.length < 2 ^ 60 → applyDiff F n sch a bytes = .ok a) :=
  C09_diff_apply_restores_partial F n ptr sch a a ha ha ho ho (rootStep_refl ha)

/-- The empty diff can always be applied, and changes nothing. -/
theorem C10_empty_diff_harmless (F : FloatOps) (n : Nat) (sch : RootSch n) (a : Root n) (ha : RootOk n sch a)
    (ho : OptListsUndefined n sch a) (hn : ∀ i, CellNoNan (ObjNoNan n) (entry a i)) :
    ∃ bytes, getDiff F n (fun _ => true) sch a a = .ok bytes ∧ (bytes.length < 2 ^ 60 → applyDiff F n sch a bytes = .ok a) := by
  obtain ⟨d, bytes, h1, h2, h3⟩ := C10_self_diff_harmless_partial F n (fun _ => true) sch a ha ho
  rw [(getRootDiff_self ha ho).mpr hn] at h1
  cases h1
  exact ⟨bytes, h2, h3 rfl⟩

example : RootOk 2 exSch exFrom ∧ OptListsUndefined 2 exSch exFrom ∧ ∀ i, CellNoNan (ObjNoNan 2) (entry exFrom i) := by
  refine ⟨exFrom_ok, exOpt _, (getRootDiff_self exFrom_ok (exOpt _)).mp (by decide +kernel)⟩

/-- C10 is violated by a NaN: it is always sent again. -/
theorem C10_negation_nan : getRootDiff 0 (fun _ => true) [some (.param .float .normal)]
    [some (.param (.float (.val 0x7ff8000000000000#64)))] [some (.param (.float (.val 0x7ff8000000000000#64)))] =
    .ok ⟨[(0, .float (.val 0x7ff8000000000000#64))], []⟩ := by decide +kernel

/-- C10 is violated by equal strings that are not the same `Arc`. -/
theorem C10_negation_pointers : getRootDiff 0 (fun _ => false) [some (.param .string .normal)]
    [some (.param (.string (.val "a")))] [some (.param (.string (.val "a")))] =
    .ok ⟨[(0, .string (.val "a"))], []⟩ := by decide +kernel

/-! ## C11 -/

theorem perm_of_none {S X D : Type} {ptr : Ptr} {gd : Ptr → S → X → X → Option D} {nl : S → X → D} {tb : Table S} {a b : SList (Row X)}
    (ha : a.ids.Nodup) (hb : b.ids.Nodup) (h : getMListDiff ptr gd nl tb a b = none) : a.ids.Perm b.ids := by
  unfold getMListDiff at h
  simp only at h
  split at h
  · rename_i h0
    rw [List.length_append, Nat.add_eq_zero_iff, List.length_eq_zero_iff, List.length_eq_zero_iff] at h0
    rw [List.perm_ext_iff_of_nodup ha hb]
    intro i
    constructor
    · intro hi
      obtain ⟨x, hx, rfl⟩ := List.mem_map.mp hi
      have := List.filterMap_eq_nil_iff.mp h0.1 x hx
      unfold oldItem at this
      split at this
      · rename_i y hy
        exact List.mem_map.mpr ⟨y, find_some hy⟩
      · cases this
    · intro hi
      obtain ⟨x, hx, rfl⟩ := List.mem_map.mp hi
      exact of_decide_eq_true (creates_nil (by rw [h0.2]; rfl) x hx)
  · cases h

/-- C11, what does hold (partial): for every two lists of the same definition, whatever happened between them, applying the diff gives a list
whose items are those of the second list as to their ids, with its next id; items that are new are created exactly; and if there is
no diff the lists have the same ids. Missing: without a diff the next id is not restored (`C11_negation`). -/
theorem C11_list_diff_ids_partial (n : Nat) (ptr : Ptr) (s : Sch (n + 1)) (a b : Obj (n + 1)) (ha : ObjOk (n + 1) s a)
    (hb : ObjOk (n + 1) s b) :
    (getDiffN (n + 1) ptr s a b = none → a.ids.Perm b.ids) ∧
    ∀ d, getDiffN (n + 1) ptr s a b = some d → ∃ r, (applyN (n + 1)).2 s a d = .ok r ∧ r.nextId = b.nextId ∧ r.ids.Perm b.ids ∧
      ∀ x ∈ b.items, x.1 ∉ a.ids → x ∈ r.items := by
  refine ⟨fun h => perm_of_none ha.2.2.1 hb.2.2.1 h, fun d h => ?_⟩
  obtain ⟨r, h1, h2, h3, _, h5⟩ := applyListDiff_any (levelOk n) ha hb h
  exact ⟨r, h1, h2, h3, h5⟩

/-- A list of integers with a removal, insertions and a move. -/
def listFrom : Obj 1 := exInnerList [(0, 10), (1, 11), (2, 12), (3, 13)] 4
def listTo : Obj 1 := exInnerList [(5, 15), (3, 13), (0, 20), (6, 16), (2, 12)] 7

example : ObjOk 1 exInner listFrom ∧ ObjOk 1 exInner listTo ∧ (getDiffN 1 same exInner listFrom listTo).isSome :=
  ⟨exInner_ok _ _ (by decide) (by decide) (by decide) (by decide), exInner_ok _ _ (by decide) (by decide) (by decide) (by decide), by decide +kernel⟩

/-- C11 is violated: if an item was inserted and removed again there is no diff, and the next id is not restored; the id
of the removed item will be given again. -/
theorem C11_negation : getDiffN 1 same exInner (exInnerList [(0, 5)] 1) (exInnerList [(0, 5)] 2) = none ∧
    restored oneSch (oneRoot (exInnerList [(0, 5)] 1)) (oneRoot (exInnerList [(0, 5)] 2)) = .ok (oneRoot (exInnerList [(0, 5)] 1)) := by
  decide +kernel

/-! ## C12 -/

/-- C12, exactly (partial): the order of a list is restored iff the items that both lists have are in the same order. Missing: moves are
never recorded (`C12_negation`). -/
theorem C12_order_restored_iff_partial (n : Nat) (ptr : Ptr) (s : Sch (n + 1)) (a b : Obj (n + 1)) (ha : ObjOk (n + 1) s a)
    (hb : ObjOk (n + 1) s b) :
    (getDiffN (n + 1) ptr s a b = none → (a.ids = b.ids ↔ a.ids.filter (· ∈ b.ids) = b.ids.filter (· ∈ a.ids))) ∧
    ∀ d, getDiffN (n + 1) ptr s a b = some d → ∃ r, (applyN (n + 1)).2 s a d = .ok r ∧
      r.ids.filter (· ∈ a.ids) = a.ids.filter (· ∈ b.ids) ∧
      (r.ids = b.ids ↔ a.ids.filter (· ∈ b.ids) = b.ids.filter (· ∈ a.ids)) := by
  refine ⟨fun h => ?_, fun d h => ?_⟩
  · have hp := perm_of_none ha.2.2.1 hb.2.2.1 h
    rw [List.filter_eq_self.mpr fun i hi => decide_eq_true (hp.mem_iff.mp hi),
      List.filter_eq_self.mpr fun i hi => decide_eq_true (hp.mem_iff.mpr hi)]
  · obtain ⟨r, h1, _, _, h4, _⟩ := applyListDiff_any (levelOk n) ha hb h
    refine ⟨r, h1, h4, fun hr => ?_, fun hs => ?_⟩
    · rw [← h4, hr]
    · obtain ⟨r', h1', _, h3', _⟩ := applyListDiff_order (levelOk n) ha hb h hs
      have : r = r' := Res.ok.inj (h1.symm.trans h1')
      rw [this, h3']

/-- Both sides of the equivalence occur. -/
example : (∃ a b, ObjOk 1 exInner a ∧ ObjOk 1 exInner b ∧ a.ids.filter (· ∈ b.ids) = b.ids.filter (· ∈ a.ids) ∧ a.ids ≠ b.ids) ∧
    ¬ listFrom.ids.filter (· ∈ listTo.ids) = listTo.ids.filter (· ∈ listFrom.ids) :=
  ⟨⟨exInnerList [(0, 1), (1, 2)] 3, exInnerList [(4, 4), (1, 2), (3, 5)] 6, exInner_ok _ _ (by decide) (by decide) (by decide) (by decide),
    exInner_ok _ _ (by decide) (by decide) (by decide) (by decide), by decide, by decide⟩, by decide⟩

/-- C12 is violated by a move: there is not even a diff. -/
theorem C12_negation : getDiffN 1 same exInner (exInnerList [(0, 5), (1, 6)] 2) (exInnerList [(1, 6), (0, 5)] 2) = none ∧
    restored oneSch (oneRoot (exInnerList [(0, 5), (1, 6)] 2)) (oneRoot (exInnerList [(1, 6), (0, 5)] 2)) =
      .ok (oneRoot (exInnerList [(0, 5), (1, 6)] 2)) := by decide +kernel

end Verif.Diff
