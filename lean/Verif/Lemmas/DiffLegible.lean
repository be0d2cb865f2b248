import Verif.Lemmas.DiffRoot
/-!
# Definitions with a diff that cannot be read

If a definition is not one of `LegibleTables`, there is an object whose diff to the empty one cannot be read.
-/
namespace Verif.Diff
open VarInt Codec Compaction LinkedMap

theorem collect_succ {β : Type} (n : Nat) (f : Nat → Option β) :
    collect (n + 1) f = collect n f ++ ((f n).toList.map fun b => (n, b)) := by
  unfold collect
  rw [List.range_succ, List.filterMap_append]
  cases h : f n <;> simp [h]

theorem collect_eq_nil {β : Type} {n : Nat} {f : Nat → Option β} (h : ∀ k, k < n → f k = none) : collect n f = [] :=
  List.length_eq_zero_iff.1 (collect_nil.2 h)

theorem collect_one {β : Type} {n i : Nat} {f : Nat → Option β} {b : β} (hi : i < n) (h : f i = some b) (hn : ∀ k, k ≠ i → f k = none) :
    collect n f = [(i, b)] := by
  induction n with
  | zero => omega
  | succ n ih =>
    rw [collect_succ]
    by_cases e : i = n
    · subst e
      rw [h, collect_eq_nil fun k hk => hn k (by omega)]
      rfl
    · rw [ih (by omega), hn n (Ne.symm e)]
      rfl

theorem entry_tab {α : Type} (n : Nat) (g : Nat → Option α) (k : Nat) : entry ((List.range n).map g) k = if k < n then g k else none := by
  unfold entry
  rw [List.getElem?_map]
  by_cases h : k < n
  · rw [List.getElem?_range h, if_pos h]; rfl
  · rw [List.getElem?_eq_none (by simpa using h), if_neg h]; rfl

theorem entry_none {α : Type} (n k : Nat) : entry (List.replicate n (none : Option α)) k = none := by
  unfold entry
  rw [List.getElem?_replicate]
  split <;> rfl

theorem calcType_one {i : Nat} (h : 11 ≤ i) : calcType i 1 = .numbers := by
  unfold calcType
  rw [if_neg (by omega)]
  split
  · rw [if_neg (by omega)]
  · split
    · rw [if_neg (by omega)]
    · split
      · rw [if_neg (by omega)]
      · split
        · rw [if_neg (by omega)]
        · rw [if_neg (by omega)]

theorem calcType_two {j : Nat} (h : 22 ≤ j) : calcType j 2 = .numbers := by
  unfold calcType
  rw [if_neg (by omega)]
  split
  · rw [if_neg (by omega)]
  · split
    · rw [if_neg (by omega)]
    · split
      · rw [if_neg (by omega)]
      · split
        · rw [if_neg (by omega)]
        · rw [if_neg (by omega)]

theorem storeIds_one {i : Nat} (h : 11 ≤ i) : storeIds [] [i] = .numbers [i] := by
  unfold storeIds
  have e : Nat.max (Nat.max 0 (maxAndLen []).1) (maxAndLen [i]).1 = i := by
    show max (max 0 0) i = i
    omega
  simp only
  rw [e, show 0 + (maxAndLen []).2 + (maxAndLen [i]).2 = 1 from rfl, calcType_one h]
  rfl

theorem storeIds_two {i j : Nat} (hi : i < 11) (h : 22 ≤ j) : storeIds [j] [i] = .numbers [j, i] := by
  unfold storeIds
  have e : Nat.max (Nat.max 0 (maxAndLen [j]).1) (maxAndLen [i]).1 = j := by
    show max (max 0 j) i = j
    omega
  simp only
  rw [e, show 0 + (maxAndLen [j]).2 + (maxAndLen [i]).2 = 2 from rfl, calcType_two h]
  rfl

/-- the empty list of level `n` -/
def emptyObj : (n : Nat) → Sch n → Obj n
  | 0 => fun s => nomatch s
  | _ + 1 => fun _ => ⟨[], 0⟩

theorem emptyObj_ok {n : Nat} {s : Sch n} (h : TablesFit n s) : ObjOk n s (emptyObj n s) := by
  cases n with
  | zero => exact nomatch s
  | succ n =>
    show ListOk (ObjOk n) s ⟨[], 0⟩
    exact ⟨h.1, h.2.1, List.nodup_nil, (fun _ h => by cases h), Nat.two_pow_pos _, Nat.two_pow_pos _, (fun _ h => by cases h)⟩

/-- a value of a type -/
def PType.some : PType → Param
  | .bool => .bool (.val true)
  | .int => .int (.val 0)
  | .float => .float (.val 0)
  | .string => .string (.val "")
  | .intArray => .intArray (.val [])
  | .floatArray => .floatArray (.val [])
  | .binary => .binary (.val [])

theorem PType.some_ok (pt : PType) (vt : VType) : ParamOk pt vt pt.some := by
  refine ⟨by cases pt <;> rfl, by cases pt <;> cases vt <;> trivial, ?_⟩
  cases pt
  all_goals first | trivial | exact ⟨by decide, by decide⟩ | (show _ < _; decide)

/-- the item with the given members -/
def rowWith {n : Nat} (s : Sch (n + 1)) (g : Nat → Option (Cell (Obj n))) : Row (Obj n) :=
  ⟨(List.range s.items.length).map g, List.replicate s.refs.length none⟩

/-- the list with this item -/
def listWith {n : Nat} (s : Sch (n + 1)) (g : Nat → Option (Cell (Obj n))) : Obj (n + 1) := ⟨[(0, rowWith s g)], 1⟩

theorem listWith_ok {n : Nat} {s : Sch (n + 1)} {g : Nat → Option (Cell (Obj n))} (h : TablesFit (n + 1) s)
    (hg : ∀ k, CellOk (ObjOk n) (entry s.items k) (g k)) : ObjOk (n + 1) s (listWith s g) := by
  refine ⟨h.1, h.2.1, by simp [listWith, SList.ids], by simp [listWith, SList.ids], by simp [listWith], by simp [listWith], ?_⟩
  intro x hx
  rw [List.mem_singleton.1 hx]
  refine ⟨by simp [rowWith], fun k => ?_, by simp [rowWith], fun k q hq => ?_⟩
  · show CellOk _ _ (entry ((List.range s.items.length).map g) k)
    rw [entry_tab]
    split
    · exact hg k
    · cases entry s.items k with
      | none => trivial
      | some c => cases c <;> trivial
  · change entry (List.replicate s.refs.length none) k = some q at hq
    rw [entry_none] at hq
    cases hq

theorem newListN_listWith {n : Nat} (s : Sch (n + 1)) (g : Nat → Option (Cell (Obj n))) :
    newListN (n + 1) s (listWith s g) = ⟨[(0, .create none (newItem (newListN n) s (rowWith s g)))], 1⟩ := rfl

theorem readable_listWith {n : Nat} {s : Sch (n + 1)} {g : Nat → Option (Cell (Obj n))}
    (h : rowReadable (readable n) (newItem (newListN n) s (rowWith s g)) = false) :
    readable (n + 1) (newListN (n + 1) s (listWith s g)) = false := by
  rw [newListN_listWith]
  show ([(0, ItemDiff.create none (newItem (newListN n) s (rowWith s g)))].all fun x => itemReadable (readable n) x.2) = false
  simp only [List.all_cons, List.all_nil, itemReadable, h, Bool.false_and]

theorem newItem_params {n : Nat} (s : Sch (n + 1)) (g : Nat → Option (Cell (Obj n))) :
    (newItem (newListN n) s (rowWith s g)).params = collect s.items.length fun k => newItemParam (if k < s.items.length then g k else none) := by
  show collect ((List.range s.items.length).map g).length (fun k => newItemParam (entry ((List.range s.items.length).map g) k)) = _
  simp only [List.length_map, List.length_range, entry_tab]

theorem newItem_lists {n : Nat} (s : Sch (n + 1)) (g : Nat → Option (Cell (Obj n))) :
    (newItem (newListN n) s (rowWith s g)).lists =
      collect s.items.length fun k => newItemList (newListN n) (entry s.items k) (if k < s.items.length then g k else none) := by
  show collect ((List.range s.items.length).map g).length
    (fun k => newItemList (newListN n) (entry s.items k) (entry ((List.range s.items.length).map g) k)) = _
  simp only [List.length_map, List.length_range, entry_tab]

theorem newItemList_none {S X D : Type} (nl : S → X → D) (c : Option (Col S)) : newItemList nl c none = none := rfl

/-- the member `i` is a list whose definition is `t` -/
def ListAt {n : Nat} (s : Sch (n + 1)) (i : Nat) (t : Sch n) : Prop :=
  entry s.items i = some (.mlist t) ∨ entry s.items i = some (.optMil t)

theorem newItemList_at {n : Nat} {s : Sch (n + 1)} {i : Nat} {t : Sch n} (h : ListAt s i t) (b : Obj n) :
    newItemList (newListN n) (entry s.items i) (some (.mil (some b))) = some (some (newListN n t b)) := by
  rcases h with h | h <;> rw [h] <;> rfl

theorem cellOk_at {n : Nat} {s : Sch (n + 1)} {i : Nat} {t : Sch n} (h : ListAt s i t) {b : Obj n} (hb : ObjOk n t b) :
    CellOk (ObjOk n) (entry s.items i) (some (.mil (some b))) := by
  rcases h with h | h <;> rw [h] <;> exact hb

theorem listAt_lt {n : Nat} {s : Sch (n + 1)} {i : Nat} {t : Sch n} (h : ListAt s i t) : i < s.items.length := by
  rcases h with h | h <;> exact entry_lt h

/-- the item with the list `b` at `i` and, if `p` says so, a parameter -/
def cellsAt {n : Nat} (i : Nat) (b : Obj n) (p : Option (Nat × Param)) (k : Nat) : Option (Cell (Obj n)) :=
  if k = i then some (.mil (some b)) else match p with
    | some (j, q) => if k = j then some (.param q) else none
    | none => none

theorem cellsAt_lists {n : Nat} {s : Sch (n + 1)} {i : Nat} {t : Sch n} (h : ListAt s i t) (b : Obj n) (p : Option (Nat × Param)) :
    (newItem (newListN n) s (rowWith s (cellsAt i b p))).lists = [(i, some (newListN n t b))] := by
  rw [newItem_lists]
  refine collect_one (listAt_lt h) ?_ ?_
  · rw [if_pos (listAt_lt h)]
    unfold cellsAt
    rw [if_pos rfl]
    exact newItemList_at h b
  · intro k hk
    split
    · unfold cellsAt
      rw [if_neg hk]
      cases p with
      | none => rfl
      | some x =>
        simp only
        split
        · rfl
        · rfl
    · rfl

theorem cellsAt_params_none {n : Nat} (s : Sch (n + 1)) (i : Nat) (b : Obj n) :
    (newItem (newListN n) s (rowWith s (cellsAt i b none))).params = [] := by
  rw [newItem_params]
  refine collect_eq_nil fun k hk => ?_
  rw [if_pos hk]
  unfold cellsAt
  split <;> rfl

theorem cellsAt_params {n : Nat} {s : Sch (n + 1)} {i j : Nat} (b : Obj n) (q : Param) (hj : j < s.items.length) (hij : j ≠ i) :
    (newItem (newListN n) s (rowWith s (cellsAt i b (some (j, q))))).params = [(j, q)] := by
  rw [newItem_params]
  refine collect_one hj ?_ ?_
  · rw [if_pos hj]
    unfold cellsAt
    rw [if_neg hij]
    simp only
    rw [if_pos trivial]
    rfl
  · intro k hk
    split
    · unfold cellsAt
      split
      · rfl
      · simp only
        rw [if_neg hk]
        rfl
    · rfl

/-- An object that fits a definition not among `LegibleTables`, and whose diff to the empty list cannot be read. -/
theorem illegible (n : Nat) : ∀ s : Sch n, TablesFit n s → ¬ LegibleTables n s → ∃ b, ObjOk n s b ∧ readable n (newListN n s b) = false := by
  induction n with
  | zero => intro s; exact Empty.elim s
  | succ n ih =>
    intro s hf hs
    have hone : ∀ i t, ListAt s i t → 11 ≤ i → ∃ b, ObjOk (n + 1) s b ∧ readable (n + 1) (newListN (n + 1) s b) = false := by
      intro i t hi h11
      have hok := emptyObj_ok (hf.2.2 i t hi)
      refine ⟨listWith s (cellsAt i (emptyObj n t) none), listWith_ok hf fun k => ?_, readable_listWith ?_⟩
      · unfold cellsAt
        split
        · subst k; exact cellOk_at hi hok
        · cases entry s.items k with
          | none => trivial
          | some c => cases c <;> trivial
      · unfold rowReadable
        rw [cellsAt_params_none, cellsAt_lists hi]
        simp only [List.map_nil, List.map_cons, storeIds_one h11]
        rfl
    have : ∃ i t, ListAt s i t ∧ ¬ (i < 11 ∧ (∀ j c, entry s.items j = some c → j < 22) ∧ LegibleTables n t) := by
      refine Classical.byContradiction fun hno => hs fun i t hi => ?_
      exact Classical.byContradiction fun h => hno ⟨i, t, hi, h⟩
    obtain ⟨i, t, hi, hn⟩ := this
    by_cases h11 : i < 11
    · by_cases hl : LegibleTables n t
      · have : ∃ j c, entry s.items j = some c ∧ 22 ≤ j := by
          refine Classical.byContradiction fun hno => hn ⟨h11, fun j c hj => ?_, hl⟩
          exact Classical.byContradiction fun h => hno ⟨j, c, hj, by omega⟩
        obtain ⟨j, c, hj, h22⟩ := this
        cases c with
        | mlist t' => exact hone j t' (.inl hj) (by omega)
        | optMil t' => exact hone j t' (.inr hj) (by omega)
        | param pt vt =>
          have hok := emptyObj_ok (hf.2.2 i t hi)
          refine ⟨listWith s (cellsAt i (emptyObj n t) (some (j, pt.some))), listWith_ok hf fun k => ?_, readable_listWith ?_⟩
          · unfold cellsAt
            split
            · subst k; exact cellOk_at hi hok
            · simp only
              split
              · subst k; rw [hj]; exact pt.some_ok vt
              · cases entry s.items k with
                | none => trivial
                | some c => cases c <;> trivial
          · unfold rowReadable
            rw [cellsAt_params _ _ (entry_lt hj) (by omega), cellsAt_lists hi]
            simp only [List.map_nil, List.map_cons, storeIds_two h11 h22]
            rfl
      · obtain ⟨b, hb, hr⟩ := ih t (hf.2.2 i t hi) hl
        refine ⟨listWith s (cellsAt i b none), listWith_ok hf fun k => ?_, readable_listWith ?_⟩
        · unfold cellsAt
          split
          · subst k; exact cellOk_at hi hb
          · cases entry s.items k with
            | none => trivial
            | some c => cases c <;> trivial
        · unfold rowReadable
          rw [cellsAt_lists hi]
          simp only [List.all_cons, List.all_nil, Option.all_some, hr, Bool.false_and, Bool.and_false]
    · exact hone i t hi (by omega)

/-- the root with empty lists -/
def emptyRoot (n : Nat) (sch : RootSch n) : Root n := sch.map fun
  | some (.mlist s) => some (.mil (some (emptyObj n s)))
  | some (.optMil _) => some (.mil none)
  | _ => none

theorem entry_emptyRoot {n : Nat} (sch : RootSch n) (i : Nat) : entry (emptyRoot n sch) i = match entry sch i with
    | some (.mlist s) => some (.mil (some (emptyObj n s)))
    | some (.optMil _) => some (.mil none)
    | _ => none := by
  unfold emptyRoot entry
  rw [List.getElem?_map]
  cases h : sch[i]? with
  | none => rfl
  | some c => rcases c with _ | _ | _ | _ <;> rfl

theorem emptyRoot_ok {n : Nat} {sch : RootSch n} (hlen : sch.length < 2 ^ 62)
    (hf : ∀ i s, entry sch i = some (.mlist s) ∨ entry sch i = some (.optMil s) → TablesFit n s) :
    RootOk n sch (emptyRoot n sch) ∧ OptListsUndefined n sch (emptyRoot n sch) := by
  refine ⟨⟨hlen, by simp [emptyRoot], fun i => ?_, fun i s h => ?_⟩, fun i s h => ?_⟩
  · rw [entry_emptyRoot]
    cases h : entry sch i with
    | none => trivial
    | some c =>
      cases c with
      | param => trivial
      | mlist s => exact emptyObj_ok (hf i s (.inl h))
      | optMil s => trivial
  · rw [entry_emptyRoot]
    rcases h with h | h <;> rw [h] <;> exact fun h => by cases h
  · rw [entry_emptyRoot, h]

theorem entry_setAt {α : Type} (l : List (Option α)) (i k : Nat) (a : Option α) (hi : i < l.length) :
    entry (l.set i a) k = if k = i then a else entry l k := by
  unfold entry
  rw [List.getElem?_set]
  by_cases h : i = k
  · subst h; rw [if_pos rfl, if_pos hi, if_pos rfl]; rfl
  · rw [if_neg h, if_neg (Ne.symm h)]

/-- If a list of the root has a definition not among `LegibleTables`, there are two objects whose diff cannot be read. -/
theorem illegible_root {n : Nat} {sch : RootSch n} (ptr : Ptr) (hlen : sch.length < 2 ^ 62)
    (hf : ∀ i s, entry sch i = some (.mlist s) ∨ entry sch i = some (.optMil s) → TablesFit n s) {i : Nat} {s : Sch n}
    (hi : entry sch i = some (.mlist s)) (hn : ¬ LegibleTables n s) :
    ∃ f t d, RootOk n sch f ∧ RootOk n sch t ∧ OptListsUndefined n sch f ∧ OptListsUndefined n sch t ∧
      getRootDiff n ptr sch f t = .ok d ∧ rootReadable n d = false := by
  obtain ⟨b, hb, hr⟩ := illegible n s (hf i s (.inl hi)) hn
  obtain ⟨h1, h2⟩ := emptyRoot_ok hlen hf
  have hlt : i < (emptyRoot n sch).length := by rw [h1.2.1]; exact entry_lt hi
  have ht : RootOk n sch ((emptyRoot n sch).set i (some (.mil (some b)))) := by
    refine ⟨hlen, by rw [List.length_set]; exact h1.2.1, fun k => ?_, fun k s' hk => ?_⟩
    · rw [entry_setAt _ _ _ _ hlt]
      split
      · subst k; rw [hi]; exact hb
      · exact h1.2.2.1 k
    · rw [entry_setAt _ _ _ _ hlt]
      split
      · exact fun h => by cases h
      · exact h1.2.2.2 k s' hk
  have hot : OptListsUndefined n sch ((emptyRoot n sch).set i (some (.mil (some b)))) := by
    intro k s' hk
    rw [entry_setAt _ _ _ _ hlt]
    split
    · subst k; rw [hi] at hk; cases hk
    · exact h2 k s' hk
  refine ⟨_, _, _, h1, ht, h2, hot, getRootDiff_eq ptr h1 ht h2 hot, ?_⟩
  have hd : ∃ dd, getDiffN n (fun p => ptr (i :: p)) s (emptyObj n s) b = some dd ∧ readable n dd = false := by
    cases n with
    | zero => exact nomatch s
    | succ n =>
      have hne : b.items ≠ [] := by
        intro h
        have : newListN (n + 1) s b = ⟨[], b.nextId⟩ := by
          show ListDiff.mk (creates _ _ none b.items) b.nextId = _
          rw [h]; rfl
        rw [this] at hr
        cases hr
      have he : getDiffN (n + 1) (fun p => ptr (i :: p)) s (emptyObj (n + 1) s) b =
          if (creates (fun _ => false) (newItem (newListN n) s) none b.items).length = 0 then none else some (newListN (n + 1) s b) := rfl
      rw [he, if_neg]
      · exact ⟨_, rfl, hr⟩
      · cases hb' : b.items with
        | nil => exact absurd hb' hne
        | cons x xs => simp [creates]
  obtain ⟨dd, hd1, hd2⟩ := hd
  have key : ∀ L : List (Nat × Option (DiffT n)), (i, some dd) ∈ L → (L.all fun x => x.2.all (readable n)) = false := by
    intro L hL
    rw [List.all_eq_false]
    exact ⟨_, hL, by simp [hd2]⟩
  refine key _ (mem_collect.2 ⟨by rw [List.length_set]; exact hlt, ?_⟩)
  simp only
  rw [entry_setAt _ _ _ _ hlt, if_pos rfl, entry_emptyRoot, hi]
  show (getDiffN n _ s (emptyObj n s) b).map some = _
  rw [hd1]; rfl

/-- Only lists of the root that cannot be undefined have a diff. -/
theorem rootReadable_of_mlist {n : Nat} {sch : RootSch n} (ptr : Ptr)
    (hs : ∀ i s, entry sch i = some (.mlist s) → LegibleTables n s) {f t : Root n} (hf : RootOk n sch f) (ht : RootOk n sch t)
    (hof : OptListsUndefined n sch f) (hot : OptListsUndefined n sch t) {d : RootDiff (DiffT n)} (h : getRootDiff n ptr sch f t = .ok d) :
    rootReadable n d = true := by
  have hok := getRootDiff_ok hf ht hof hot h
  rw [getRootDiff_eq ptr hf ht hof hot] at h
  cases h
  unfold rootReadable
  rw [List.all_eq_true]
  intro x hx
  have h1 := hok.2.2.2.2 x hx
  have h2 := (mem_collect.1 hx).2
  cases hd : x.2 with
  | none => rfl
  | some e =>
    rw [hd] at h1
    cases he : entry sch x.1 with
    | none => rw [he] at h1; exact h1.elim
    | some col =>
      rw [he] at h1
      cases col with
      | param => exact h1.elim
      | mlist s => exact readable_of_legible n s e (hs x.1 s he) h1
      | optMil s =>
        rw [hof x.1 s he, hot x.1 s he, he, hd] at h2
        cases h2

end Verif.Diff
