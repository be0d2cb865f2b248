import Verif.Lemmas.DiffNamedOk
/-! # Applying a diff by name is applying it by id -/
namespace Verif.Named
open Diff Core Source LinkedMap

/-! ## Lists -/

section
variable {V W : Type}

/-- a list with its items replaced -/
def mapS (f : V → W) (l : SList V) : SList W := ⟨l.items.map fun e => (e.1, f e.2), l.nextId⟩

/-- an operation with its items replaced -/
def mapOp (f : V → W) : LinkedMap.Op V → LinkedMap.Op W
  | .insertFirst v => .insertFirst (f v)
  | .insertLast v => .insertLast (f v)
  | .insertFirstWithId id v => .insertFirstWithId id (f v)
  | .insertLastWithId id v => .insertLastWithId id (f v)
  | .remove id => .remove id
  | .removeFirst => .removeFirst
  | .removeLast => .removeLast
  | .moveToFirst id => .moveToFirst id
  | .moveToLast id => .moveToLast id
  | .moveToPrev a b => .moveToPrev a b
  | .moveToNext a b => .moveToNext a b
  | .setItem id v => .setItem id (f v)
  | .setNextId n => .setNextId n

theorem mapS_ids (f : V → W) (l : SList V) : (mapS f l).ids = l.ids := by
  unfold SList.ids mapS
  simp only [List.map_map]
  rfl

theorem mapS_find (f : V → W) (l : SList V) (id : Nat) : (mapS f l).find id = (l.find id).map fun e => (e.1, f e.2) := by
  unfold SList.find mapS
  rw [List.find?_map]
  rfl

theorem mapS_without (f : V → W) (l : SList V) (id : Nat) : (mapS f l).without id = (l.without id).map fun e => (e.1, f e.2) := by
  unfold SList.without mapS
  rw [List.filter_map]
  rfl

theorem map_putBefore (f : V → W) (id : Nat) (x : Nat × V) (l : List (Nat × V)) :
    putBefore id (x.1, f x.2) (l.map fun e => (e.1, f e.2)) = (putBefore id x l).map fun e => (e.1, f e.2) := by
  unfold putBefore
  rw [List.flatMap_map, List.map_flatMap]
  congr 1
  funext y
  by_cases h : y.1 = id
  · simp [h]
  · simp [h]

theorem map_putAfter (f : V → W) (id : Nat) (x : Nat × V) (l : List (Nat × V)) :
    putAfter id (x.1, f x.2) (l.map fun e => (e.1, f e.2)) = (putAfter id x l).map fun e => (e.1, f e.2) := by
  unfold putAfter
  rw [List.flatMap_map, List.map_flatMap]
  congr 1
  funext y
  by_cases h : y.1 = id
  · simp [h]
  · simp [h]

/-- Operations do not look at the items. -/
theorem step_mapS (f : V → W) (l : SList V) (op : LinkedMap.Op V) :
    (mapS f l).step (mapOp f op) = (mapS f (l.step op).1, (l.step op).2) := by
  cases op with
  | insertFirst v => rfl
  | insertLast v => simp [mapOp, SList.step, mapS]
  | insertFirstWithId id v =>
    simp only [mapOp, SList.step, mapS_ids]
    split <;> rfl
  | insertLastWithId id v =>
    simp only [mapOp, SList.step, mapS_ids]
    split
    · rfl
    · simp [mapS]
  | remove id => simp only [mapOp, SList.step, mapS_ids, mapS_without]; rfl
  | removeFirst => simp [mapOp, SList.step, mapS]
  | removeLast => simp [mapOp, SList.step, mapS]
  | moveToFirst id =>
    simp only [mapOp, SList.step, mapS_find, mapS_without]
    cases l.find id <;> rfl
  | moveToLast id =>
    simp only [mapOp, SList.step, mapS_find, mapS_without]
    cases l.find id with
    | none => rfl
    | some x => simp [mapS]
  | moveToPrev a b =>
    simp only [mapOp, SList.step, mapS_find, mapS_without, mapS_ids]
    cases l.find b with
    | none => rfl
    | some x =>
      simp only [Option.map_some]
      split
      · rw [map_putBefore]; rfl
      · rfl
  | moveToNext a b =>
    simp only [mapOp, SList.step, mapS_find, mapS_without, mapS_ids]
    cases l.find b with
    | none => rfl
    | some x =>
      simp only [Option.map_some]
      split
      · rw [map_putAfter]; rfl
      · rfl
  | setItem id v =>
    simp only [mapOp, SList.step, mapS_ids]
    congr 1
    simp only [mapS, List.map_map]
    congr 1
    apply List.map_congr_left
    intro x _
    simp only [Function.comp]
    split <;> rfl
  | setNextId n => rfl

end

theorem listL_mapS (n : Nat) (tb : Tables) (l : NList) : listL n tb l = mapS (rowL n tb) l := rfl

/-! ## Maps -/

/-- a table of values by id -/
theorem map_insert {V C : Type} {t : MetaTable} (hn : ∀ i j k m m', metaGet t i = some (k, m) → metaGet t j = some (k, m') → i = j)
    (F : Meta → V → C) {id : Nat} {k : String} {m : Meta} (hk : metaGet t id = some (k, m)) (v : AMap V) (w : V) :
    (t.map fun c => c.bind fun c => ((v.insert k w).get c.1).map (F c.2)) =
      (t.map fun c => c.bind fun c => (v.get c.1).map (F c.2)).set id (some (F m w)) := by
  apply List.ext_getElem?
  intro i
  rw [List.getElem?_map, List.getElem?_set]
  by_cases hi : id = i
  · subst hi
    rw [if_pos rfl]
    have hlt := metaGet_lt hk
    rw [List.length_map, if_pos hlt]
    unfold metaGet at hk
    cases hx : t[id]? with
    | none => rw [hx] at hk; cases hk
    | some x =>
      rw [hx] at hk
      cases x with
      | none => cases hk
      | some y => cases hk; simp [AMap.get_insert_self]
  · rw [if_neg hi, List.getElem?_map]
    cases hx : t[i]? with
    | none => rfl
    | some x =>
      cases x with
      | none => rfl
      | some y =>
        obtain ⟨k', m'⟩ := y
        have hne : k' ≠ k := by
          rintro rfl
          exact hi (hn _ _ _ _ _ hk (metaGet_of hx))
        simp [AMap.get_insert_ne _ _ hne]

theorem Tab.inj' {d : LDef} {tb : Tables} (h : Tab d tb) (i j : Nat) (k : String) (m m' : Meta) (h1 : metaGet tb.1 i = some (k, m))
    (h2 : metaGet tb.1 j = some (k, m')) : i = j := by
  obtain ⟨v, hv⟩ := h.member h1
  obtain ⟨v', hv'⟩ := h.member h2
  rw [hv] at hv'; cases hv'; rfl

theorem Tab.refInj' {d : LDef} {tb : Tables} (h : Tab d tb) (i j : Nat) (k : String) (m m' : Meta) (h1 : metaGet tb.2 i = some (k, m))
    (h2 : metaGet tb.2 j = some (k, m')) : i = j := by
  obtain ⟨_, _, hv, _⟩ := h.refMember h1
  obtain ⟨_, _, hv', _⟩ := h.refMember h2
  rw [hv] at hv'; cases hv'; rfl

theorem valsL_insert {n : Nat} {t : MetaTable} (hn : ∀ i j k m m', metaGet t i = some (k, m) → metaGet t j = some (k, m') → i = j)
    {id : Nat} {k : String} {m : Meta} (hk : metaGet t id = some (k, m)) (v : AMap SabVal) (w : SabVal) :
    valsL n t (v.insert k w) = (valsL n t v).set id (some (cellL n m w)) := map_insert hn (cellL n) hk v w

theorem refValsL_insert {t : MetaTable} (hn : ∀ i j k m m', metaGet t i = some (k, m) → metaGet t j = some (k, m') → i = j)
    {id : Nat} {k : String} {m : Meta} (hk : metaGet t id = some (k, m)) (v : AMap (Qv String)) (w : Qv String) :
    refValsL t (v.insert k w) = (refValsL t v).set id (some w) := by
  have := map_insert hn (fun _ (q : Qv String) => q) hk v w
  simpa [refValsL] using this

theorem colL_some {n : Nat} {t : MetaTable} (hl : LevelOk n t) {id : Nat} {k : String} {m : Meta} (hm : metaGet t id = some (k, m)) :
    ∃ c, colL n m = some c := by
  cases m with
  | param pt vt => exact ⟨_, colL_param n pt vt⟩
  | mlist i r => obtain ⟨n', rfl, _⟩ := levelOk_get hl hm (tb := (i, r)) rfl; exact ⟨_, rfl⟩
  | optMil i r => obtain ⟨n', rfl, _⟩ := levelOk_get hl hm (tb := (i, r)) rfl; exact ⟨_, rfl⟩

/-! ## Items -/

section
variable {n : Nat} {d : LDef} {tb : Tables}

theorem nApplyParams_eq (ht : Tab d tb) (hl : LevelOk n tb.1) : ∀ (ps : List (Nat × Param)) (v : AMap SabVal),
    (nApplyParams tb.1 ps v).map (valsL n tb.1) = applyParams (colsL n tb.1) ps (valsL n tb.1 v)
  | [], _ => rfl
  | (id, p) :: ps, v => by
    rw [nApplyParams, applyParams]
    cases hm : metaGet tb.1 id with
    | none =>
      have : entry (colsL n tb.1) id = none := by rw [entry_colsL, hm]; rfl
      rw [this]; rfl
    | some e =>
      obtain ⟨k, m⟩ := e
      obtain ⟨c, hc⟩ := colL_some hl hm
      rw [entry_col_of hm, hc]
      simp only
      rw [nApplyParams_eq ht hl ps, valsL_insert ht.inj' hm, cellL_param]

/-- what is needed of the functions for inner lists -/
def ApplySpec (n : Nat) (a : (Tables → DiffT n → Res NList) × (Tables → NList → DiffT n → Res NList)) : Prop :=
  ∀ d m tb n', metaTables m = some tb → Tab d tb → n = n' + 1 → LevelOk n' tb.1 → ∃ s, (colL n m).bind Col.tables = some s ∧
    (∀ l x df, cellL n m (.mil l.items l.nextId) = .mil (some x) →
      (a.2 tb l df).map (fun l => cellL n m (.mil l.items l.nextId)) = ((applyN n).2 s x df).map fun y => .mil (some y)) ∧
    ∀ df, (a.1 tb df).map (fun l => cellL n m (.mil l.items l.nextId)) = ((applyN n).1 s df).map fun y => .mil (some y)

theorem map_map {α β γ : Type} (r : Res α) (f : α → β) (g : β → γ) : (r.map f).map g = r.map fun x => g (f x) := by cases r <;> rfl
theorem map_bind {α β γ : Type} (r : Res α) (f : α → Res β) (g : β → γ) : (r.bind f).map g = r.bind fun x => (f x).map g := by cases r <;> rfl
theorem bind_map {α β γ : Type} (r : Res α) (f : α → β) (g : β → Res γ) : (r.map f).bind g = r.bind fun x => g (f x) := by cases r <;> rfl

theorem nApplyLists_eq {a : (Tables → DiffT n → Res NList) × (Tables → NList → DiffT n → Res NList)} (ha : ApplySpec n a) (ht : Tab d tb)
    (hl : LevelOk n tb.1) : ∀ (ls : List (Nat × Option (DiffT n))) (v : AMap SabVal),
    (nApplyLists a.2 a.1 tb.1 ls v).map (valsL n tb.1) = applyLists (applyN n).2 (applyN n).1 (colsL n tb.1) ls (valsL n tb.1 v)
  | [], _ => rfl
  | (id, df) :: ls, v => by
    rw [nApplyLists, applyLists]
    cases hm : metaGet tb.1 id with
    | none =>
      have : entry (colsL n tb.1) id = none := by rw [entry_colsL, hm]; rfl
      rw [this]; rfl
    | some e =>
      obtain ⟨k, m⟩ := e
      simp only
      rw [entry_col_of hm, entry_vals_of hm]
      cases hmt : metaTables m with
      | none =>
        rw [colL_tables_none hmt]; rfl
      | some tb' =>
        obtain ⟨w, hw⟩ := ht.member hm
        have hd' : ∃ d', Tab d' tb' := by
          cases w with
          | param p vt => have h := ht.param hw; rw [hm] at h; cases h; cases hmt
          | cilDef d' => rw [ht.cil hw] at hm; cases hm
          | milDef d' u =>
            obtain ⟨tb'', mt, ht', h1, h2⟩ := ht.mil' hw
            rw [hm] at h1; cases h1; rw [hmt] at h2; cases h2
            exact ⟨d', ht'⟩
        obtain ⟨d', ht'⟩ := hd'
        obtain ⟨n', hn, hl'⟩ := levelOk_get hl hm hmt
        obtain ⟨s, hs, h1, h2⟩ := ha d' m tb' n' hmt ht' hn hl'
        rw [hs]
        simp only
        have hcell : (nApplyList a.2 a.1 tb' (v.get k) df).map (cellL n m) =
            applyList (applyN n).2 (applyN n).1 s ((v.get k).map (cellL n m)) df := by
          unfold nApplyList applyList
          cases df with
          | none => exact congrArg Res.ok (cellL_milNone hmt)
          | some df =>
            simp only
            cases hv : v.get k with
            | none => simp only [Option.map_none]; rw [map_map]; exact h2 df
            | some w =>
              cases w with
              | param p => simp only [Option.map_some, cellL_param]; rw [map_map]; exact h2 df
              | cil l => simp only [Option.map_some, cellL_cil hmt]; rw [map_map]; exact h2 df
              | milNone => simp only [Option.map_some, cellL_milNone hmt]; rw [map_map]; exact h2 df
              | mil l ln =>
                subst hn
                simp only [Option.map_some, cellL_mil hmt]; rw [map_map]
                exact h1 ⟨l, ln⟩ _ df (cellL_mil hmt l ln)
        rw [← hcell, map_bind, bind_map]
        congr 1
        funext c
        rw [nApplyLists_eq ha ht hl ls, valsL_insert ht.inj' hm]

theorem nApplyRefs_eq (ht : Tab d tb) : ∀ (rs : List (Nat × Qv String)) (v : AMap (Qv String)),
    (nApplyRefs tb.2 rs v).map (refValsL tb.2) = applyRefs (refsL tb.2) rs (refValsL tb.2 v)
  | [], _ => rfl
  | (id, q) :: rs, v => by
    rw [nApplyRefs, applyRefs]
    cases hm : metaGet tb.2 id with
    | none =>
      have : (refsL tb.2)[id]? = none := by
        rw [List.getElem?_eq_none_iff, refsL_length]
        refine Nat.le_of_not_lt fun hlt => ?_
        rw [ht.refs.1] at hlt
        have hid : id ∈ d.refs.refs.map (·.2.1) := by
          have : IdsFill (d.refs.refs.map (·.2.1)) := by cases ht.num with | mk a b c e f g => exact e
          refine this.mem_iff.mpr ?_
          simpa using hlt
        obtain ⟨⟨k', id', q, vt⟩, he, rfl⟩ := List.mem_map.mp hid
        rw [ht.refPlace (AMap.get_of_mem ht.refsWf he)] at hm
        cases hm
      rw [this]; rfl
    | some e =>
      obtain ⟨k, m⟩ := e
      have : (refsL tb.2)[id]? ≠ none := by
        rw [Ne, List.getElem?_eq_none_iff, refsL_length]
        have := metaGet_lt hm
        omega
      cases hr : (refsL tb.2)[id]? with
      | none => exact absurd hr this
      | some vt =>
        simp only
        rw [nApplyRefs_eq ht rs, refValsL_insert ht.refInj' hm]

theorem nModify_eq {a : (Tables → DiffT n → Res NList) × (Tables → NList → DiffT n → Res NList)} (ha : ApplySpec n a) (ht : Tab d tb)
    (hl : LevelOk n tb.1) (it : Item) (df : RowDiff (DiffT n)) :
    (nModify a.2 a.1 tb it df).map (rowL n tb) = modifyItem (applyN n).2 (applyN n).1 (schL n tb) (rowL n tb it) df := by
  unfold nModify modifyItem
  show _ = (applyParams (colsL n tb.1) df.params (valsL n tb.1 it.values)).bind fun v =>
    (applyLists (applyN n).2 (applyN n).1 (colsL n tb.1) df.lists v).bind fun v =>
      (applyRefs (refsL tb.2) df.refs (refValsL tb.2 it.refs)).map fun refs => (⟨v, refs⟩ : Row (Obj n))
  rw [← nApplyParams_eq ht hl, map_bind, bind_map]
  congr 1
  funext v
  rw [← nApplyLists_eq ha ht hl, map_bind, bind_map]
  congr 1
  funext v
  rw [← nApplyRefs_eq ht, map_map, map_map]
  rfl

theorem valsL_nil (n : Nat) (t : MetaTable) : valsL n t [] = List.replicate t.length none := by
  unfold valsL
  rw [List.eq_replicate_iff]
  refine ⟨by simp, fun x hx => ?_⟩
  obtain ⟨c, _, rfl⟩ := List.mem_map.mp hx
  cases c <;> rfl

theorem refValsL_nil (t : MetaTable) : refValsL t [] = List.replicate t.length none := by
  unfold refValsL
  rw [List.eq_replicate_iff]
  refine ⟨by simp, fun x hx => ?_⟩
  obtain ⟨c, _, rfl⟩ := List.mem_map.mp hx
  cases c <;> rfl

theorem nNewItem_eq {a : (Tables → DiffT n → Res NList) × (Tables → NList → DiffT n → Res NList)} (ha : ApplySpec n a) (ht : Tab d tb)
    (hl : LevelOk n tb.1) (df : RowDiff (DiffT n)) :
    (nNewItem a.2 a.1 tb df).map (rowL n tb) = newItemFromDiff (applyN n).2 (applyN n).1 (schL n tb) df := by
  unfold nNewItem newItemFromDiff
  rw [nModify_eq ha ht hl]
  congr 1
  show (⟨valsL n tb.1 [], refValsL tb.2 []⟩ : Row (Obj n)) = ⟨List.replicate (colsL n tb.1).length none, List.replicate (refsL tb.2).length none⟩
  rw [valsL_nil, refValsL_nil, colsL_length, refsL_length]

theorem nApplyItem_eq {a : (Tables → DiffT n → Res NList) × (Tables → NList → DiffT n → Res NList)} (ha : ApplySpec n a) (ht : Tab d tb)
    (hl : LevelOk n tb.1) (l : NList) (x : Nat × ItemDiff (DiffT n)) :
    (nApplyItem a.2 a.1 tb l x).map (listL n tb) = applyItem (applyN n).2 (applyN n).1 (schL n tb) (listL n tb l) x := by
  unfold nApplyItem applyItem
  obtain ⟨id, df⟩ := x
  cases df with
  | delete =>
    simp only
    have := step_mapS (rowL n tb) l (.remove id)
    rw [listL_mapS]
    exact congrArg Res.ok (congrArg (·.1) this).symm
  | create prev df =>
    simp only
    rw [← nNewItem_eq ha ht hl, map_bind, bind_map]
    congr 1
    funext row
    have hi := step_mapS (rowL n tb) l (.insertFirstWithId id row)
    rw [listL_mapS]
    rw [show (mapS (rowL n tb) l).step (.insertFirstWithId id (rowL n tb row)) = _ from hi]
    rcases l.step (.insertFirstWithId id row) with ⟨l', r⟩
    simp only
    cases r with
    | id _ => rfl
    | unit => rfl
    | bool b =>
      cases b with
      | false => rfl
      | true =>
        simp only
        cases prev with
        | none => rfl
        | some p =>
          simp only
          have hm := step_mapS (rowL n tb) l' (.moveToNext p id)
          rw [show (mapS (rowL n tb) l').step (.moveToNext p id) = _ from hm]
          rcases l'.step (.moveToNext p id) with ⟨l'', r⟩
          simp only
          cases r with
          | id _ => rfl
          | unit => rfl
          | bool b => cases b <;> rfl
  | modify df =>
    simp only
    rw [listL_find]
    cases hy : l.find id with
    | none => rfl
    | some y =>
      simp only [Option.map_some]
      rw [← nModify_eq ha ht hl, map_map, map_map]
      congr 1
      funext row
      have := step_mapS (rowL n tb) l (.setItem id row)
      exact (congrArg (·.1) this).symm

theorem loop_items {a : (Tables → DiffT n → Res NList) × (Tables → NList → DiffT n → Res NList)} (ha : ApplySpec n a) (ht : Tab d tb)
    (hl : LevelOk n tb.1) : ∀ (xs : List (Nat × ItemDiff (DiffT n))) (l : NList),
    (loop (nApplyItem a.2 a.1 tb) xs l).map (listL n tb) = applyItems (applyN n).2 (applyN n).1 (schL n tb) xs (listL n tb l)
  | [], _ => rfl
  | x :: xs, l => by
    rw [loop, applyItems, ← nApplyItem_eq ha ht hl, map_bind, bind_map]
    congr 1
    funext l
    exact loop_items ha ht hl xs l

theorem nApplyListDiff_eq {a : (Tables → DiffT n → Res NList) × (Tables → NList → DiffT n → Res NList)} (ha : ApplySpec n a) (ht : Tab d tb)
    (hl : LevelOk n tb.1) (l : NList) (df : ListDiff (DiffT n)) :
    (nApplyListDiff a.2 a.1 tb l df).map (listL n tb) = applyListDiff (applyN n).2 (applyN n).1 (schL n tb) (listL n tb l) df := by
  unfold nApplyListDiff applyListDiff
  rw [loop_items ha ht hl]
  rfl

end

theorem applySpec : ∀ n, ApplySpec n (nApplyN n)
  | 0 => fun _ _ _ _ _ _ h => by cases h
  | n + 1 => fun d m tb n' hm ht hn hl => by
    cases hn
    refine ⟨schL n tb, colL_tables hm, fun l x df hx => ?_, fun df => ?_⟩
    · rw [cellL_mil hm] at hx
      have hx : listL n tb l = x := by injection hx with hx; injection hx
      subst hx
      have := nApplyListDiff_eq (applySpec n) ht hl l df
      show (nApplyListDiff (nApplyN n).2 (nApplyN n).1 tb l df).map _ = (applyListDiff (applyN n).2 (applyN n).1 (schL n tb) (listL n tb l) df).map _
      rw [← this, map_map]
      congr 1
      funext l
      exact cellL_mil hm _ _
    · have := nApplyListDiff_eq (applySpec n) ht hl ⟨[], 0⟩ df
      show (nApplyListDiff (nApplyN n).2 (nApplyN n).1 tb ⟨[], 0⟩ df).map _ =
        (applyListDiff (applyN n).2 (applyN n).1 (schL n tb) (listL n tb ⟨[], 0⟩) df).map _
      rw [← this, map_map]
      congr 1
      funext l
      exact cellL_mil hm _ _

end Verif.Named
