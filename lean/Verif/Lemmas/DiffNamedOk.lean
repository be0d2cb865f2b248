import Verif.Lemmas.DiffNamedGet
/-! # Objects that fit by name fit by id -/
namespace Verif.Named
open Diff Core Source LinkedMap

section
variable {n : Nat} {d : LDef} {tb : Tables}

/-- the column and the value of a member -/
theorem entry_col_of {k : String} {id : Nat} {m : Meta} (hm : metaGet tb.1 id = some (k, m)) : entry (colsL n tb.1) id = colL n m := by
  rw [entry_colsL, hm]; rfl

theorem colL_param (n : Nat) (pt : PType) (vt : VType) : colL n (.param pt vt) = some (.param pt vt) := by cases n <;> rfl

theorem colL_if (n : Nat) (u : Bool) (tb : Tables) :
    colL (n + 1) (if u then .optMil tb.1 tb.2 else .mlist tb.1 tb.2) = some (if u then .optMil (schL n tb) else .mlist (schL n tb)) := by
  cases u <;> rfl

theorem Sized.inner {c r : Nat} (h : Sized c r d) {k : String} {id : Nat} {d' : LDef} {u : Bool} (hk : d.members.get k = some (id, .milDef d' u)) :
    Sized c r d' := by cases h with | mk a b c => exact c _ _ _ _ hk

theorem Legible.sized {c : Nat} {d : LDef} (h : Legible c d) : Sized c c d := by
  induction h with
  | mk h1 h2 _ _ _ ih => exact .mk h1 h2 ih

theorem rowOk_of (ht : Tab d tb) (hl : LevelOk n tb.1) {c : Nat} (hs : Sized c c d) {it : Item} (hf : ItemFits d it)
    (ih : ∀ n', n = n' + 1 → ∀ d' tb' l, Tab d' tb' → LevelOk n' tb'.1 → Sized c c d' → ListFits d' l →
      ObjOk (n' + 1) (schL n' tb') (listL n' tb' l)) : RowOk (ObjOk n) (schL n tb) (rowL n tb it) := by
  refine ⟨?_, fun i => ?_, ?_, fun i q hq => ?_⟩
  · show (valsL n tb.1 it.values).length = (colsL n tb.1).length
    rw [valsL_length, colsL_length]
  · show CellOk (ObjOk n) (entry (colsL n tb.1) i) (entry (valsL n tb.1 it.values) i)
    cases hm : metaGet tb.1 i with
    | none =>
      have : entry (valsL n tb.1 it.values) i = none := by rw [entry_valsL, hm]; rfl
      rw [this]; unfold CellOk; split <;> simp_all
    | some e =>
      obtain ⟨k, m⟩ := e
      rw [entry_vals_of hm, entry_col_of hm]
      obtain ⟨v, hv⟩ := ht.member hm
      cases hk : it.values.get k with
      | none => rw [Option.map_none]; unfold CellOk; split <;> simp_all
      | some w =>
        rw [Option.map_some]
        cases w with
        | param p =>
          obtain ⟨id, q, vt, h1, h2⟩ := hf.param hk
          rw [hv] at h1; cases h1
          have := ht.param hv
          rw [hm] at this; cases this
          rw [colL_param, cellL_param]
          show ParamOk _ _ _
          rw [ptype_eq]; exact h2
        | cil l =>
          obtain ⟨id, d', h1⟩ := hf.cil hk
          rw [hv] at h1; cases h1
          rw [ht.cil hv] at hm; cases hm
        | milNone =>
          obtain ⟨id, d', h1⟩ := hf.milNone hk
          rw [hv] at h1; cases h1
          obtain ⟨tb', ht', h2⟩ := ht.mil hv
          rw [hm] at h2; cases h2
          obtain ⟨n', rfl, _⟩ := levelOk_get hl hm (metaTables_if true tb')
          rw [cellL_milNone (metaTables_if true tb')]
          trivial
        | mil l ln =>
          obtain ⟨id, d', u, h1, h3⟩ := hf.mil hk
          rw [hv] at h1; cases h1
          obtain ⟨tb', ht', h2⟩ := ht.mil hv
          rw [hm] at h2; cases h2
          obtain ⟨n', rfl, hl'⟩ := levelOk_get hl hm (metaTables_if u tb')
          rw [cellL_mil (metaTables_if u tb'), colL_if]
          have := ih n' rfl d' tb' ⟨l, ln⟩ ht' hl' (hs.inner hv) h3
          cases u
          · exact this
          · exact this
  · show (refValsL tb.2 it.refs).length = (refsL tb.2).length
    rw [refValsL_length, refsL_length]
  · have hq : entry (refValsL tb.2 it.refs) i = some q := hq
    rw [entry_refValsL] at hq
    cases hm : metaGet tb.2 i with
    | none => rw [hm] at hq; cases hq
    | some e =>
      obtain ⟨k, m⟩ := e
      rw [hm] at hq
      obtain ⟨id, x, vt, h1, h2⟩ := hf.ref hq
      obtain ⟨q', vt', h3, rfl⟩ := ht.refMember hm
      rw [h3] at h1; cases h1
      refine ⟨vt, ?_, h2⟩
      show (refsL tb.2)[i]? = some vt
      unfold refsL
      rw [List.getElem?_map, ht.refs.2 _ _ _ _ (AMap.mem_of_get h3)]
      rfl

theorem objOk_of {c : Nat} (hc : c < 2 ^ 62) : ∀ (n : Nat) {d : LDef} {tb : Tables} {l : NList}, Tab d tb → LevelOk n tb.1 → Sized c c d →
    ListFits d l → ObjOk (n + 1) (schL n tb) (listL n tb l)
  | n, d, tb, l, ht, hl, hs, hf => by
    have hs' := hs
    cases hs' with
    | mk h1 h2 h3 =>
      obtain ⟨⟨a1, a2, a3, a4⟩, a5⟩ := hf
      refine ⟨?_, ?_, ?_, ?_, a3, ?_, ?_⟩
      · show (colsL n tb.1).length < _
        rw [colsL_length, ht.length]; omega
      · show (refsL tb.2).length < _
        rw [refsL_length, ht.refs.1]; omega
      · show (listL n tb l).ids.Nodup
        rw [listL_ids]; exact a1
      · intro i hi
        have hi : i ∈ (listL n tb l).ids := hi
        rw [listL_ids] at hi
        obtain ⟨e, he, rfl⟩ := List.mem_map.mp hi
        exact a2 e he
      · show (l.items.map _).length < _
        rw [List.length_map]; exact a4
      · intro x hx
        obtain ⟨e, he, rfl⟩ := List.mem_map.mp hx
        refine rowOk_of ht hl hs (a5 e he) fun n' hn d' tb' l' ht' hl' hs' hf' => ?_
        subst hn
        exact objOk_of hc n' ht' hl' hs' hf'

/-! ## The same values -/

theorem sameItem_of : ∀ (n : Nat) {d : LDef} {tb : Tables} {a b : Item}, Tab d tb → LevelOk n tb.1 → ItemFits d a →
    rowL n tb a = rowL n tb b → SameItem d a b := by
  intro n
  induction n using Nat.strong_induction_on with
  | _ n ih =>
    intro d tb a b ht hl hf heq
    have hv : ∀ {k id v m}, d.members.get k = some (id, v) → metaGet tb.1 id = some (k, m) →
        (a.values.get k).map (cellL n m) = (b.values.get k).map (cellL n m) := by
      intro k id v m hk hm
      rw [← entry_vals_of hm, ← entry_vals_of hm]
      exact congrArg (fun r : Row (Obj n) => entry r.values id) heq
    have hmil : ∀ {k id d' u}, d.members.get k = some (id, .milDef d' u) → ∀ {l ln}, a.values.get k = some (.mil l ln) → ∀ {w},
        b.values.get k = some w → ∃ tb' n' m mn, n = n' + 1 ∧ Tab d' tb' ∧ LevelOk n' tb'.1 ∧ w = .mil m mn ∧
          listL n' tb' ⟨l, ln⟩ = listL n' tb' ⟨m, mn⟩ := by
      intro k id d' u hk l ln hak w hbk
      obtain ⟨tb', mt, ht', hm, hmt⟩ := ht.mil' hk
      obtain ⟨n', rfl, hl'⟩ := levelOk_get hl hm hmt
      have h := hv hk hm
      rw [hak, hbk, Option.map_some, Option.map_some, cellL_mil hmt] at h
      cases w with
      | param p => rw [cellL_param] at h; cases h
      | cil x => rw [cellL_cil hmt] at h; cases h
      | milNone => rw [cellL_milNone hmt] at h; cases h
      | mil m mn =>
        rw [cellL_mil hmt] at h
        exact ⟨tb', n', m, mn, rfl, ht', hl', rfl, by injection h with h; injection h with h; injection h⟩
    refine .mk ?_ ?_ ?_ ?_ ?_
    · intro k id p vt hk
      have hm := ht.param hk
      have h := hv hk hm
      cases ha : a.values.get k with
      | none =>
        cases hb : b.values.get k with
        | none => rfl
        | some w => rw [ha, hb] at h; cases h
      | some v =>
        cases hb : b.values.get k with
        | none => rw [ha, hb] at h; cases h
        | some w =>
          rw [ha, hb, Option.map_some, Option.map_some] at h
          cases v with
          | param q =>
            rw [cellL_param] at h
            cases w with
            | param q' => rw [cellL_param] at h; cases h; rfl
            | cil => cases n <;> cases h
            | milNone => cases n <;> cases h
            | mil => cases n <;> cases h
          | cil l => obtain ⟨_, _, hx⟩ := hf.cil ha; rw [hk] at hx; cases hx
          | milNone => obtain ⟨_, _, hx⟩ := hf.milNone ha; rw [hk] at hx; cases hx
          | mil l ln => obtain ⟨_, _, _, hx, _⟩ := hf.mil ha; rw [hk] at hx; cases hx
    · intro k id d' u hk
      obtain ⟨tb', mt, ht', hm, hmt⟩ := ht.mil' hk
      obtain ⟨n', rfl, hl'⟩ := levelOk_get hl hm hmt
      have h := hv hk hm
      cases ha : a.values.get k with
      | none =>
        cases hb : b.values.get k with
        | none => exact .none
        | some w => rw [ha, hb] at h; cases h
      | some v =>
        cases hb : b.values.get k with
        | none => rw [ha, hb] at h; cases h
        | some w =>
          rw [ha, hb, Option.map_some, Option.map_some] at h
          cases v with
          | param q => obtain ⟨_, _, _, hx, _⟩ := hf.param ha; rw [hk] at hx; cases hx
          | cil l => obtain ⟨_, _, hx⟩ := hf.cil ha; rw [hk] at hx; cases hx
          | milNone =>
            rw [cellL_milNone hmt] at h
            cases w with
            | param p => rw [cellL_param] at h; cases h
            | cil x => rw [cellL_cil hmt] at h; cases h
            | milNone => exact .undef
            | mil m mn => rw [cellL_mil hmt] at h; cases h
          | mil l ln =>
            rw [cellL_mil hmt] at h
            cases w with
            | param p => rw [cellL_param] at h; cases h
            | cil x => rw [cellL_cil hmt] at h; cases h
            | milNone => rw [cellL_milNone hmt] at h; cases h
            | mil m mn => exact .list _ _ _ _
    · intro k id d' u l ln m mn hk ha hb
      obtain ⟨tb', n', m', mn', _, _, _, hw, he⟩ := hmil hk ha hb
      cases hw
      refine ⟨congrArg (·.nextId) he, ?_⟩
      have := congrArg SList.ids he
      rw [listL_ids, listL_ids] at this
      exact this
    · intro k id d' u l ln m mn hk ha hb i x y hx hy
      obtain ⟨tb', n', m', mn', rfl, ht', hl', hw, he⟩ := hmil hk ha hb
      cases hw
      obtain ⟨_, _, _, h1, h2⟩ := hf.mil ha
      rw [hk] at h1; cases h1
      refine ih n' (Nat.lt_succ_self _) ht' hl' (h2.2 x (List.mem_of_getElem? hx)) ?_
      have : (listL n' tb' ⟨l, ln⟩).items[i]? = (listL n' tb' ⟨m, mn⟩).items[i]? := by rw [he]
      unfold listL at this
      simp only [List.getElem?_map, hx, hy, Option.map_some, Option.some.injEq, Prod.mk.injEq] at this
      exact this.2
    · intro k x hk
      obtain ⟨id, q, vt⟩ := x
      have hm := ht.refPlace hk
      have h : entry (refValsL tb.2 a.refs) id = entry (refValsL tb.2 b.refs) id := congrArg (fun r : Row (Obj n) => entry r.refs id) heq
      rw [entry_refValsL, entry_refValsL, hm] at h
      exact h

theorem sameItems_of {n : Nat} {d : LDef} {tb : Tables} {a b : NList} (ht : Tab d tb) (hl : LevelOk n tb.1) (hf : ∀ e ∈ a.items, ItemFits d e.2)
    (h : (listL n tb a).items = (listL n tb b).items) : SameItems d a.items b.items := by
  refine ⟨?_, fun i x y hx hy => ?_⟩
  · have := congrArg (List.map (·.1)) h
    simp only [listL, List.map_map] at this
    exact this
  · refine sameItem_of n ht hl (hf x (List.mem_of_getElem? hx)) ?_
    have : (listL n tb a).items[i]? = (listL n tb b).items[i]? := by rw [h]
    unfold listL at this
    simp only [List.getElem?_map, hx, hy, Option.map_some, Option.some.injEq, Prod.mk.injEq] at this
    exact this.2

/-! ## Changes -/

theorem rowStep_of : ∀ (n : Nat) {d : LDef} {tb : Tables} {f t : Item}, Tab d tb → LevelOk n tb.1 → ItemFits d f → ItemFits d t →
    ItemStep d f t → RowStep (ObjStep n) (rowL n tb f) (rowL n tb t) := by
  intro n
  induction n using Nat.strong_induction_on with
  | _ n ih =>
    intro d tb f t ht hl hf hto hst
    obtain ⟨s1, s2, s3, s4, s5, s6⟩ := hst
    constructor
    · intro i
      show CellStep (ObjStep n) (entry (valsL n tb.1 f.values) i) (entry (valsL n tb.1 t.values) i)
      cases hm : metaGet tb.1 i with
      | none => rw [entry_valsL, entry_valsL, hm]; rfl
      | some e =>
        obtain ⟨k, m⟩ := e
        rw [entry_vals_of hm, entry_vals_of hm]
        obtain ⟨v, hv⟩ := ht.member hm
        cases v with
        | param p vt =>
          have h := ht.param hv; rw [hm] at h; cases h
          cases htk : t.values.get k with
          | none => rw [s1 _ _ _ _ hv htk]; rfl
          | some w =>
            cases w with
            | param q =>
              cases hfk : f.values.get k with
              | none => rw [Option.map_some, Option.map_none, cellL_param]; trivial
              | some w =>
                cases w with
                | param q' =>
                  rw [Option.map_some, Option.map_some, cellL_param, cellL_param]
                  exact s2 _ _ _ _ _ _ hv hfk htk
                | cil l => obtain ⟨_, _, hx⟩ := hf.cil hfk; rw [hv] at hx; cases hx
                | milNone => obtain ⟨_, _, hx⟩ := hf.milNone hfk; rw [hv] at hx; cases hx
                | mil l ln => obtain ⟨_, _, _, hx, _⟩ := hf.mil hfk; rw [hv] at hx; cases hx
            | cil l => obtain ⟨_, _, hx⟩ := hto.cil htk; rw [hv] at hx; cases hx
            | milNone => obtain ⟨_, _, hx⟩ := hto.milNone htk; rw [hv] at hx; cases hx
            | mil l ln => obtain ⟨_, _, _, hx, _⟩ := hto.mil htk; rw [hv] at hx; cases hx
        | cilDef d' => rw [ht.cil hv] at hm; cases hm
        | milDef d' u =>
          obtain ⟨tb', mt, ht', h1, hmt⟩ := ht.mil' hv
          rw [hm] at h1; cases h1
          obtain ⟨n', rfl, hl'⟩ := levelOk_get hl hm hmt
          cases htk : t.values.get k with
          | none => rw [s3 _ _ _ _ hv htk]; rfl
          | some w =>
            cases w with
            | param q => obtain ⟨_, _, _, hx, _⟩ := hto.param htk; rw [hv] at hx; cases hx
            | cil l => obtain ⟨_, _, hx⟩ := hto.cil htk; rw [hv] at hx; cases hx
            | milNone =>
              rw [Option.map_some, cellL_milNone hmt]
              cases f.values.get k with
              | none => trivial
              | some w =>
                rw [Option.map_some]
                cases cellL (n' + 1) m w with
                | param _ => trivial
                | mil l => cases l <;> trivial
            | mil l ln =>
              cases hfk : f.values.get k with
              | none => rw [Option.map_some, Option.map_none, cellL_mil hmt]; trivial
              | some w =>
                cases w with
                | param q => obtain ⟨_, _, _, hx, _⟩ := hf.param hfk; rw [hv] at hx; cases hx
                | cil l => obtain ⟨_, _, hx⟩ := hf.cil hfk; rw [hv] at hx; cases hx
                | milNone => rw [Option.map_some, Option.map_some, cellL_mil hmt, cellL_milNone hmt]; trivial
                | mil l' ln' =>
                  rw [Option.map_some, Option.map_some, cellL_mil hmt, cellL_mil hmt]
                  obtain ⟨_, _, _, hx, hlf⟩ := hf.mil hfk
                  rw [hv] at hx; cases hx
                  obtain ⟨_, _, _, hx, hlt⟩ := hto.mil htk
                  rw [hv] at hx; cases hx
                  obtain ⟨so, sn⟩ := s4 _ _ _ _ _ _ _ _ hv hfk htk
                  show ListStep (ObjStep n') _ _
                  refine ⟨?_, fun he => sn (sameItems_of ht' hl' hlf.2 he), ?_⟩
                  · unfold SameOrder; rw [listL_ids, listL_ids]; exact so
                  · intro x hx y hy hxy
                    obtain ⟨x', hx', rfl⟩ := List.mem_map.mp hx
                    obtain ⟨y', hy', rfl⟩ := List.mem_map.mp hy
                    exact ih n' (Nat.lt_succ_self _) ht' hl' (hlf.2 x' hx') (hlt.2 y' hy')
                      (s5 _ _ _ _ _ _ _ _ hv hfk htk x' hx' y' hy' hxy)
    · intro i hi
      have hi : entry (refValsL tb.2 t.refs) i = none := hi
      show entry (refValsL tb.2 f.refs) i = none
      rw [entry_refValsL] at hi ⊢
      cases hm : metaGet tb.2 i with
      | none => rfl
      | some e =>
        obtain ⟨k, m⟩ := e
        rw [hm] at hi
        obtain ⟨q, vt, h1, _⟩ := ht.refMember hm
        exact s6 _ _ h1 hi

theorem objStep_of {n : Nat} {d : LDef} {tb : Tables} {a b : NList} (ht : Tab d tb) (hl : LevelOk n tb.1) (ha : ListFits d a) (hb : ListFits d b)
    (h1 : SameOrderN a.items b.items) (h2 : SameItems d a.items b.items → a.nextId = b.nextId)
    (h3 : ∀ x ∈ a.items, ∀ y ∈ b.items, x.1 = y.1 → ItemStep d x.2 y.2) : ObjStep (n + 1) (listL n tb a) (listL n tb b) := by
  show ListStep (ObjStep n) _ _
  refine ⟨?_, fun he => h2 (sameItems_of ht hl ha.2 he), ?_⟩
  · unfold SameOrder; rw [listL_ids, listL_ids]; exact h1
  · intro x hx y hy hxy
    obtain ⟨x', hx', rfl⟩ := List.mem_map.mp hx
    obtain ⟨y', hy', rfl⟩ := List.mem_map.mp hy
    exact rowStep_of n ht hl (ha.2 x' hx') (hb.2 y' hy') (h3 x' hx' y' hy' hxy)

end
end Verif.Named
