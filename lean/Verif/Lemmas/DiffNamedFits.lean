import Verif.Lemmas.DiffNamedKeep
import Verif.Props.DiffLoaded
/-!
# Objects that come out of applying a diff fit their definitions
-/
namespace Verif.Named
open VarInt Codec Diff Core Source LinkedMap

variable {C : List Item → Prop}

/-! ## From the types of the columns -/

theorem itemFits_of_ty {d : LDef} {it : Item} (hk : Kept C d it) : ∀ {n : Nat} {tb : Tables}, Tab d tb → LevelOk n tb.1 →
    RowTy (ObjTy n) (schL n tb) (rowL n tb it) → InMemory it → ItemFits d it := by
  induction hk with
  | @mk d values refs h1 h2 h3 h4 h5 _ h7 ih =>
    intro n tb ht hl hty hm
    cases hm with
    | mk m1 m2 m3 m4 =>
    -- what the column of a stored value says
    have cell : ∀ k v id w m, (k, v) ∈ values → d.members.get k = some (id, w) → metaGet tb.1 id = some (k, m) →
        CellTy (ObjTy n) (colL n m) (some (cellL n m v)) := by
      intro k v id w m hk hd hmg
      have := hty.1 id
      rw [show (schL n tb).items = colsL n tb.1 from rfl, entry_col_of hmg,
        show (rowL n tb (.mk values refs)).values = valsL n tb.1 values from rfl, entry_valsL, hmg] at this
      simp only [Option.bind_some, AMap.get_of_mem h1 hk, Option.map_some] at this
      exact this
    have key : ∀ k v, (k, v) ∈ values →
        (∃ id p vt q, d.members.get k = some (id, .param p vt) ∧ v = .param q ∧ ParamTy p.ptype vt q) ∨
        (∃ id d' items, d.members.get k = some (id, .cilDef d') ∧ v = .cil items) ∨
        (∃ id d', d.members.get k = some (id, .milDef d' true) ∧ v = .milNone) ∨
        ∃ id d' u items next n' tb', d.members.get k = some (id, .milDef d' u) ∧ v = .mil items next ∧ Tab d' tb' ∧ LevelOk n' tb'.1 ∧
          ListTy (ObjTy n') (schL n' tb') (listL n' tb' ⟨items, next⟩) := by
      intro k v hk
      obtain ⟨⟨id, w⟩, hd⟩ := h3 k v hk
      cases w with
      | param p vt =>
        left
        have hmg := ht.param hd
        have := cell k v id _ _ hk hd hmg
        rw [colL_param, ptype_eq] at this
        cases v with
        | param q => rw [cellL_param] at this; exact ⟨id, p, vt, q, hd, rfl, this⟩
        | milNone => cases n <;> exact this.elim
        | cil items => cases n <;> exact this.elim
        | mil items next => cases n <;> exact this.elim
      | cilDef d' =>
        right; left
        obtain ⟨items, rfl⟩ := h4 k id d' v hk hd
        exact ⟨id, d', items, hd, rfl⟩
      | milDef d' u =>
        right; right
        obtain ⟨tb', ht', hmg⟩ := ht.mil hd
        have := cell k v id _ _ hk hd hmg
        obtain ⟨n', rfl, hl'⟩ := levelOk_get hl hmg (metaTables_if u tb')
        rw [colL_if] at this
        cases v with
        | param q => rw [cellL_param] at this; cases u <;> exact this.elim
        | milNone =>
          rw [cellL_milNone (metaTables_if u tb')] at this
          cases u with
          | false => exact this.elim
          | true => exact .inl ⟨id, d', hd, rfl⟩
        | cil items => rw [cellL_cil (metaTables_if u tb')] at this; cases u <;> exact this.elim
        | mil items next =>
          rw [cellL_mil (metaTables_if u tb')] at this
          right
          refine ⟨id, d', u, items, next, n', tb', hd, rfl, ht', hl', ?_⟩
          cases u <;> exact this
    refine .mk h1 h2 ?_ ?_ ?_ ?_ ?_ ?_
    · intro k p hk
      rcases key k _ hk with ⟨id, q, vt, p', hd, he, hp⟩ | ⟨_, _, _, _, he⟩ | ⟨_, _, _, he⟩ | ⟨_, _, _, _, _, _, _, _, he, _⟩
      · cases he; exact ⟨id, q, vt, hd, hp.1, hp.2, m1 k p hk⟩
      all_goals cases he
    · intro k hk
      rcases key k _ hk with ⟨_, _, _, _, _, he, _⟩ | ⟨_, _, _, _, he⟩ | ⟨id, d', hd, _⟩ | ⟨_, _, _, _, _, _, _, _, he, _⟩
      · cases he
      · cases he
      · exact ⟨id, d', hd⟩
      · cases he
    · intro k items hk
      rcases key k _ hk with ⟨_, _, _, _, _, he, _⟩ | ⟨id, d', _, hd, he⟩ | ⟨_, _, _, he⟩ | ⟨_, _, _, _, _, _, _, _, he, _⟩
      · cases he
      · exact ⟨id, d', hd⟩
      · cases he
      · cases he
    · intro k items next hk
      rcases key k _ hk with ⟨_, _, _, _, _, he, _⟩ | ⟨_, _, _, _, he⟩ | ⟨_, _, _, he⟩ | ⟨id, d', u, items', next', n', tb', hd, he, _, _, hty'⟩
      · cases he
      · cases he
      · cases he
      · cases he
        obtain ⟨a, b, c⟩ := m3 k items next hk
        refine ⟨⟨?_, c, a, b⟩, id, d', u, hd⟩
        have := hty'.1
        rw [listL_ids] at this
        exact this
    · intro k items next id d' u hk hd e he
      rcases key k _ hk with ⟨_, _, _, _, _, hx, _⟩ | ⟨_, _, _, _, hx⟩ | ⟨_, _, _, hx⟩ | ⟨id', d'', u', items', next', n', tb', hd', hx, ht', hl', hty'⟩
      · cases hx
      · cases hx
      · cases hx
      · cases hx
        rw [hd] at hd'; cases hd'
        refine ih k items next id d' u hk hd e he ht' hl' ?_ (m4 k items next hk e he)
        exact hty'.2 (e.1, rowL n' tb' e.2) (List.mem_map.mpr ⟨e, he, rfl⟩)
    · intro k q hk
      obtain ⟨⟨id, x, vt⟩, hd⟩ := h7 k q hk
      refine ⟨id, x, vt, hd, ?_, ?_⟩
      · have hp := ht.refs.2 _ _ _ _ (AMap.mem_of_get hd)
        have hmg := ht.refPlace hd
        obtain ⟨vt', hv', ha⟩ := hty.2 id q (by
          rw [show (rowL n tb (.mk values refs)).refs = refValsL tb.2 refs from rfl, entry_refValsL, hmg]
          exact AMap.get_of_mem h2 hk)
        rw [show (schL n tb).refs = refsL tb.2 from rfl] at hv'
        unfold refsL at hv'
        rw [List.getElem?_map, hp] at hv'
        cases hv'
        exact ha
      · cases q with
        | val s => exact m2 k s hk
        | null => trivial
        | undef => trivial

/-- The parameters of the root are of their Rust types, and its lists are in memory. -/
def RootInMemory (s : AMap RootSab) : Prop := (∀ k p, s.get k = some (.param p) → p.Fits) ∧ ListsInMemory s

section
variable {defs : AMap (Nat × RootValI)} {table : MetaTable}

theorem cellTy_none {S X : Type} {ok : S → X → Prop} (c : Option (Col S)) : CellTy ok c none := by
  unfold CellTy; split <;> simp_all

theorem itemTy_of_fits {d : LDef} {it : Item} (hf : ItemFits d it) : ∀ {n : Nat} {tb : Tables}, Tab d tb → LevelOk n tb.1 →
    RowTy (ObjTy n) (schL n tb) (rowL n tb it) := by
  have hf0 := hf
  induction hf with
  | @mk d values refs _ _ _ _ _ _ a7 _ ih =>
    intro n tb ht hl
    have hf := hf0
    obtain ⟨it, hit⟩ : ∃ it, it = Item.mk values refs := ⟨_, rfl⟩
    have hval : values = it.values := by rw [hit]; rfl
    rw [← hit] at hf
    refine ⟨fun i => ?_, fun i q hq => ?_⟩
    · show CellTy (ObjTy n) (entry (colsL n tb.1) i) (entry (valsL n tb.1 values) i)
      cases hm : metaGet tb.1 i with
      | none =>
        have : entry (valsL n tb.1 values) i = none := by rw [entry_valsL, hm]; rfl
        rw [this]; exact cellTy_none _
      | some e =>
        obtain ⟨k, m⟩ := e
        rw [entry_vals_of hm, entry_col_of hm]
        obtain ⟨v, hv⟩ := ht.member hm
        cases hk : values.get k with
        | none => rw [Option.map_none]; exact cellTy_none _
        | some w =>
          rw [Option.map_some]
          rw [hval] at hk
          cases w with
          | param p =>
            obtain ⟨id, q, vt, h1, h2⟩ := hf.param hk
            rw [hv] at h1; cases h1
            have := ht.param hv
            rw [hm] at this; cases this
            rw [colL_param, cellL_param]
            show ParamTy _ _ _
            rw [ptype_eq]; exact ⟨h2.1, h2.2.1⟩
          | cil l =>
            obtain ⟨id, d', h1⟩ := hf.cil hk
            rw [hv] at h1; cases h1
            rw [ht.cil hv] at hm; cases hm
          | milNone =>
            obtain ⟨id, d', h1⟩ := hf.milNone hk
            rw [hv] at h1; cases h1
            obtain ⟨tb', ht', h2⟩ := ht.mil hv
            rw [hm] at h2; cases h2
            obtain ⟨n', rfl, _⟩ := levelOk_get hl hm (metaTables_if true tb')
            rw [cellL_milNone (metaTables_if true tb')]
            trivial
          | mil l ln =>
            obtain ⟨id, d', u, h1, h3⟩ := hf.mil hk
            rw [hv] at h1; cases h1
            obtain ⟨tb', ht', h2⟩ := ht.mil hv
            rw [hm] at h2; cases h2
            obtain ⟨n', rfl, hl'⟩ := levelOk_get hl hm (metaTables_if u tb')
            rw [cellL_mil (metaTables_if u tb'), colL_if]
            have : ListTy (ObjTy n') (schL n' tb') (listL n' tb' ⟨l, ln⟩) := by
              refine ⟨by rw [listL_ids]; exact h3.1.1, fun x hx => ?_⟩
              obtain ⟨e, he, rfl⟩ := List.mem_map.mp hx
              rw [← hval] at hk
              exact ih k l ln _ d' u (AMap.mem_of_get hk) hv e he (a7 k l ln _ d' u (AMap.mem_of_get hk) hv e he) ht' hl'
            cases u
            · exact this
            · exact this
    · have hq : entry (refValsL tb.2 refs) i = some q := hq
      rw [entry_refValsL] at hq
      cases hm : metaGet tb.2 i with
      | none => rw [hm] at hq; cases hq
      | some e =>
        obtain ⟨k, m⟩ := e
        rw [hm] at hq
        have hq : it.refs.get k = some q := by rw [hit]; exact hq
        obtain ⟨id, x, vt, h1, h2⟩ := hf.ref hq
        obtain ⟨x', vt', h3, rfl⟩ := ht.refMember hm
        rw [h1] at h3; cases h3
        refine ⟨vt, ?_, h2.1⟩
        show (refsL tb.2)[_]? = _
        unfold refsL
        rw [List.getElem?_map, ht.refs.2 _ _ _ _ (AMap.mem_of_get h1)]
        rfl

theorem rootTy_of_fits {n : Nat} (hr : RootTable defs table) (hl : LevelOk n table) {s : AMap RootSab} (hf : RootFits defs s) :
    RootTy n (rootL n table) (rootValsL n table s) := by
  refine ⟨fun i => ?_, fun i sc hi => ?_⟩
  · rw [rootL_eq]
    cases hm : metaGet table i with
    | none =>
      have : entry (rootValsL n table s) i = none := by rw [entry_rootVals, hm]; rfl
      rw [this]; exact cellTy_none _
    | some e =>
      obtain ⟨k, m⟩ := e
      rw [entry_rootVals_of hm, entry_col_of (tb := (table, [])) hm]
      obtain ⟨v, hv⟩ := hr.member hm
      cases hk : s.get k with
      | none => rw [Option.map_none]; exact cellTy_none _
      | some w =>
        rw [Option.map_some]
        cases w with
        | param p =>
          obtain ⟨id, q, vt, h1, h2⟩ := hf.param' hk
          rw [hv] at h1; cases h1
          have := hr.param hv
          rw [hm] at this; cases this
          rw [colL_param, embR, cellL_param]
          show ParamTy _ _ _
          rw [ptype_eq]; exact ⟨h2.1, h2.2.1⟩
        | list l =>
          obtain ⟨id, d, u, h1, h2, h3⟩ := hf.list' hk
          rw [hv] at h1; cases h1
          obtain ⟨tb', ht', h4⟩ := hr.mlist hv
          rw [hm] at h4; cases h4
          obtain ⟨n', rfl, hl'⟩ := levelOk_get hl hm (metaTables_if u tb')
          cases l with
          | none =>
            have hu := h2 rfl
            subst hu
            rw [embR, cellL_milNone (metaTables_if true tb')]
            trivial
          | some l =>
            rw [embR, cellL_mil (metaTables_if u tb'), colL_if]
            have : ListTy (ObjTy n') (schL n' tb') (listL n' tb' ⟨l.1, l.2⟩) := by
              have h3 := h3 l rfl
              refine ⟨by rw [listL_ids]; exact h3.1.1, fun x hx => ?_⟩
              obtain ⟨e, he, rfl⟩ := List.mem_map.mp hx
              exact itemTy_of_fits (h3.2 e he) ht' hl'
            cases u
            · exact this
            · exact this
  · rw [rootL_eq, entry_colsL] at hi
    cases hm : metaGet table i with
    | none => rw [hm] at hi; rcases hi with hi | hi <;> cases hi
    | some e =>
      obtain ⟨k, m⟩ := e
      obtain ⟨v, hv⟩ := hr.member hm
      rw [entry_rootVals_of hm]
      cases v with
      | param p vt => 
        have := hr.param hv
        rw [hm] at this; cases this
        rw [hm] at hi
        rcases hi with hi | hi <;> simp [colL_param] at hi
      | mlist d u =>
        obtain ⟨l, hl', _⟩ := hf.there k _ d u hv
        rw [hl']; simp
      | table d x y => rw [hr.const hv] at hm; cases hm
      | clist d x => rw [hr.const' hv] at hm; cases hm

theorem rootFits_of_ty {n : Nat} (hr : RootTable defs table) (hl : LevelOk n table) {s : AMap RootSab} (hk : KeptRoot C defs s)
    (hty : RootTy n (rootL n table) (rootValsL n table s)) (hm : RootInMemory s) : RootFits defs s := by
  have cell : ∀ k v id m, (k, v) ∈ s → metaGet table id = some (k, m) →
      CellTy (ObjTy n) (colL n m) (some (cellL n m (embR v))) := by
    intro k v id m hk' hmg
    have := hty.1 id
    rw [rootL_eq, entry_col_of (tb := (table, [])) hmg, entry_rootVals_of hmg, AMap.get_of_mem hk.wf hk'] at this
    exact this
  have key : ∀ k v, (k, v) ∈ s →
      (∃ id p vt q, defs.get k = some (id, .param p vt) ∧ v = .param q ∧ ParamTy p.ptype vt q) ∨
      ∃ id d u l, defs.get k = some (id, .mlist d u) ∧ v = .list l ∧ (l = none → u = true) ∧ ∀ x, l = some x →
        ∃ n' tb', Tab d tb' ∧ LevelOk n' tb'.1 ∧ ListTy (ObjTy n') (schL n' tb') (listL n' tb' ⟨x.1, x.2⟩) := by
    intro k v hkv
    obtain ⟨id, y, hd, hy⟩ := hk.keys k v hkv
    rcases hy with ⟨p, vt, rfl⟩ | ⟨d, u, rfl⟩
    · left
      have := cell k v id _ hkv (hr.param hd)
      rw [colL_param, ptype_eq] at this
      cases v with
      | param q => rw [embR, cellL_param] at this; exact ⟨id, p, vt, q, hd, rfl, this⟩
      | list l => cases l <;> cases n <;> exact this.elim
    · right
      obtain ⟨tb', ht', hmg⟩ := hr.mlist hd
      have := cell k v id _ hkv hmg
      obtain ⟨n', rfl, hl'⟩ := levelOk_get hl hmg (metaTables_if u tb')
      rw [colL_if] at this
      cases v with
      | param q => rw [embR, cellL_param] at this; cases u <;> exact this.elim
      | list l =>
        refine ⟨id, d, u, l, hd, rfl, fun h => ?_, fun x h => ?_⟩
        · subst h
          rw [embR, cellL_milNone (metaTables_if u tb')] at this
          cases u with
          | false => exact this.elim
          | true => rfl
        · subst h
          rw [embR, cellL_mil (metaTables_if u tb')] at this
          refine ⟨n', tb', ht', hl', ?_⟩
          cases u <;> exact this
  refine ⟨hk.wf, ?_, ?_, ?_, ?_⟩
  · intro k p hkp
    rcases key k _ hkp with ⟨id, q, vt, p', hd, he, hp⟩ | ⟨_, _, _, _, _, he, _⟩
    · cases he; exact ⟨id, q, vt, hd, hp.1, hp.2, hm.1 k p (AMap.get_of_mem hk.wf hkp)⟩
    · cases he
  · intro k l hkl
    rcases key k _ hkl with ⟨_, _, _, _, _, he, _⟩ | ⟨id, d, u, _, hd, _⟩
    · cases he
    · exact ⟨id, d, u, hd⟩
  · intro k l id d u hkl hd
    rcases key k _ hkl with ⟨_, _, _, _, _, he, _⟩ | ⟨id', d', u', l', hd', he, _, hx⟩
    · cases he
    · cases he
      rw [hd] at hd'; cases hd'
      obtain ⟨n', tb', ht', hl', hty'⟩ := hx l rfl
      obtain ⟨a, b, c, e⟩ := hm.2 k l (AMap.get_of_mem hk.wf hkl)
      refine ⟨⟨?_, c, a, b⟩, fun x hx => ?_⟩
      · have := hty'.1
        rw [listL_ids] at this
        exact this
      · exact itemFits_of_ty (hk.items k l id d u hkl hd x hx) ht' hl'
          (hty'.2 (x.1, rowL n' tb' x.2) (List.mem_map.mpr ⟨x, hx, rfl⟩)) (e x hx)
  · intro k id d u hd
    obtain ⟨tb', ht', hmg⟩ := hr.mlist hd
    obtain ⟨n', hn, hl'⟩ := levelOk_get hl hmg (metaTables_if u tb')
    subst hn
    have hne := hty.2 id (schL n' tb') (by
      rw [rootL_eq, entry_col_of (tb := (table, [])) hmg, colL_if]
      cases u
      · exact .inl rfl
      · exact .inr rfl)
    rw [entry_rootVals_of hmg] at hne
    cases hg : s.get k with
    | none => rw [hg] at hne; exact absurd rfl hne
    | some v =>
      rcases key k v (AMap.mem_of_get hg) with ⟨_, _, _, _, hd', _⟩ | ⟨id', d', u', l, hd', rfl, hu, _⟩
      · rw [hd] at hd'; cases hd'
      · rw [hd] at hd'; cases hd'
        refine ⟨l, rfl, fun hf hn => ?_⟩
        rw [hu hn] at hf; cases hf

end

/-! ## From an object that is the same -/

theorem itemFits_of_same {d : LDef} {b : Item} (hk : Kept C d b) : ∀ {a : Item}, ItemFits d a → SameItem d a b → ItemFits d b := by
  induction hk with
  | @mk d values refs h1 h2 h3 h4 h5 _ h7 ih =>
    intro a ha hs
    cases ha with
    | @mk _ va ra a1 a2 a3 a4 a5 a6 a7 a8 =>
    cases hs with
    | mk s1 s2 s3 s4 s5 =>
    have key : ∀ k v, (k, v) ∈ values →
        (∃ id p vt q, d.members.get k = some (id, .param p vt) ∧ v = .param q ∧ va.get k = some (.param q)) ∨
        (∃ id d' items, d.members.get k = some (id, .cilDef d') ∧ v = .cil items) ∨
        (∃ id d' u, d.members.get k = some (id, .milDef d' u) ∧ v = .milNone ∧ va.get k = some .milNone) ∨
        ∃ id d' u items next items', d.members.get k = some (id, .milDef d' u) ∧ v = .mil items next ∧ va.get k = some (.mil items' next) ∧
          items'.map (·.1) = items.map (·.1) := by
      intro k v hk
      have hg := AMap.get_of_mem h1 hk
      obtain ⟨⟨id, w⟩, hd⟩ := h3 k v hk
      cases w with
      | param p vt =>
        left
        have := s1 k id p vt hd
        change va.get k = values.get k at this
        rw [hg] at this
        have hm := AMap.mem_of_get this
        cases v with
        | param q => exact ⟨id, p, vt, q, hd, rfl, this⟩
        | milNone => obtain ⟨_, _, h⟩ := a4 k hm; rw [hd] at h; cases h
        | cil items => obtain ⟨_, _, h⟩ := a5 k items hm; rw [hd] at h; cases h
        | mil items next => obtain ⟨_, _, _, _, h⟩ := a6 k items next hm; rw [hd] at h; cases h
      | cilDef d' =>
        right; left
        obtain ⟨items, rfl⟩ := h4 k id d' v hk hd
        exact ⟨id, d', items, hd, rfl⟩
      | milDef d' u =>
        right; right
        have := s2 k id d' u hd
        change SamePresence (va.get k) (values.get k) at this
        rw [hg] at this
        generalize hva : va.get k = x at this
        generalize hy : some v = y at this
        cases this with
        | none => cases hy
        | undef => cases hy; exact .inl ⟨id, d', u, hd, rfl, rfl⟩
        | list l ln m mn =>
          cases hy
          obtain ⟨e1, e2⟩ := s3 k id d' u l ln m mn hd hva hg
          subst e1
          exact .inr ⟨id, d', u, m, ln, l, hd, rfl, rfl, e2⟩
    refine .mk h1 h2 ?_ ?_ ?_ ?_ ?_ ?_
    · intro k p hk
      rcases key k _ hk with ⟨id, q, vt, p', hd, he, hp⟩ | ⟨_, _, _, _, he⟩ | ⟨_, _, _, _, he, _⟩ | ⟨_, _, _, _, _, _, _, he, _⟩
      · cases he; exact a3 k p (AMap.mem_of_get hp)
      all_goals cases he
    · intro k hk
      rcases key k _ hk with ⟨_, _, _, _, _, he, _⟩ | ⟨_, _, _, _, he⟩ | ⟨id, d', u, hd, _, hp⟩ | ⟨_, _, _, _, _, _, _, he, _⟩
      · cases he
      · cases he
      · exact a4 k (AMap.mem_of_get hp)
      · cases he
    · intro k items hk
      rcases key k _ hk with ⟨_, _, _, _, _, he, _⟩ | ⟨id, d', _, hd, he⟩ | ⟨_, _, _, _, he, _⟩ | ⟨_, _, _, _, _, _, _, he, _⟩
      · cases he
      · exact ⟨id, d', hd⟩
      · cases he
      · cases he
    · intro k items next hk
      rcases key k _ hk with ⟨_, _, _, _, _, he, _⟩ | ⟨_, _, _, _, he⟩ | ⟨_, _, _, _, he, _⟩ | ⟨id, d', u, items', next', l, hd, he, hp, hi⟩
      · cases he
      · cases he
      · cases he
      · cases he
        obtain ⟨⟨o1, o2, o3, o4⟩, _⟩ := a6 k l next (AMap.mem_of_get hp)
        refine ⟨⟨by rw [← hi]; exact o1, fun e he => ?_, o3, ?_⟩, id, d', u, hd⟩
        · have : e.1 ∈ l.map (·.1) := by rw [hi]; exact List.mem_map.mpr ⟨e, he, rfl⟩
          obtain ⟨x, hx, hxe⟩ := List.mem_map.mp this
          rw [← hxe]; exact o2 x hx
        · have := congrArg List.length hi
          simp only [List.length_map] at this
          omega
    · intro k items next id d' u hk hd e he
      rcases key k _ hk with ⟨_, _, _, _, _, hx, _⟩ | ⟨_, _, _, _, hx⟩ | ⟨_, _, _, _, hx, _⟩ | ⟨id', d'', u', items', next', l, hd', hx, hp, hi⟩
      · cases hx
      · cases hx
      · cases hx
      · cases hx
        rw [hd] at hd'; cases hd'
        obtain ⟨i, hi', rfl⟩ := List.getElem_of_mem he
        have hlen := congrArg List.length hi
        simp only [List.length_map] at hlen
        refine ih k items next id d' u hk hd _ he ?_ (s4 k id d' u l next items next hd hp (AMap.get_of_mem h1 hk) i l[i] items[i]
          (List.getElem?_eq_getElem (by omega)) (List.getElem?_eq_getElem hi'))
        exact a7 k l next id d' u (AMap.mem_of_get hp) hd _ (List.getElem_mem _)
    · intro k q hk
      obtain ⟨e, hd⟩ := h7 k q hk
      have := s5 k e hd
      change ra.get k = refs.get k at this
      rw [AMap.get_of_mem h2 hk] at this
      exact a8 k q (AMap.mem_of_get this)

theorem freshItem_of_same {d : LDef} {b : Item} (hk : Kept (fun l => ∀ i ∈ l, FreshItem i) d b) : ∀ {a : Item}, ItemFits d a → FreshItem a →
    SameItem d a b → FreshItem b := by
  induction hk with
  | @mk d values refs h1 h2 h3 h4 h5 h6 h7 ih =>
    intro a ha hf hs
    have hfit := itemFits_of_same (.mk h1 h2 h3 h4 h5 h6 h7) ha hs
    cases hfit with
    | mk b1 b2 b3 b4 b5 b6 b7 b8 =>
    cases ha with
    | @mk _ va ra a1 a2 a3 a4 a5 a6 a7 a8 =>
    cases hf with
    | mk f1 f2 f3 =>
    cases hs with
    | mk s1 s2 s3 s4 s5 =>
    have key : ∀ k items next, (k, SabVal.mil items next) ∈ values → ∃ id d' u l, d.members.get k = some (id, .milDef d' u) ∧
        va.get k = some (.mil l next) ∧ l.map (·.1) = items.map (·.1) := by
      intro k items next hk
      obtain ⟨_, id, d', u, hd⟩ := b6 k items next hk
      have hg := AMap.get_of_mem h1 hk
      have := s2 k id d' u hd
      change SamePresence (va.get k) (values.get k) at this
      rw [hg] at this
      generalize hva : va.get k = x at this
      generalize hy : some (SabVal.mil items next) = y at this
      cases this with
      | none => cases hy
      | undef => cases hy
      | list l ln m mn =>
        cases hy
        obtain ⟨e1, e2⟩ := s3 k id d' u l ln items next hd hva hg
        subst e1
        exact ⟨id, d', u, l, hd, rfl, e2⟩
    refine .mk (fun k items hk i hi => h5 k items hk i hi) ?_ ?_
    · intro k items next hk
      obtain ⟨id, d', u, l, hd, hp, hi⟩ := key k items next hk
      obtain ⟨o1, o2⟩ := f2 k l next (AMap.mem_of_get hp)
      exact ⟨by rw [← hi]; exact o1, fun i hi' => o2 i (by rw [hi]; exact hi')⟩
    · intro k items next hk e he
      obtain ⟨id, d', u, l, hd, hp, hi⟩ := key k items next hk
      obtain ⟨i, hi', rfl⟩ := List.getElem_of_mem he
      have hlen := congrArg List.length hi
      simp only [List.length_map] at hlen
      refine ih k items next id d' u hk hd _ he ?_ ?_ (s4 k id d' u l next items next hd hp (AMap.get_of_mem h1 hk) i l[i] items[i]
          (List.getElem?_eq_getElem (by omega)) (List.getElem?_eq_getElem hi'))
      · exact a7 k l next id d' u (AMap.mem_of_get hp) hd _ (List.getElem_mem _)
      · exact f3 k l next (AMap.mem_of_get hp) _ (List.getElem_mem _)

section
variable {defs : AMap (Nat × RootValI)} {table : MetaTable}

theorem rootFits_of_same {a b : AMap RootSab} (hk : KeptRoot C defs b) (ha : RootFits defs a) (hs : SameRoot defs a b) : RootFits defs b := by
  refine ⟨hk.wf, ?_, ?_, ?_, ?_⟩
  · intro k p hkp
    obtain ⟨id, y, hd, hy⟩ := hk.keys k _ hkp
    have hg := AMap.get_of_mem hk.wf hkp
    rcases hy with ⟨q, vt, rfl⟩ | ⟨d, u, rfl⟩
    · have := hs.params k id q vt hd
      rw [hg] at this
      exact ha.params k p (AMap.mem_of_get this)
    · obtain ⟨l, hl, _⟩ := ha.there k id d u hd
      cases l with
      | none => rw [(hs.undef k id d u hd).1 hl] at hg; cases hg
      | some l => obtain ⟨m, hm, _⟩ := hs.lists k id d u l hd hl; rw [hm] at hg; cases hg
  · intro k l hkl
    obtain ⟨id, y, hd, hy⟩ := hk.keys k _ hkl
    have hg := AMap.get_of_mem hk.wf hkl
    rcases hy with ⟨q, vt, rfl⟩ | ⟨d, u, rfl⟩
    · have := hs.params k id q vt hd
      rw [hg] at this
      obtain ⟨_, _, _, h⟩ := ha.lists k l (AMap.mem_of_get this)
      exact ⟨_, _, _, h⟩
    · exact ⟨id, d, u, hd⟩
  · intro k l id d u hkl hd
    have hg := AMap.get_of_mem hk.wf hkl
    obtain ⟨x, hx⟩ := hs.back k id d u l hd hg
    obtain ⟨m, hm, hn, hi⟩ := hs.lists k id d u x hd hx
    rw [hg] at hm; cases hm
    obtain ⟨⟨o1, o2, o3, o4⟩, hf⟩ := ha.items k x id d u (AMap.mem_of_get hx) hd
    have hlen := congrArg List.length hi.1
    simp only [List.length_map] at hlen
    refine ⟨⟨by show (l.1.map (·.1)).Nodup; rw [← hi.1]; exact o1, fun e he => ?_, by show l.2 < _; rw [← hn]; exact o3, ?_⟩, fun e he => ?_⟩
    · have : e.1 ∈ x.1.map (·.1) := by rw [hi.1]; exact List.mem_map.mpr ⟨e, he, rfl⟩
      obtain ⟨z, hz, hze⟩ := List.mem_map.mp this
      rw [← hze]; exact o2 z hz
    · show l.1.length < _
      change x.1.length < _ at o4
      omega
    · obtain ⟨i, hi', rfl⟩ := List.getElem_of_mem he
      change i < l.1.length at hi'
      exact itemFits_of_same (hk.items k l id d u hkl hd _ he) (hf _ (List.getElem_mem (by show i < x.1.length; omega)))
        (hi.2 i x.1[i] l.1[i] (List.getElem?_eq_getElem (by omega)) (List.getElem?_eq_getElem hi'))
  · intro k id d u hd
    obtain ⟨l, hl, hn⟩ := ha.there k id d u hd
    cases l with
    | none => exact ⟨none, (hs.undef k id d u hd).1 hl, hn⟩
    | some l => obtain ⟨m, hm, _⟩ := hs.lists k id d u l hd hl; exact ⟨some m, hm, fun _ h => by cases h⟩

theorem listsFresh_of_same {a b : AMap RootSab} (hk : KeptRoot (fun l => ∀ i ∈ l, FreshItem i) defs b) (ha : RootFits defs a) (hf : ListsFresh a)
    (hs : SameRoot defs a b) : ListsFresh b := by
  have hb := rootFits_of_same hk ha hs
  intro k l hg
  obtain ⟨id, d, u, hd⟩ := hb.lists k _ (AMap.mem_of_get hg)
  obtain ⟨x, hx⟩ := hs.back k id d u l hd hg
  obtain ⟨m, hm, hn, hi⟩ := hs.lists k id d u x hd hx
  rw [hg] at hm; cases hm
  obtain ⟨⟨o1, o2⟩, hf'⟩ := hf k x hx
  have hlen := congrArg List.length hi.1
  simp only [List.length_map] at hlen
  refine ⟨⟨by rw [← hi.1]; exact o1, fun i hi' => by rw [← hn]; exact o2 i (by rw [hi.1]; exact hi')⟩, fun e he => ?_⟩
  obtain ⟨i, hi', rfl⟩ := List.getElem_of_mem he
  exact freshItem_of_same (hk.items k l id d u (AMap.mem_of_get hg) hd _ he)
    ((ha.items k x id d u (AMap.mem_of_get hx) hd).2 _ (List.getElem_mem (by show i < x.1.length; omega))) (hf' _ (List.getElem_mem (by omega)))
    (hi.2 i x.1[i] l.1[i] (List.getElem?_eq_getElem (by omega)) (List.getElem?_eq_getElem hi'))

end
end Verif.Named
