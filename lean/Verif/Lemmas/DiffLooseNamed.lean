import Verif.Lemmas.SessionAny
import Verif.Lemmas.DiffLoose
import Verif.Lemmas.DiffNamedFits
/-! # Objects by name and by id: what stays, what is the same but for what a diff does not store, and ids below the next id -/
namespace Verif.Named
open Diff Core Source LinkedMap

theorem ItemFits.isParam {d : LDef} {it : Item} (h : ItemFits d it) {k : String} {id : Nat} {p : Param} {vt : VType}
    (hk : d.members.get k = some (id, .param p vt)) {w : SabVal} (hw : it.values.get k = some w) : ∃ q, w = .param q := by
  cases w with
  | param q => exact ⟨q, rfl⟩
  | cil l => obtain ⟨_, _, hx⟩ := h.cil hw; rw [hk] at hx; cases hx
  | milNone => obtain ⟨_, _, hx⟩ := h.milNone hw; rw [hk] at hx; cases hx
  | mil l ln => obtain ⟨_, _, _, hx, _⟩ := h.mil hw; rw [hk] at hx; cases hx

theorem ItemFits.isMil {d : LDef} {it : Item} (h : ItemFits d it) {k : String} {id : Nat} {d' : LDef} {u : Bool}
    (hk : d.members.get k = some (id, .milDef d' u)) {w : SabVal} (hw : it.values.get k = some w) :
    w = .milNone ∨ ∃ l ln, w = .mil l ln ∧ ListFits d' ⟨l, ln⟩ := by
  cases w with
  | param q => obtain ⟨_, _, _, hx, _⟩ := h.param hw; rw [hk] at hx; cases hx
  | cil l => obtain ⟨_, _, hx⟩ := h.cil hw; rw [hk] at hx; cases hx
  | milNone => exact .inl rfl
  | mil l ln => obtain ⟨_, _, _, hx, hf⟩ := h.mil hw; rw [hk] at hx; cases hx; exact .inr ⟨l, ln, rfl, hf⟩

theorem RootFits.isParam {defs : AMap (Nat × RootValI)} {s : AMap RootSab} (h : RootFits defs s) {k : String} {id : Nat} {p : Param} {vt : VType}
    (hk : defs.get k = some (id, .param p vt)) {w : RootSab} (hw : s.get k = some w) : ∃ q, w = .param q := by
  cases w with
  | param q => exact ⟨q, rfl⟩
  | list l => obtain ⟨_, _, _, hx, _⟩ := h.list' hw; rw [hk] at hx; cases hx

theorem RootFits.isList {defs : AMap (Nat × RootValI)} {s : AMap RootSab} (h : RootFits defs s) {k : String} {id : Nat} {d : LDef} {u : Bool}
    (hk : defs.get k = some (id, .mlist d u)) :
    ∃ l, s.get k = some (.list l) ∧ (u = false → l ≠ none) ∧ ∀ m, l = some m → ListFits d ⟨m.1, m.2⟩ := by
  obtain ⟨l, hl, hu⟩ := h.there k id d u hk
  refine ⟨l, hl, hu, fun m hm => ?_⟩
  subst hm
  exact h.items k m id d u (AMap.mem_of_get hl) hk

/-! ## Ids below the next id -/

theorem cellOk_upgrade {S X : Type} {ok ok' : S → X → Prop} {c : Option (Col S)} {f : Option (Diff.Cell X)} (h : CellOk ok c f)
    (h' : ∀ s x, f = some (.mil (some x)) → c.bind Col.tables = some s → ok' s x) : CellOk ok' c f := by
  rcases c with _ | (_ | c | c) <;> rcases f with _ | (p | (_ | x)) <;> first | exact h | exact h' _ _ rfl rfl

theorem objOkF_of {c : Nat} (hc : c < 2 ^ 62) : ∀ (n : Nat) {d : LDef} {tb : Tables} {l : NList}, Tab d tb → LevelOk n tb.1 → Sized c c d →
    ListFits d l → FreshIds (l.items, l.nextId) → (∀ e ∈ l.items, FreshItem e.2) → ObjOkF (n + 1) (schL n tb) (listL n tb l)
  | n, d, tb, l, ht, hl, hs, hf, hfi, hfe => by
    obtain ⟨o1, o2, o3, o4, o5, o6, o7⟩ := objOk_of hc n ht hl hs hf
    refine ⟨⟨o1, o2, o3, o4, o5, o6, fun x hx => ?_⟩, fun i hi => ?_⟩
    · obtain ⟨p1, p2, p3⟩ := o7 x hx
      refine ⟨p1, fun i => cellOk_upgrade (p2 i) fun s y hy hs' => ?_, p3⟩
      obtain ⟨e, he, rfl⟩ := List.mem_map.mp hx
      have hy : entry (valsL n tb.1 e.2.values) i = _ := hy
      have hs' : (entry (colsL n tb.1) i).bind Col.tables = some s := hs'
      have fe := hf.2 e he
      cases hm : metaGet tb.1 i with
      | none => rw [entry_valsL, hm] at hy; cases hy
      | some q =>
        obtain ⟨k, m⟩ := q
        rw [entry_vals_of hm] at hy
        rw [entry_col_of hm] at hs'
        obtain ⟨v, hv⟩ := ht.member hm
        cases hk : e.2.values.get k with
        | none => rw [hk] at hy; cases hy
        | some w =>
          rw [hk, Option.map_some] at hy
          cases v with
          | param p vt =>
            obtain ⟨q, rfl⟩ := fe.isParam hv hk
            rw [cellL_param] at hy; cases hy
          | cilDef d' => rw [ht.cil hv] at hm; cases hm
          | milDef d' u =>
            obtain ⟨tb', ht', h2⟩ := ht.mil hv
            rw [hm] at h2; cases h2
            have hmt := metaTables_if u tb'
            obtain ⟨n', rfl, hl'⟩ := levelOk_get hl hm hmt
            rcases fe.isMil hv hk with rfl | ⟨l', ln', rfl, hlf⟩
            · rw [cellL_milNone hmt] at hy; cases hy
            · rw [cellL_mil hmt] at hy
              rw [colL_tables hmt] at hs'
              cases hy; cases hs'
              have fre := hfe e he
              obtain ⟨id, it⟩ := e
              obtain ⟨values, refs⟩ := it
              have hk : AMap.get values k = _ := hk
              exact objOkF_of hc n' ht' hl' (hs.inner hv) hlf (fre.vals.2.1 _ _ _ (AMap.mem_of_get hk)) (fre.vals.2.2 _ _ _ (AMap.mem_of_get hk))
    · have hi : i ∈ (listL n tb l).ids := hi
      rw [listL_ids] at hi
      exact hfi.2 i hi

section
variable {defs : AMap (Nat × RootValI)} {table : MetaTable}

theorem rootOkF_of {n c : Nat} (hc : c < 2 ^ 62) (hr : RootTable defs table) (hl : LevelOk n table) (hlen : defs.length < 2 ^ 62)
    (hs : ∀ k id d u, defs.get k = some (id, .mlist d u) → Sized c c d) {s : AMap RootSab} (hf : RootFits defs s) (hfr : ListsFresh s) :
    RootOkF n (rootL n table) (rootValsL n table s) := by
  have ho := rootOk_of hc hr hl hlen hs hf
  refine ⟨ho, fun i => cellOk_upgrade (ho.2.2.1 i) fun sc x hx hsc => ?_⟩
  rw [rootL_eq] at hsc
  cases hm : metaGet table i with
  | none => rw [entry_rootVals, hm] at hx; cases hx
  | some q =>
    obtain ⟨k, m⟩ := q
    rw [entry_rootVals_of hm] at hx
    rw [entry_col_of (tb := (table, [])) hm] at hsc
    obtain ⟨v, hv⟩ := hr.member hm
    cases v with
    | table d x y => rw [hr.const hv] at hm; cases hm
    | clist d x => rw [hr.const' hv] at hm; cases hm
    | param p vt =>
      cases hk : s.get k with
      | none => rw [hk] at hx; cases hx
      | some w =>
        obtain ⟨q, rfl⟩ := hf.isParam hv hk
        rw [hk, Option.map_some, embR, cellL_param] at hx
        cases hx
    | mlist d u =>
      obtain ⟨tb', ht', h4⟩ := hr.mlist hv
      rw [hm] at h4; cases h4
      have hmt := metaTables_if u tb'
      obtain ⟨n', rfl, hl'⟩ := levelOk_get hl hm hmt
      obtain ⟨l, hk, _, hlf⟩ := hf.isList hv
      rw [hk, Option.map_some] at hx
      cases l with
      | none => rw [embR, cellL_milNone hmt] at hx; cases hx
      | some l =>
        rw [embR, cellL_mil hmt] at hx
        rw [colL_tables hmt] at hsc
        cases hx; cases hsc
        obtain ⟨f1, f2⟩ := hfr k l hk
        exact objOkF_of hc n' ht' hl' (hs _ _ _ _ hv) (hlf l rfl) f1 f2

/-! ## And back -/

theorem item_of_okF {d : LDef} {it : Item} (hk : Kept (fun l => ∀ i ∈ l, FreshItem i) d it) : ∀ {n : Nat} {tb : Tables}, Tab d tb → LevelOk n tb.1 →
    RowOk (ObjOkF n) (schL n tb) (rowL n tb it) → ItemFits d it ∧ FreshItem it := by
  induction hk with
  | @mk d values refs h1 h2 h3 h4 h5 _ h7 ih =>
    intro n tb ht hl hty
    have cell : ∀ k v id w m, (k, v) ∈ values → d.members.get k = some (id, w) → metaGet tb.1 id = some (k, m) →
        CellOk (ObjOkF n) (colL n m) (some (cellL n m v)) := by
      intro k v id w m hk hd hmg
      have := hty.2.1 id
      rw [show (schL n tb).items = colsL n tb.1 from rfl, entry_col_of hmg,
        show (rowL n tb (.mk values refs)).values = valsL n tb.1 values from rfl, entry_valsL, hmg] at this
      simp only [Option.bind_some, AMap.get_of_mem h1 hk, Option.map_some] at this
      exact this
    have key : ∀ k v, (k, v) ∈ values →
        (∃ id p vt q, d.members.get k = some (id, .param p vt) ∧ v = .param q ∧ ParamOk p.ptype vt q) ∨
        (∃ id d' items, d.members.get k = some (id, .cilDef d') ∧ v = .cil items) ∨
        (∃ id d', d.members.get k = some (id, .milDef d' true) ∧ v = .milNone) ∨
        ∃ id d' u items next n' tb', d.members.get k = some (id, .milDef d' u) ∧ v = .mil items next ∧ Tab d' tb' ∧ LevelOk n' tb'.1 ∧
          ListOkF (ObjOkF n') (schL n' tb') (listL n' tb' ⟨items, next⟩) := by
      intro k v hk
      obtain ⟨⟨id, w⟩, hd⟩ := h3 k v hk
      cases w with
      | param p vt =>
        left
        have hmg := ht.param hd
        have := cell k v id _ _ hk hd hmg
        rw [colL_param, ptype_eq] at this
        cases v with
        | param q => rw [cellL_param] at this; exact ⟨id, p, vt, q, hd, rfl, this⟩
        | milNone => cases n <;> exact this.elim
        | cil items => cases n <;> exact this.elim
        | mil items next => cases n <;> exact this.elim
      | cilDef d' =>
        right; left
        obtain ⟨items, rfl⟩ := h4 k id d' v hk hd
        exact ⟨id, d', items, hd, rfl⟩
      | milDef d' u =>
        right; right
        obtain ⟨tb', ht', hmg⟩ := ht.mil hd
        have := cell k v id _ _ hk hd hmg
        obtain ⟨n', rfl, hl'⟩ := levelOk_get hl hmg (metaTables_if u tb')
        rw [colL_if] at this
        cases v with
        | param q => rw [cellL_param] at this; cases u <;> exact this.elim
        | milNone =>
          rw [cellL_milNone (metaTables_if u tb')] at this
          cases u with
          | false => exact this.elim
          | true => exact .inl ⟨id, d', hd, rfl⟩
        | cil items => rw [cellL_cil (metaTables_if u tb')] at this; cases u <;> exact this.elim
        | mil items next =>
          rw [cellL_mil (metaTables_if u tb')] at this
          right
          refine ⟨id, d', u, items, next, n', tb', hd, rfl, ht', hl', ?_⟩
          cases u <;> exact this
    have list : ∀ k items next, (k, SabVal.mil items next) ∈ values → ∃ id d' u n' tb', d.members.get k = some (id, .milDef d' u) ∧ Tab d' tb' ∧
        LevelOk n' tb'.1 ∧ ListOkF (ObjOkF n') (schL n' tb') (listL n' tb' ⟨items, next⟩) := by
      intro k items next hk
      rcases key k _ hk with ⟨_, _, _, _, _, he, _⟩ | ⟨_, _, _, _, he⟩ | ⟨_, _, _, he⟩ | ⟨id, d', u, _, _, n', tb', hd, he, a, b, c⟩ <;> cases he
      exact ⟨id, d', u, n', tb', hd, a, b, c⟩
    have items' : ∀ k items next id d' u, (k, SabVal.mil items next) ∈ values → d.members.get k = some (id, .milDef d' u) → ∀ e ∈ items,
        ItemFits d' e.2 ∧ FreshItem e.2 := by
      intro k items next id d' u hk hd e he
      obtain ⟨_, _, _, n', tb', hd', ht', hl', hok⟩ := list k items next hk
      rw [hd] at hd'; cases hd'
      exact ih k items next id d' u hk hd e he ht' hl' (hok.1.2.2.2.2.2.2 (e.1, rowL n' tb' e.2) (List.mem_map.mpr ⟨e, he, rfl⟩))
    constructor
    · refine .mk h1 h2 ?_ ?_ ?_ ?_ ?_ ?_
      · intro k p hk
        rcases key k _ hk with ⟨id, q, vt, p', hd, he, hp⟩ | ⟨_, _, _, _, he⟩ | ⟨_, _, _, he⟩ | ⟨_, _, _, _, _, _, _, _, he, _⟩
        · cases he; exact ⟨id, q, vt, hd, hp⟩
        all_goals cases he
      · intro k hk
        rcases key k _ hk with ⟨_, _, _, _, _, he, _⟩ | ⟨_, _, _, _, he⟩ | ⟨id, d', hd, _⟩ | ⟨_, _, _, _, _, _, _, _, he, _⟩
        · cases he
        · cases he
        · exact ⟨id, d', hd⟩
        · cases he
      · intro k items hk
        rcases key k _ hk with ⟨_, _, _, _, _, he, _⟩ | ⟨id, d', _, hd, he⟩ | ⟨_, _, _, he⟩ | ⟨_, _, _, _, _, _, _, _, he, _⟩
        · cases he
        · exact ⟨id, d', hd⟩
        · cases he
        · cases he
      · intro k items next hk
        obtain ⟨id, d', u, n', tb', hd, _, _, ⟨o1, o2, o3, o4, o5, o6, _⟩, _⟩ := list k items next hk
        refine ⟨⟨?_, fun e he => ?_, o5, ?_⟩, id, d', u, hd⟩
        · rw [listL_ids] at o3; exact o3
        · refine o4 e.1 ?_
          rw [listL_ids]; exact List.mem_map_of_mem he
        · have : ((items.map fun e => (e.1, rowL n' tb' e.2))).length < 2 ^ 62 := o6
          rwa [List.length_map] at this
      · exact fun k items next id d' u hk hd e he => (items' k items next id d' u hk hd e he).1
      · intro k q hk
        obtain ⟨⟨id, x, vt⟩, hd⟩ := h7 k q hk
        refine ⟨id, x, vt, hd, ?_⟩
        have hp := ht.refs.2 _ _ _ _ (AMap.mem_of_get hd)
        have hmg := ht.refPlace hd
        obtain ⟨vt', hv', ha⟩ := hty.2.2.2 id q (by
          rw [show (rowL n tb (.mk values refs)).refs = refValsL tb.2 refs from rfl, entry_refValsL, hmg]
          exact AMap.get_of_mem h2 hk)
        rw [show (schL n tb).refs = refsL tb.2 from rfl] at hv'
        unfold refsL at hv'
        rw [List.getElem?_map, hp] at hv'
        cases hv'
        exact ha
    · refine .mk h5 ?_ ?_
      · intro k items next hk
        obtain ⟨_, _, _, n', tb', _, _, _, hok, hlt⟩ := list k items next hk
        have h3 := hok.2.2.1
        rw [listL_ids] at h3 hlt
        exact ⟨h3, hlt⟩
      · intro k items next hk e he
        obtain ⟨id, d', u, _, _, hd, _⟩ := list k items next hk
        exact (items' k items next id d' u hk hd e he).2

/-- An object that can be written and has fresh ids by id fits its definition and has fresh ids by name. -/
theorem root_of_okF {n : Nat} (hr : RootTable defs table) (hl : LevelOk n table) {s : AMap RootSab}
    (hk : KeptRoot (fun l => ∀ i ∈ l, FreshItem i) defs s) (hty : RootOkF n (rootL n table) (rootValsL n table s)) :
    RootFits defs s ∧ ListsFresh s := by
  have cell : ∀ k v id m, (k, v) ∈ s → metaGet table id = some (k, m) → CellOk (ObjOkF n) (colL n m) (some (cellL n m (embR v))) := by
    intro k v id m hk' hmg
    have := hty.2 id
    rw [rootL_eq, entry_col_of (tb := (table, [])) hmg, entry_rootVals_of hmg, AMap.get_of_mem hk.wf hk'] at this
    exact this
  have key : ∀ k v, (k, v) ∈ s →
      (∃ id p vt q, defs.get k = some (id, .param p vt) ∧ v = .param q ∧ ParamOk p.ptype vt q) ∨
      ∃ id d u l, defs.get k = some (id, .mlist d u) ∧ v = .list l ∧ (l = none → u = true) ∧ ∀ x, l = some x →
        ∃ n' tb', Tab d tb' ∧ LevelOk n' tb'.1 ∧ ListOkF (ObjOkF n') (schL n' tb') (listL n' tb' ⟨x.1, x.2⟩) := by
    intro k v hkv
    obtain ⟨id, y, hd, hy⟩ := hk.keys k v hkv
    rcases hy with ⟨p, vt, rfl⟩ | ⟨d, u, rfl⟩
    · left
      have := cell k v id _ hkv (hr.param hd)
      rw [colL_param, ptype_eq] at this
      cases v with
      | param q => rw [embR, cellL_param] at this; exact ⟨id, p, vt, q, hd, rfl, this⟩
      | list l => cases l <;> cases n <;> exact this.elim
    · right
      obtain ⟨tb', ht', hmg⟩ := hr.mlist hd
      have := cell k v id _ hkv hmg
      obtain ⟨n', rfl, hl'⟩ := levelOk_get hl hmg (metaTables_if u tb')
      rw [colL_if] at this
      cases v with
      | param q => rw [embR, cellL_param] at this; cases u <;> exact this.elim
      | list l =>
        refine ⟨id, d, u, l, hd, rfl, fun h => ?_, fun x h => ?_⟩
        · subst h
          rw [embR, cellL_milNone (metaTables_if u tb')] at this
          cases u with
          | false => exact this.elim
          | true => rfl
        · subst h
          rw [embR, cellL_mil (metaTables_if u tb')] at this
          refine ⟨n', tb', ht', hl', ?_⟩
          cases u <;> exact this
  have list : ∀ k l, (k, RootSab.list (some l)) ∈ s → ∃ id d u n' tb', defs.get k = some (id, .mlist d u) ∧ Tab d tb' ∧ LevelOk n' tb'.1 ∧
      ListOkF (ObjOkF n') (schL n' tb') (listL n' tb' ⟨l.1, l.2⟩) := by
    intro k l hkl
    rcases key k _ hkl with ⟨_, _, _, _, _, he, _⟩ | ⟨id, d, u, l', hd, he, _, hx⟩ <;> cases he
    obtain ⟨n', tb', a, b, c⟩ := hx l rfl
    exact ⟨id, d, u, n', tb', hd, a, b, c⟩
  have items : ∀ k l id d u, (k, RootSab.list (some l)) ∈ s → defs.get k = some (id, .mlist d u) → ∀ e ∈ l.1, ItemFits d e.2 ∧ FreshItem e.2 := by
    intro k l id d u hkl hd e he
    obtain ⟨_, _, _, n', tb', hd', ht', hl', hok⟩ := list k l hkl
    rw [hd] at hd'; cases hd'
    exact item_of_okF (hk.items k l id d u hkl hd e he) ht' hl' (hok.1.2.2.2.2.2.2 (e.1, rowL n' tb' e.2) (List.mem_map.mpr ⟨e, he, rfl⟩))
  constructor
  · refine ⟨hk.wf, ?_, ?_, ?_, ?_⟩
    · intro k p hkp
      rcases key k _ hkp with ⟨id, q, vt, p', hd, he, hp⟩ | ⟨_, _, _, _, _, he, _⟩
      · cases he; exact ⟨id, q, vt, hd, hp⟩
      · cases he
    · intro k l hkl
      rcases key k _ hkl with ⟨_, _, _, _, _, he, _⟩ | ⟨id, d, u, _, hd, _⟩
      · cases he
      · exact ⟨id, d, u, hd⟩
    · intro k l id d u hkl hd
      obtain ⟨_, _, _, n', tb', _, _, _, ⟨o1, o2, o3, o4, o5, o6, _⟩, _⟩ := list k l hkl
      refine ⟨⟨?_, fun e he => ?_, o5, ?_⟩, fun e he => (items k l id d u hkl hd e he).1⟩
      · rw [listL_ids] at o3; exact o3
      · refine o4 e.1 ?_
        rw [listL_ids]; exact List.mem_map_of_mem he
      · have : ((l.1.map fun e => (e.1, rowL n' tb' e.2))).length < 2 ^ 62 := o6
        rwa [List.length_map] at this
    · intro k id d u hd
      obtain ⟨tb', ht', hmg⟩ := hr.mlist hd
      obtain ⟨n', hn, hl'⟩ := levelOk_get hl hmg (metaTables_if u tb')
      subst hn
      have hne := hty.1.2.2.2 id (schL n' tb') (by
        rw [rootL_eq, entry_col_of (tb := (table, [])) hmg, colL_if]
        cases u
        · exact .inl rfl
        · exact .inr rfl)
      rw [entry_rootVals_of hmg] at hne
      cases hg : s.get k with
      | none => rw [hg] at hne; exact absurd rfl hne
      | some v =>
        rcases key k v (AMap.mem_of_get hg) with ⟨_, _, _, _, hd', _⟩ | ⟨id', d', u', l, hd', rfl, hu, _⟩
        · rw [hd] at hd'; cases hd'
        · rw [hd] at hd'; cases hd'
          refine ⟨l, rfl, fun hf hn => ?_⟩
          rw [hu hn] at hf; cases hf
  · intro k l hkl
    have hkl := AMap.mem_of_get hkl
    obtain ⟨id, d, u, n', tb', hd, _, _, hok, hlt⟩ := list k l hkl
    have h3 := hok.2.2.1
    rw [listL_ids] at h3 hlt
    exact ⟨⟨h3, hlt⟩, fun e he => (items k l id d u hkl hd e he).2⟩

/-! ## What stays -/

theorem rowStays_of : ∀ (n : Nat) {d : LDef} {tb : Tables} {f t : Item}, Tab d tb → LevelOk n tb.1 → ItemFits d f → ItemFits d t →
    ItemGrows d f t → RowStays (ObjStays n) (rowL n tb f) (rowL n tb t) := by
  intro n
  induction n using Nat.strong_induction_on with
  | _ n ih =>
    intro d tb f t ht hl hf hto hst
    obtain ⟨s1, s2, s3, s4⟩ := hst
    constructor
    · intro i
      show CellStays (ObjStays n) (entry (valsL n tb.1 f.values) i) (entry (valsL n tb.1 t.values) i)
      cases hm : metaGet tb.1 i with
      | none => rw [entry_valsL, hm]; trivial
      | some e =>
        obtain ⟨k, m⟩ := e
        rw [entry_vals_of hm, entry_vals_of hm]
        obtain ⟨v, hv⟩ := ht.member hm
        cases hfk : f.values.get k with
        | none => trivial
        | some w =>
          cases v with
          | cilDef d' => rw [ht.cil hv] at hm; cases hm
          | param p vt =>
            obtain ⟨q, rfl⟩ := hf.isParam hv hfk
            cases htk : t.values.get k with
            | none => rw [s1 k (fun _ _ he => by rw [hv] at he; cases he) htk] at hfk; cases hfk
            | some w =>
              obtain ⟨q', rfl⟩ := hto.isParam hv htk
              rw [Option.map_some, Option.map_some, cellL_param, cellL_param]
              exact ⟨_, rfl⟩
          | milDef d' u =>
            obtain ⟨tb', mt, ht', h1, hmt⟩ := ht.mil' hv
            rw [hm] at h1; cases h1
            obtain ⟨n', rfl, hl'⟩ := levelOk_get hl hm hmt
            rcases hf.isMil hv hfk with rfl | ⟨l, ln, rfl, hlf⟩
            · cases htk : t.values.get k with
              | none => rw [s1 k (fun _ _ he => by rw [hv] at he; cases he) htk] at hfk; cases hfk
              | some w =>
                rw [Option.map_some, Option.map_some, cellL_milNone hmt]
                rcases hto.isMil hv htk with rfl | ⟨m', mn', rfl, _⟩
                · rw [cellL_milNone hmt]; exact ⟨_, rfl⟩
                · rw [cellL_mil hmt]; exact ⟨_, rfl⟩
            · obtain ⟨m', mn', htk, g1, g2⟩ := s2 k _ d' u l ln hv hfk
              rcases hto.isMil hv htk with he | ⟨_, _, he, hlt⟩
              · cases he
              · cases he
                rw [htk, Option.map_some, Option.map_some, cellL_mil hmt, cellL_mil hmt]
                refine ⟨_, rfl, ?_⟩
                show ListStays (ObjStays n') _ _
                refine ⟨g1, ?_, ?_⟩
                · rw [listL_ids, listL_ids]; exact g2
                · intro x hx y hy hxy
                  obtain ⟨x', hx', rfl⟩ := List.mem_map.mp hx
                  obtain ⟨y', hy', rfl⟩ := List.mem_map.mp hy
                  exact ih n' (Nat.lt_succ_self _) ht' hl' (hlf.2 x' hx') (hlt.2 y' hy') (s3 _ _ _ _ _ _ _ _ hv hfk htk x' hx' y' hy' hxy)
    · intro i hi
      have hi : entry (refValsL tb.2 t.refs) i = none := hi
      show entry (refValsL tb.2 f.refs) i = none
      rw [entry_refValsL] at hi ⊢
      cases hm : metaGet tb.2 i with
      | none => rfl
      | some e => rw [hm] at hi; exact s4 _ hi

theorem rootStays_of {n : Nat} (hr : RootTable defs table) (hl : LevelOk n table) {f t : AMap RootSab} (hf : RootFits defs f)
    (ht : RootFits defs t) (hst : RootGrows defs f t) : RootStays n (rootValsL n table f) (rootValsL n table t) := by
  intro i
  cases hm : metaGet table i with
  | none => rw [entry_rootVals, hm]; trivial
  | some e =>
    obtain ⟨k, m⟩ := e
    rw [entry_rootVals_of hm, entry_rootVals_of hm]
    obtain ⟨v, hv⟩ := hr.member hm
    cases v with
    | table d x y => rw [hr.const hv] at hm; cases hm
    | clist d x => rw [hr.const' hv] at hm; cases hm
    | param p vt =>
      cases hfk : f.get k with
      | none => trivial
      | some w =>
        obtain ⟨q, rfl⟩ := hf.isParam hv hfk
        cases htk : t.get k with
        | none => rw [hst.stays k htk] at hfk; cases hfk
        | some w =>
          obtain ⟨q', rfl⟩ := ht.isParam hv htk
          rw [Option.map_some, Option.map_some, embR, embR, cellL_param, cellL_param]
          exact ⟨_, rfl⟩
    | mlist d u =>
      obtain ⟨tb', ht', h1⟩ := hr.mlist hv
      rw [hm] at h1; cases h1
      have hmt := metaTables_if u tb'
      obtain ⟨n', rfl, hl'⟩ := levelOk_get hl hm hmt
      obtain ⟨lf, hfk, _, hlf⟩ := hf.isList hv
      obtain ⟨lt, htk, _, hlt⟩ := ht.isList hv
      rw [hfk, htk, Option.map_some, Option.map_some]
      cases lf with
      | none =>
        rw [show embR (.list none) = .milNone from rfl, cellL_milNone hmt]
        cases lt with
        | none => rw [show embR (.list none) = .milNone from rfl, cellL_milNone hmt]; exact ⟨_, rfl⟩
        | some l => rw [embR, cellL_mil hmt]; exact ⟨_, rfl⟩
      | some lf =>
        obtain ⟨lt', htk', ⟨g1, g2⟩, g3⟩ := hst.lists k _ d u lf hv hfk
        rw [htk] at htk'; cases htk'
        rw [embR, embR, cellL_mil hmt, cellL_mil hmt]
        refine ⟨_, rfl, ?_⟩
        show ListStays (ObjStays n') _ _
        refine ⟨g1, ?_, ?_⟩
        · rw [listL_ids, listL_ids]; exact g2
        · intro x hx y hy hxy
          obtain ⟨x', hx', rfl⟩ := List.mem_map.mp hx
          obtain ⟨y', hy', rfl⟩ := List.mem_map.mp hy
          exact rowStays_of n' ht' hl' ((hlf _ rfl).2 x' hx') ((hlt _ rfl).2 y' hy') (g3 x' hx' y' hy' hxy)

/-! ## The same but for what a diff does not store -/

theorem looseItem_of : ∀ (n : Nat) {d : LDef} {tb : Tables} {a b : Item}, Tab d tb → LevelOk n tb.1 → ItemFits d a → ItemFits d b →
    RowLoose (ObjLoose n) (rowL n tb a) (rowL n tb b) → LooseItem d a b := by
  intro n
  induction n using Nat.strong_induction_on with
  | _ n ih =>
    intro d tb a b ht hl ha hb hlo
    have hv : ∀ {k id v m}, d.members.get k = some (id, v) → metaGet tb.1 id = some (k, m) →
        CellLoose (ObjLoose n) ((a.values.get k).map (cellL n m)) ((b.values.get k).map (cellL n m)) := by
      intro k id v m hk hm
      rw [← entry_vals_of hm, ← entry_vals_of hm]
      exact hlo.1 id
    have hmil : ∀ {k id d' u}, d.members.get k = some (id, .milDef d' u) → ∀ {l ln m mn}, a.values.get k = some (.mil l ln) →
        b.values.get k = some (.mil m mn) → ∃ tb' n', n = n' + 1 ∧ Tab d' tb' ∧ LevelOk n' tb'.1 ∧
          ListLoose (ObjLoose n') (listL n' tb' ⟨l, ln⟩) (listL n' tb' ⟨m, mn⟩) := by
      intro k id d' u hk l ln m mn hak hbk
      obtain ⟨tb', mt, ht', hm, hmt⟩ := ht.mil' hk
      obtain ⟨n', rfl, hl'⟩ := levelOk_get hl hm hmt
      have h := hv hk hm
      rw [hak, hbk, Option.map_some, Option.map_some, cellL_mil hmt, cellL_mil hmt] at h
      exact ⟨tb', n', rfl, ht', hl', h⟩
    refine .mk ?_ ?_ ?_ ?_ ?_
    · intro k id p vt hk
      have h := hv hk (ht.param hk)
      cases hak : a.values.get k with
      | none =>
        cases hbk : b.values.get k with
        | none => exact .none
        | some w => obtain ⟨q, rfl⟩ := hb.isParam hk hbk; rw [hak, hbk, Option.map_some, cellL_param] at h; exact h.elim
      | some v =>
        obtain ⟨q, rfl⟩ := ha.isParam hk hak
        cases hbk : b.values.get k with
        | none => rw [hak, hbk, Option.map_some, cellL_param] at h; exact h.elim
        | some w =>
          obtain ⟨q', rfl⟩ := hb.isParam hk hbk
          rw [hak, hbk, Option.map_some, Option.map_some, cellL_param, cellL_param] at h
          exact .both h
    · intro k id d' u hk
      obtain ⟨tb', mt, ht', hm, hmt⟩ := ht.mil' hk
      obtain ⟨n', rfl, hl'⟩ := levelOk_get hl hm hmt
      have h := hv hk hm
      cases hak : a.values.get k with
      | none =>
        cases hbk : b.values.get k with
        | none => exact .none
        | some w =>
          rw [hak, hbk] at h
          rcases hb.isMil hk hbk with rfl | ⟨l, ln, rfl, _⟩
          · rw [Option.map_some, cellL_milNone hmt] at h; exact h.elim
          · rw [Option.map_some, cellL_mil hmt] at h; exact h.elim
      | some v =>
        rw [hak, Option.map_some] at h
        cases hbk : b.values.get k with
        | none =>
          rw [hbk] at h
          rcases ha.isMil hk hak with rfl | ⟨l, ln, rfl, _⟩
          · rw [cellL_milNone hmt] at h; exact h.elim
          · rw [cellL_mil hmt] at h; exact h.elim
        | some w =>
          rw [hbk, Option.map_some] at h
          rcases ha.isMil hk hak with rfl | ⟨l, ln, rfl, _⟩
          · rcases hb.isMil hk hbk with rfl | ⟨l, ln, rfl, _⟩
            · exact .undef
            · rw [cellL_milNone hmt, cellL_mil hmt] at h; exact h.elim
          · rcases hb.isMil hk hbk with rfl | ⟨l, ln, rfl, _⟩
            · rw [cellL_milNone hmt, cellL_mil hmt] at h; exact h.elim
            · exact .list _ _ _ _
    · intro k id d' u l ln m mn hk hak hbk
      obtain ⟨tb', n', _, _, _, h1, h2, _⟩ := hmil hk hak hbk
      rw [listL_ids, listL_ids] at h1
      exact ⟨h2, h1⟩
    · intro k id d' u l ln m mn hk hak hbk x hx y hy he
      obtain ⟨tb', n', rfl, ht', hl', _, _, h3⟩ := hmil hk hak hbk
      rcases ha.isMil hk hak with hc | ⟨_, _, hc, hlf⟩ <;> cases hc
      rcases hb.isMil hk hbk with hc | ⟨_, _, hc, hlt⟩ <;> cases hc
      exact ih n' (Nat.lt_succ_self _) ht' hl' (hlf.2 x hx) (hlt.2 y hy)
        (h3 (x.1, rowL n' tb' x.2) (List.mem_map.mpr ⟨x, hx, rfl⟩) (y.1, rowL n' tb' y.2) (List.mem_map.mpr ⟨y, hy, rfl⟩) he)
    · intro k x hk
      obtain ⟨id, q, vt⟩ := x
      have hm := ht.refPlace hk
      have h : entry (refValsL tb.2 a.refs) id = entry (refValsL tb.2 b.refs) id := hlo.2 id
      rw [entry_refValsL, entry_refValsL, hm] at h
      exact h

theorem looseRoot_of {n : Nat} (hr : RootTable defs table) (hl : LevelOk n table) {a b : AMap RootSab} (ha : RootFits defs a)
    (hb : RootFits defs b) (hlo : RootLoose n (rootValsL n table a) (rootValsL n table b)) : LooseRoot defs a b := by
  have hv : ∀ {k id v m}, defs.get k = some (id, v) → metaGet table id = some (k, m) →
      CellLoose (ObjLoose n) ((a.get k).map fun v => cellL n m (embR v)) ((b.get k).map fun v => cellL n m (embR v)) := by
    intro k id v m hk hm
    rw [← entry_rootVals_of hm, ← entry_rootVals_of hm]
    exact hlo id
  have hlist : ∀ {k id d u}, defs.get k = some (id, .mlist d u) → ∃ l m, a.get k = some (.list l) ∧ b.get k = some (.list m) ∧
      ((l = none ∧ m = none) ∨ ∃ x y, l = some x ∧ m = some y ∧ x.2 ≤ y.2 ∧ (x.1.map (·.1)).Perm (y.1.map (·.1)) ∧
        ∀ e ∈ x.1, ∀ e' ∈ y.1, e.1 = e'.1 → LooseItem d e.2 e'.2) := by
    intro k id d u hk
    obtain ⟨tb', ht', hm⟩ := hr.mlist hk
    have hmt := metaTables_if u tb'
    obtain ⟨n', rfl, hl'⟩ := levelOk_get hl hm hmt
    have h := hv hk hm
    obtain ⟨l, hal, _, hlf⟩ := ha.isList hk
    obtain ⟨m, hbl, _, hlt⟩ := hb.isList hk
    refine ⟨l, m, hal, hbl, ?_⟩
    rw [hal, hbl, Option.map_some, Option.map_some] at h
    cases l with
    | none =>
      cases m with
      | none => exact .inl ⟨rfl, rfl⟩
      | some m => rw [embR, embR, cellL_mil hmt, cellL_milNone hmt] at h; exact h.elim
    | some l =>
      cases m with
      | none => rw [embR, embR, cellL_mil hmt, cellL_milNone hmt] at h; exact h.elim
      | some m =>
        rw [embR, embR, cellL_mil hmt, cellL_mil hmt] at h
        obtain ⟨h1, h2, h3⟩ : ListLoose (ObjLoose n') (listL n' tb' ⟨l.1, l.2⟩) (listL n' tb' ⟨m.1, m.2⟩) := h
        rw [listL_ids, listL_ids] at h1
        refine .inr ⟨l, m, rfl, rfl, h2, h1, fun x hx y hy he => ?_⟩
        exact looseItem_of n' ht' hl' ((hlf _ rfl).2 x hx) ((hlt _ rfl).2 y hy)
          (h3 (x.1, rowL n' tb' x.2) (List.mem_map.mpr ⟨x, hx, rfl⟩) (y.1, rowL n' tb' y.2) (List.mem_map.mpr ⟨y, hy, rfl⟩) he)
  refine ⟨?_, ?_, ?_, ?_⟩
  · intro k id p vt hk
    have h := hv hk (hr.param hk)
    cases hak : a.get k with
    | none =>
      cases hbk : b.get k with
      | none => exact .none
      | some w => obtain ⟨q, rfl⟩ := hb.isParam hk hbk; rw [hak, hbk, Option.map_some, embR, cellL_param] at h; exact h.elim
    | some v =>
      obtain ⟨q, rfl⟩ := ha.isParam hk hak
      cases hbk : b.get k with
      | none => rw [hak, hbk, Option.map_some, embR, cellL_param] at h; exact h.elim
      | some w =>
        obtain ⟨q', rfl⟩ := hb.isParam hk hbk
        rw [hak, hbk, Option.map_some, Option.map_some, embR, embR, cellL_param, cellL_param] at h
        exact .both h
  · intro k id d u hk
    obtain ⟨l, m, h1, h2, h3⟩ := hlist hk
    rw [h1, h2]
    rcases h3 with ⟨rfl, rfl⟩ | ⟨x, y, rfl, rfl, _⟩
    · simp
    · simp
  · intro k id d u l hk hak
    obtain ⟨l', m, h1, h2, h3⟩ := hlist hk
    rw [hak] at h1; cases h1
    rcases h3 with ⟨h, _⟩ | ⟨x, y, h, rfl, h4⟩
    · cases h
    · cases h; exact ⟨y, h2, h4⟩
  · intro k id d u m hk hbk
    obtain ⟨l, m', h1, h2, h3⟩ := hlist hk
    rw [hbk] at h2; cases h2
    rcases h3 with ⟨_, h⟩ | ⟨x, y, rfl, h, _⟩
    · cases h
    · exact ⟨x, h1⟩

end
end Verif.Named
