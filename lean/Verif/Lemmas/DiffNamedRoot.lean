import Verif.Lemmas.DiffNamedApply
/-! # Root objects by name and by id -/
namespace Verif.Named
open Diff Core Source LinkedMap

/-- a value of the root as a value of an item -/
def embR : RootSab → SabVal
  | .param p => .param p
  | .list none => .milNone
  | .list (some l) => .mil l.1 l.2

/-- the values of the root by id -/
def rootValsL (n : Nat) (t : MetaTable) (s : AMap RootSab) : List (Option (Cell (Obj n))) :=
  t.map fun c => c.bind fun c => (s.get c.1).map fun v => cellL n c.2 (embR v)

theorem rootValsL_length (n : Nat) (t : MetaTable) (s : AMap RootSab) : (rootValsL n t s).length = t.length := by simp [rootValsL]

theorem entry_rootVals (n : Nat) (t : MetaTable) (s : AMap RootSab) (i : Nat) :
    entry (rootValsL n t s) i = (metaGet t i).bind fun c => (s.get c.1).map fun v => cellL n c.2 (embR v) := entry_map_bind _ _ _

theorem rootL_eq (n : Nat) (t : MetaTable) : rootL n t = colsL n t := rfl

section
variable {defs : AMap (Nat × RootValI)} {table : MetaTable}

theorem RootTable.place (h : RootTable defs table) {k : String} {id : Nat} {v : RootValI} (hk : defs.get k = some (id, v)) :
    RootPlace k v (table[id]?) := h.places _ _ _ (AMap.mem_of_get hk)

theorem RootTable.param (h : RootTable defs table) {k : String} {id : Nat} {p : Param} {vt : VType} (hk : defs.get k = some (id, .param p vt)) :
    metaGet table id = some (k, .param (ptype p) vt) := metaGet_of (h.place hk)

theorem RootTable.const (h : RootTable defs table) {k : String} {id : Nat} {d : LDef} {x y} (hk : defs.get k = some (id, .table d x y)) :
    metaGet table id = none := metaGet_none_of (h.place hk)

theorem RootTable.const' (h : RootTable defs table) {k : String} {id : Nat} {d : LDef} {x} (hk : defs.get k = some (id, .clist d x)) :
    metaGet table id = none := metaGet_none_of (h.place hk)

theorem RootTable.mlist (h : RootTable defs table) {k : String} {id : Nat} {d : LDef} {u : Bool} (hk : defs.get k = some (id, .mlist d u)) :
    ∃ tb, Tab d tb ∧ metaGet table id = some (k, if u then .optMil tb.1 tb.2 else .mlist tb.1 tb.2) := by
  obtain ⟨i, r, h1, h2, h3⟩ := h.place hk
  exact ⟨(i, r), ⟨h.numbered _ _ _ _ (AMap.mem_of_get hk) rfl, h1, h2⟩, metaGet_of h3⟩

theorem RootTable.member (h : RootTable defs table) {k : String} {id : Nat} {m : Meta} (hm : metaGet table id = some (k, m)) :
    ∃ v, defs.get k = some (id, v) := by
  have hlt := metaGet_lt hm
  rw [h.length] at hlt
  have hid : id ∈ defs.map (·.2.1) := by
    refine h.ids.mem_iff.mpr ?_
    simpa using hlt
  obtain ⟨⟨k', id', v⟩, he, rfl⟩ := List.mem_map.mp hid
  have hk' := AMap.get_of_mem h.names he
  have hkk : k' = k := by
    cases v with
    | param p vt => have := h.param hk'; rw [this] at hm; cases hm; rfl
    | table d x y => have := h.const hk'; rw [this] at hm; cases hm
    | clist d x => have := h.const' hk'; rw [this] at hm; cases hm
    | mlist d u => obtain ⟨tb', _, h2⟩ := h.mlist hk'; rw [h2] at hm; cases hm; rfl
  subst hkk
  exact ⟨v, hk'⟩

theorem RootTable.inj (h : RootTable defs table) (k k' : String) (id : Nat) (v v' : RootValI) (h1 : defs.get k = some (id, v))
    (h2 : defs.get k' = some (id, v')) : k = k' := by
  have := List.inj_on_of_nodup_map (idsFill_nodup h.ids) (AMap.mem_of_get h1) (AMap.mem_of_get h2) rfl
  exact congrArg (·.1) this

theorem RootTable.inj' (h : RootTable defs table) (i j : Nat) (k : String) (m m' : Meta) (h1 : metaGet table i = some (k, m))
    (h2 : metaGet table j = some (k, m')) : i = j := by
  obtain ⟨v, hv⟩ := h.member h1
  obtain ⟨v', hv'⟩ := h.member h2
  rw [hv] at hv'; cases hv'; rfl

theorem RootTable.lt (h : RootTable defs table) {k : String} {id : Nat} {v : RootValI} (hk : defs.get k = some (id, v)) : id < table.length := by
  rw [h.length]
  have := idsFill_lt h.ids (List.mem_map.mpr ⟨_, AMap.mem_of_get hk, rfl⟩)
  simpa using this

theorem entry_rootVals_of {n : Nat} {k : String} {id : Nat} {m : Meta} (hm : metaGet table id = some (k, m)) (s : AMap RootSab) :
    entry (rootValsL n table s) id = (s.get k).map fun v => cellL n m (embR v) := by rw [entry_rootVals, hm]; rfl

theorem entry_rootVals_some (h : RootTable defs table) {n : Nat} {s : AMap RootSab} {i : Nat} {c : Cell (Obj n)}
    (he : entry (rootValsL n table s) i = some c) : ∃ k w v, (k, w) ∈ s ∧ defs.get k = some (i, v) := by
  rw [entry_rootVals] at he
  cases hm : metaGet table i with
  | none => rw [hm] at he; cases he
  | some e =>
    obtain ⟨k, m⟩ := e
    obtain ⟨v, hv⟩ := h.member hm
    rw [hm] at he
    cases hs : s.get k with
    | none => simp only [Option.bind_some, hs] at he; cases he
    | some w => exact ⟨k, w, v, AMap.mem_of_get hs, hv⟩

theorem RootFits.param' {s : AMap RootSab} (h : RootFits defs s) {k : String} {p : Param} (hk : s.get k = some (.param p)) :
    ∃ id q vt, defs.get k = some (id, .param q vt) ∧ ParamOk q.ptype vt p := h.params _ _ (AMap.mem_of_get hk)

theorem RootFits.list' {s : AMap RootSab} (h : RootFits defs s) {k : String} {l} (hk : s.get k = some (.list l)) :
    ∃ id d u, defs.get k = some (id, .mlist d u) ∧ (l = none → u = true) ∧ ∀ m, l = some m → ListFits d ⟨m.1, m.2⟩ := by
  obtain ⟨id, d, u, hd⟩ := h.lists _ _ (AMap.mem_of_get hk)
  refine ⟨id, d, u, hd, fun hl => ?_, fun m hm => ?_⟩
  · obtain ⟨l', h1, h2⟩ := h.there _ _ _ _ hd
    rw [hk] at h1; cases h1
    cases u with
    | true => rfl
    | false => exact absurd hl (h2 rfl)
  · subst hm
    exact h.items _ _ _ _ _ (AMap.mem_of_get hk) hd

/-! ## Fitting -/

theorem rootOk_of {n c : Nat} (hc : c < 2 ^ 62) (hr : RootTable defs table) (hl : LevelOk n table) (hlen : defs.length < 2 ^ 62)
    (hs : ∀ k id d u, defs.get k = some (id, .mlist d u) → Sized c c d) {s : AMap RootSab} (hf : RootFits defs s) :
    RootOk n (rootL n table) (rootValsL n table s) := by
  refine ⟨?_, ?_, fun i => ?_, fun i sc hi => ?_⟩
  · rw [rootL_eq, colsL_length, hr.length]; exact hlen
  · rw [rootValsL_length, rootL_eq, colsL_length]
  · rw [rootL_eq]
    cases hm : metaGet table i with
    | none =>
      have : entry (rootValsL n table s) i = none := by rw [entry_rootVals, hm]; rfl
      rw [this]; unfold CellOk; split <;> simp_all
    | some e =>
      obtain ⟨k, m⟩ := e
      rw [entry_rootVals_of hm, entry_col_of (tb := (table, [])) hm]
      obtain ⟨v, hv⟩ := hr.member hm
      cases hk : s.get k with
      | none => rw [Option.map_none]; unfold CellOk; split <;> simp_all
      | some w =>
        rw [Option.map_some]
        cases w with
        | param p =>
          obtain ⟨id, q, vt, h1, h2⟩ := hf.param' hk
          rw [hv] at h1; cases h1
          have := hr.param hv
          rw [hm] at this; cases this
          rw [colL_param, embR, cellL_param]
          show ParamOk _ _ _
          rw [ptype_eq]; exact h2
        | list l =>
          obtain ⟨id, d, u, h1, h2, h3⟩ := hf.list' hk
          rw [hv] at h1; cases h1
          obtain ⟨tb', ht', h4⟩ := hr.mlist hv
          rw [hm] at h4; cases h4
          obtain ⟨n', rfl, hl'⟩ := levelOk_get hl hm (metaTables_if u tb')
          cases l with
          | none =>
            have hu := h2 rfl
            subst hu
            rw [embR, cellL_milNone (metaTables_if true tb')]
            trivial
          | some l =>
            rw [embR, cellL_mil (metaTables_if u tb'), colL_if]
            have := objOk_of hc n' ht' hl' (hs _ _ _ _ hv) (h3 l rfl)
            cases u
            · exact this
            · exact this
  · rw [rootL_eq, entry_colsL] at hi
    cases hm : metaGet table i with
    | none => rw [hm] at hi; rcases hi with hi | hi <;> cases hi
    | some e =>
      obtain ⟨k, m⟩ := e
      rw [hm] at hi
      obtain ⟨v, hv⟩ := hr.member hm
      have hlist : ∃ d u, v = .mlist d u := by
        cases v with
        | param p vt =>
          have := hr.param hv; rw [hm] at this; cases this
          simp only [Option.bind_some, colL_param] at hi
          rcases hi with hi | hi <;> cases hi
        | table d x y => rw [hr.const hv] at hm; cases hm
        | clist d x => rw [hr.const' hv] at hm; cases hm
        | mlist d u => exact ⟨d, u, rfl⟩
      obtain ⟨d, u, rfl⟩ := hlist
      obtain ⟨l, hl, _⟩ := hf.there _ _ _ _ hv
      rw [entry_rootVals_of hm, hl]
      simp

theorem optUndefined_of {n : Nat} (hr : RootTable defs table) (hl : LevelOk n table) {s : AMap RootSab} (ho : OptUndefined defs s) :
    OptListsUndefined n (rootL n table) (rootValsL n table s) := by
  intro i sc hi
  rw [rootL_eq, entry_colsL] at hi
  cases hm : metaGet table i with
  | none => rw [hm] at hi; cases hi
  | some e =>
    obtain ⟨k, m⟩ := e
    rw [hm] at hi
    obtain ⟨v, hv⟩ := hr.member hm
    cases v with
    | param p vt =>
      have := hr.param hv; rw [hm] at this; cases this
      simp only [Option.bind_some, colL_param] at hi
      cases hi
    | table d x y => rw [hr.const hv] at hm; cases hm
    | clist d x => rw [hr.const' hv] at hm; cases hm
    | mlist d u =>
      obtain ⟨tb', ht', h4⟩ := hr.mlist hv
      rw [hm] at h4; cases h4
      obtain ⟨n', rfl, hl'⟩ := levelOk_get hl hm (metaTables_if u tb')
      simp only [Option.bind_some, colL_if] at hi
      cases u with
      | false => cases hi
      | true => rw [entry_rootVals_of hm, ho _ _ _ hv]; rfl

theorem rootStep_of {n : Nat} (hr : RootTable defs table) (hl : LevelOk n table) {f t : AMap RootSab} (hf : RootFits defs f)
    (ht : RootFits defs t) (hst : RootStepN defs f t) : RootStep n (rootValsL n table f) (rootValsL n table t) := by
  intro i
  cases hm : metaGet table i with
  | none => rw [entry_rootVals, entry_rootVals, hm]; rfl
  | some e =>
    obtain ⟨k, m⟩ := e
    rw [entry_rootVals_of hm, entry_rootVals_of hm]
    obtain ⟨v, hv⟩ := hr.member hm
    cases v with
    | table d x y => rw [hr.const hv] at hm; cases hm
    | clist d x => rw [hr.const' hv] at hm; cases hm
    | param p vt =>
      have h := hr.param hv; rw [hm] at h; cases h
      cases htk : t.get k with
      | none => rw [hst.stays _ _ _ _ hv htk]; rfl
      | some w =>
        cases w with
        | list l => obtain ⟨_, _, _, hx, _⟩ := ht.list' htk; rw [hv] at hx; cases hx
        | param q =>
          cases hfk : f.get k with
          | none => rw [Option.map_some, Option.map_none, embR, cellL_param]; trivial
          | some w =>
            cases w with
            | list l => obtain ⟨_, _, _, hx, _⟩ := hf.list' hfk; rw [hv] at hx; cases hx
            | param q' =>
              rw [Option.map_some, Option.map_some, embR, embR, cellL_param, cellL_param]
              exact hst.zeros _ _ _ _ _ _ hv hfk htk
    | mlist d u =>
      obtain ⟨tb', ht', h1⟩ := hr.mlist hv
      rw [hm] at h1; cases h1
      have hmt := metaTables_if u tb'
      obtain ⟨n', rfl, hl'⟩ := levelOk_get hl hm hmt
      obtain ⟨lt, htk, _⟩ := ht.there _ _ _ _ hv
      obtain ⟨lf, hfk, _⟩ := hf.there _ _ _ _ hv
      rw [htk, hfk, Option.map_some, Option.map_some]
      cases lt with
      | none =>
        rw [show embR (.list none) = .milNone from rfl, cellL_milNone hmt]
        cases lf with
        | none => rw [show embR (.list none) = .milNone from rfl, cellL_milNone hmt]; trivial
        | some l => rw [embR, cellL_mil hmt]; trivial
      | some lt =>
        cases lf with
        | none => rw [embR, embR, cellL_mil hmt, cellL_milNone hmt]; trivial
        | some lf =>
          rw [embR, embR, cellL_mil hmt, cellL_mil hmt]
          obtain ⟨_, _, _, hx, _, hlf⟩ := hf.list' hfk
          rw [hv] at hx; cases hx
          obtain ⟨_, _, _, hx, _, hlt⟩ := ht.list' htk
          rw [hv] at hx; cases hx
          obtain ⟨s1, s2, s3⟩ := hst.lists _ _ _ _ _ _ hv hfk htk
          exact objStep_of ht' hl' (hlf _ rfl) (hlt _ rfl) s1 s2 s3

theorem sameRoot_of {n : Nat} (hr : RootTable defs table) (hl : LevelOk n table) {a b : AMap RootSab} (ha : RootFits defs a)
    (he : rootValsL n table a = rootValsL n table b) : SameRoot defs a b := by
  have hv : ∀ {k id v m}, defs.get k = some (id, v) → metaGet table id = some (k, m) →
      (a.get k).map (fun v => cellL n m (embR v)) = (b.get k).map (fun v => cellL n m (embR v)) := by
    intro k id v m hk hm
    rw [← entry_rootVals_of hm, ← entry_rootVals_of hm, he]
  have hlist : ∀ {k id d u}, defs.get k = some (id, .mlist d u) → ∃ l m, a.get k = some (.list l) ∧ b.get k = some (.list m) ∧
      ((l = none ∧ m = none) ∨ ∃ x y, l = some x ∧ m = some y ∧ x.2 = y.2 ∧ SameItems d x.1 y.1) := by
    intro k id d u hk
    obtain ⟨tb', ht', hm⟩ := hr.mlist hk
    have hmt := metaTables_if u tb'
    obtain ⟨n', rfl, hl'⟩ := levelOk_get hl hm hmt
    have h := hv hk hm
    obtain ⟨l, hal, _⟩ := ha.there _ _ _ _ hk
    rw [hal, Option.map_some] at h
    cases hb : b.get k with
    | none => rw [hb] at h; cases h
    | some w =>
      rw [hb, Option.map_some] at h
      cases w with
      | param p =>
        rw [show embR (.param p) = .param p from rfl, cellL_param] at h
        cases l with
        | none => rw [embR, cellL_milNone hmt] at h; cases h
        | some l => rw [embR, cellL_mil hmt] at h; cases h
      | list m =>
        refine ⟨l, m, hal, rfl, ?_⟩
        cases l with
        | none =>
          cases m with
          | none => exact .inl ⟨rfl, rfl⟩
          | some m => rw [embR, embR, cellL_mil hmt, cellL_milNone hmt] at h; cases h
        | some l =>
          cases m with
          | none => rw [embR, embR, cellL_mil hmt, cellL_milNone hmt] at h; cases h
          | some m =>
            rw [embR, embR, cellL_mil hmt, cellL_mil hmt] at h
            have h : listL n' tb' ⟨l.1, l.2⟩ = listL n' tb' ⟨m.1, m.2⟩ := by injection h with h; injection h with h; injection h
            obtain ⟨_, _, _, hx, _, hlf⟩ := ha.list' hal
            rw [hk] at hx; cases hx
            exact .inr ⟨l, m, rfl, rfl, congrArg (·.nextId) h, sameItems_of ht' hl' (hlf _ rfl).2 (congrArg (·.items) h)⟩
  refine ⟨?_, ?_, ?_, ?_⟩
  · intro k id p vt hk
    have hm := hr.param hk
    have h := hv hk hm
    cases hak : a.get k with
    | none =>
      cases hbk : b.get k with
      | none => rfl
      | some w => rw [hak, hbk] at h; cases h
    | some v =>
      cases v with
      | list l => obtain ⟨_, _, _, hx, _⟩ := ha.list' hak; rw [hk] at hx; cases hx
      | param q =>
        cases hbk : b.get k with
        | none => rw [hak, hbk] at h; cases h
        | some w =>
          rw [hak, hbk, Option.map_some, Option.map_some, show embR (.param q) = .param q from rfl, cellL_param] at h
          cases w with
          | param q' => rw [embR, cellL_param] at h; cases h; rfl
          | list l => cases l <;> cases n <;> cases h
  · intro k id d u hk
    obtain ⟨l, m, h1, h2, h3⟩ := hlist hk
    rw [h1, h2]
    rcases h3 with ⟨rfl, rfl⟩ | ⟨x, y, rfl, rfl, _⟩
    · simp
    · simp
  · intro k id d u l hk hak
    obtain ⟨l', m, h1, h2, h3⟩ := hlist hk
    rw [hak] at h1; cases h1
    rcases h3 with ⟨h, _⟩ | ⟨x, y, h, rfl, h4, h5⟩
    · cases h
    · cases h; exact ⟨y, h2, h4, h5⟩
  · intro k id d u m hk hbk
    obtain ⟨l, m', h1, h2, h3⟩ := hlist hk
    rw [hbk] at h2; cases h2
    rcases h3 with ⟨_, h⟩ | ⟨x, y, rfl, h, _⟩
    · cases h
    · exact ⟨x, h1⟩

/-! ## The diff -/

theorem qv_comm {α : Type} {eq : α → α → Bool} (h : ∀ a b, eq a b = eq b a) (a b : Qv α) : a.identEq eq b = b.identEq eq a := by
  cases a <;> cases b <;> first | rfl | exact h _ _

theorem identEq_comm (c : Bool) (a b : Param) : identEq c a b = identEq c b a := by
  cases a <;> cases b <;> try rfl
  · exact qv_comm (fun x y => by rw [Bool.beq_comm]) _ _
  · exact qv_comm (fun x y => by rw [Bool.beq_comm]) _ _
  · exact qv_comm eq64_comm _ _
  · exact qv_comm (eq := fun x y => c && x == y) (fun x y => by rw [Bool.beq_comm]) _ _
  · exact qv_comm (eq := fun x y => c && x == y) (fun x y => by rw [Bool.beq_comm]) _ _
  · exact qv_comm eqFloats_comm _ _
  · exact qv_comm (eq := fun x y => c && x == y) (fun x y => by rw [Bool.beq_comm]) _ _

theorem rootValue_step {n : Nat} (hr : RootTable defs table) (hl : LevelOk n table) (ptr : Ptr) {f t : AMap RootSab} (hf : RootFits defs f)
    (ht : RootFits defs t) (hof : OptUndefined defs f) (hot : OptUndefined defs t) (e : String × RootSab) (he : e ∈ t) (acc : Acc (DiffT n)) :
    rootValue n ptr defs table f acc e = .ok
      ⟨puts (fun e : String × RootSab => contrib defs (fun i => paramDiff (ptr [i]) (entry (rootValsL n table f) i)
          (entry (rootValsL n table t) i)) e.1) [e] acc.params,
       puts (fun e : String × RootSab => contrib defs (fun i => listDiff (getDiffN n fun p => ptr (i :: p)) (newListN n)
          (entry (rootL n table) i) (entry (rootValsL n table f) i) (entry (rootValsL n table t) i)) e.1) [e] acc.lists⟩ := by
  obtain ⟨k, v⟩ := e
  have hk := AMap.get_of_mem ht.wf he
  unfold rootValue
  cases v with
  | param p =>
    obtain ⟨id, q, vt, hd, _⟩ := ht.param' hk
    have hm := hr.param hd
    have et := entry_rootVals_of (n := n) hm t
    have ef := entry_rootVals_of (n := n) hm f
    rw [hk, Option.map_some, embR, cellL_param] at et
    rw [puts_none (e := (k, RootSab.param p)) (c := fun e : String × RootSab => contrib defs (fun i => listDiff (getDiffN n fun p => ptr (i :: p)) (newListN n)
          (entry (rootL n table) i) (entry (rootValsL n table f) i) (entry (rootValsL n table t) i)) e.1)]
    · simp only [hd]
      cases hfk : f.get k with
      | none =>
        rw [hfk] at ef
        simp only
        rw [puts_some (e := (k, RootSab.param p)) (x := (id, p))]
        rw [contrib_of hd, et, ef]; rfl
      | some w =>
        cases w with
        | list l => obtain ⟨_, _, _, hx, _⟩ := hf.list' hfk; rw [hd] at hx; cases hx
        | param q' =>
          rw [hfk, Option.map_some, embR, cellL_param] at ef
          simp only
          rw [identEq_comm]
          split
          · rename_i hi
            rw [puts_none (e := (k, RootSab.param p))]
            rw [contrib_of hd, et, ef]; simp only [paramDiff, if_pos hi]; rfl
          · rename_i hi
            rw [puts_some (e := (k, RootSab.param p)) (x := (id, p))]
            rw [contrib_of hd, et, ef]; simp only [paramDiff, if_neg hi]; rfl
    · rw [contrib_of hd, et]; simp [listDiff]
  | list lt =>
    obtain ⟨id, d, u, hd, hu, hlt⟩ := ht.list' hk
    obtain ⟨tb', ht', hm⟩ := hr.mlist hd
    have hmt := metaTables_if u tb'
    obtain ⟨n', hn, hl'⟩ := levelOk_get hl hm hmt
    have et := entry_rootVals_of (n := n) hm t
    have ef := entry_rootVals_of (n := n) hm f
    obtain ⟨lf, hfk, hnf⟩ := hf.there _ _ _ _ hd
    rw [hk, Option.map_some] at et
    rw [hfk, Option.map_some] at ef
    have hp : ∀ c, entry (rootValsL n table t) id = some (.mil c) →
        contrib defs (fun i => paramDiff (ptr [i]) (entry (rootValsL n table f) i) (entry (rootValsL n table t) i)) k = none := by
      intro c hc
      rw [contrib_of hd, hc]; rfl
    simp only [hfk]
    cases u with
    | true =>
      have h1 := hot _ _ _ hd
      rw [hk] at h1; cases h1
      have h2 := hof _ _ _ hd
      rw [hfk] at h2; cases h2
      rw [embR, cellL_milNone hmt] at et ef
      rw [puts_none (e := (k, RootSab.list none)), puts_none (e := (k, RootSab.list none))]
      · rw [contrib_of hd, et, ef]
        subst hn
        have : (entry (rootL (n' + 1) table) id).bind Col.tables = some (schL n' tb') := by
          rw [rootL_eq, entry_colsL, hm]; exact colL_tables hmt
        unfold listDiff
        rw [this]; rfl
      · exact hp _ et
    | false =>
      cases lt with
      | none => exact absurd (hu rfl) (by simp)
      | some b =>
        cases lf with
        | none => exact absurd rfl (hnf rfl)
        | some a =>
          obtain ⟨_, _, _, hx, _, hlf⟩ := hf.list' hfk
          rw [hd] at hx; cases hx
          obtain ⟨s, x, y, hs, hx, hy, hg⟩ := diffSpec n (fun p => ptr (id :: p)) d _ tb' ⟨a.1, a.2⟩ ⟨b.1, b.2⟩ n' hmt ht' hn hl' (hlf _ rfl) (hlt _ rfl)
          rw [embR, hy] at et
          rw [embR, hx] at ef
          have hm' : metaGet table id = some (k, .mlist tb'.1 tb'.2) := hm
          simp only [hd, hm', hg]
          have hs' : (entry (rootL n table) id).bind Col.tables = some s := by
            rw [rootL_eq, entry_colsL, hm]; exact hs
          have hld : listDiff (getDiffN n fun p => ptr (id :: p)) (newListN n) (entry (rootL n table) id) (some (.mil (some x)))
              (some (.mil (some y))) = (getDiffN n (fun p => ptr (id :: p)) s x y).map some := by
            unfold listDiff; rw [hs']
          rw [puts_none (e := (k, RootSab.list (some b))) (hp _ et)]
          cases hgd : getDiffN n (fun p => ptr (id :: p)) s x y with
          | none =>
            rw [puts_none (e := (k, RootSab.list (some b)))]
            · rfl
            · rw [contrib_of hd, et, ef, hld, hgd]; rfl
          | some z =>
            rw [puts_some (e := (k, RootSab.list (some b))) (x := (id, some z))]
            · rfl
            · rw [contrib_of hd, et, ef, hld, hgd]; rfl

/-- get_root_diff by name is get_root_diff by id. -/
theorem nRootDiff_eq {n c : Nat} (hc : c < 2 ^ 62) (hr : RootTable defs table) (hl : LevelOk n table) (hlen : defs.length < 2 ^ 62)
    (hs : ∀ k id d u, defs.get k = some (id, .mlist d u) → Sized c c d) (ptr : Ptr) {f t : AMap RootSab} (hf : RootFits defs f)
    (ht : RootFits defs t) (hof : OptUndefined defs f) (hot : OptUndefined defs t) :
    nRootDiff n ptr defs table f t = getRootDiff n ptr (rootL n table) (rootValsL n table f) (rootValsL n table t) := by
  rw [getRootDiff_eq ptr (rootOk_of hc hr hl hlen hs hf) (rootOk_of hc hr hl hlen hs ht) (optUndefined_of hr hl hof) (optUndefined_of hr hl hot)]
  unfold nRootDiff
  rw [loop_acc _ _ _ t ⟨[], []⟩ fun e he acc => rootValue_step hr hl ptr hf ht hof hot e he acc]
  rw [puts_contrib defs hr.inj t ht.wf table.length _ (fun k id v h => hr.lt h) (by
      intro i b hb
      cases he : entry (rootValsL n table t) i with
      | none => rw [he] at hb; cases hb
      | some c => exact entry_rootVals_some hr he),
    puts_contrib defs hr.inj t ht.wf table.length _ (fun k id v h => hr.lt h) (by
      intro i b hb
      cases he : entry (rootValsL n table t) i with
      | none => rw [he] at hb; simp [listDiff] at hb
      | some c => exact entry_rootVals_some hr he)]
  simp only [rootValsL_length]
  rfl

/-! ## Applying -/

theorem rootValsL_insert (hr : RootTable defs table) {n : Nat} {id : Nat} {k : String} {m : Meta} (hk : metaGet table id = some (k, m))
    (v : AMap RootSab) (w : RootSab) : rootValsL n table (v.insert k w) = (rootValsL n table v).set id (some (cellL n m (embR w))) :=
  map_insert hr.inj' (fun m v => cellL n m (embR v)) hk v w

theorem nRootParams_eq {n : Nat} (hr : RootTable defs table) (hl : LevelOk n table) : ∀ (ps : List (Nat × Param)) (v : AMap RootSab),
    (nRootParams table ps v).map (rootValsL n table) = applyRootParams (rootL n table) ps (rootValsL n table v)
  | [], _ => rfl
  | (id, p) :: ps, v => by
    rw [nRootParams, applyRootParams]
    cases hm : metaGet table id with
    | none =>
      have : entry (rootL n table) id = none := by rw [rootL_eq, entry_colsL, hm]; rfl
      rw [this]; rfl
    | some e =>
      obtain ⟨k, m⟩ := e
      obtain ⟨c, hc⟩ := colL_some hl hm
      rw [rootL_eq, entry_col_of (tb := (table, [])) hm, hc]
      simp only
      rw [nRootParams_eq hr hl ps, rootValsL_insert hr hm, embR, cellL_param]
      rfl

theorem set_entry {α : Type} {l : List (Option α)} {i : Nat} {c : α} (h : entry l i = some c) : l.set i (some c) = l := by
  apply List.ext_getElem?
  intro j
  rw [List.getElem?_set]
  split
  · rename_i hij
    subst hij
    unfold entry at h
    cases hx : l[i]? with
    | none => rw [hx] at h; cases h
    | some x =>
      rw [hx] at h
      rw [if_pos (List.getElem?_eq_some_iff.mp hx).1]
      exact congrArg some h.symm
  · rfl

theorem nRootLists_eq {n : Nat} (hr : RootTable defs table) (hl : LevelOk n table) : ∀ (ls : List (Nat × Option (DiffT n))) (v : AMap RootSab),
    (nRootLists (nApplyN n).2 (nApplyN n).1 table ls v).map (rootValsL n table) =
      applyRootLists (applyN n).2 (applyN n).1 (rootL n table) ls (rootValsL n table v)
  | [], _ => rfl
  | (id, df) :: ls, v => by
    rw [nRootLists, applyRootLists]
    cases hm : metaGet table id with
    | none =>
      have : entry (rootL n table) id = none := by rw [rootL_eq, entry_colsL, hm]; rfl
      rw [this]; rfl
    | some e =>
      obtain ⟨k, m⟩ := e
      simp only
      rw [rootL_eq, entry_col_of (tb := (table, [])) hm, entry_rootVals_of hm]
      cases hmt : metaTables m with
      | none =>
        rw [colL_tables_none hmt]; rfl
      | some tb' =>
        obtain ⟨w, hw⟩ := hr.member hm
        have hd' : ∃ d', Tab d' tb' := by
          cases w with
          | param p vt => have h := hr.param hw; rw [hm] at h; cases h; cases hmt
          | table d x y => rw [hr.const hw] at hm; cases hm
          | clist d x => rw [hr.const' hw] at hm; cases hm
          | mlist d' u =>
            obtain ⟨tb'', ht', h1⟩ := hr.mlist hw
            rw [hm] at h1; cases h1; rw [metaTables_if] at hmt; cases hmt
            exact ⟨d', ht'⟩
        obtain ⟨d', ht'⟩ := hd'
        obtain ⟨n', hn, hl'⟩ := levelOk_get hl hm hmt
        obtain ⟨s, hs, h1, h2⟩ := applySpec n d' m tb' n' hmt ht' hn hl'
        rw [hs]
        simp only
        have ih := fun w => nRootLists_eq hr hl ls w
        cases hv : v.get k with
        | none => rfl
        | some w =>
          cases w with
          | param p => simp only [Option.map_some, embR, cellL_param]; rfl
          | list l =>
            cases l with
            | none =>
              simp only [Option.map_some, embR, cellL_milNone hmt]
              cases df with
              | none =>
                show (nRootLists (nApplyN n).2 (nApplyN n).1 table ls v).map _ =
                  applyRootLists (applyN n).2 (applyN n).1 (colsL n table) ls ((rootValsL n table v).set id (some (.mil none)))
                rw [ih, set_entry]
                · rfl
                · rw [entry_rootVals_of hm, hv, Option.map_some, embR, cellL_milNone hmt]
              | some df =>
                have h2 := h2 df
                simp only [nRootList, applyRootList]
                rw [bind_map, bind_map, map_bind]
                cases hx : (nApplyN n).1 tb' df with
                | err => rw [hx] at h2; cases hy : (applyN n).1 s df with
                  | err => rfl
                  | panic => rw [hy] at h2; cases h2
                  | ok y => rw [hy] at h2; cases h2
                | panic => rw [hx] at h2; cases hy : (applyN n).1 s df with
                  | err => rw [hy] at h2; cases h2
                  | panic => rfl
                  | ok y => rw [hy] at h2; cases h2
                | ok x => rw [hx] at h2; cases hy : (applyN n).1 s df with
                  | err => rw [hy] at h2; cases h2
                  | panic => rw [hy] at h2; cases h2
                  | ok y =>
                    rw [hy] at h2
                    have h2 : cellL n m (.mil x.items x.nextId) = .mil (some y) := by injection h2
                    rw [Res.bind_ok, Res.bind_ok]
                    simp only
                    rw [ih, rootValsL_insert hr hm, embR, h2]
                    rfl
            | some l =>
              obtain ⟨x0, hx0⟩ : ∃ x0, cellL n m (.mil l.1 l.2) = .mil (some x0) := by
                subst hn; exact ⟨_, cellL_mil hmt _ _⟩
              simp only [Option.map_some, embR, hx0]
              cases df with
              | none =>
                show (nRootLists (nApplyN n).2 (nApplyN n).1 table ls (v.insert k (.list none))).map _ =
                  applyRootLists (applyN n).2 (applyN n).1 (colsL n table) ls ((rootValsL n table v).set id (some (.mil none)))
                rw [ih, rootValsL_insert hr hm, embR, cellL_milNone hmt]
                rfl
              | some df =>
                have h2 := h1 ⟨l.1, l.2⟩ x0 df hx0
                simp only [nRootList, applyRootList]
                rw [bind_map, bind_map, map_bind]
                cases hx : (nApplyN n).2 tb' ⟨l.1, l.2⟩ df with
                | err => rw [hx] at h2; cases hy : (applyN n).2 s x0 df with
                  | err => rfl
                  | panic => rw [hy] at h2; cases h2
                  | ok y => rw [hy] at h2; cases h2
                | panic => rw [hx] at h2; cases hy : (applyN n).2 s x0 df with
                  | err => rw [hy] at h2; cases h2
                  | panic => rfl
                  | ok y => rw [hy] at h2; cases h2
                | ok x => rw [hx] at h2; cases hy : (applyN n).2 s x0 df with
                  | err => rw [hy] at h2; cases h2
                  | panic => rw [hy] at h2; cases h2
                  | ok y =>
                    rw [hy] at h2
                    have h2 : cellL n m (.mil x.items x.nextId) = .mil (some y) := by injection h2
                    rw [Res.bind_ok, Res.bind_ok]
                    simp only
                    rw [ih, rootValsL_insert hr hm, embR, h2]
                    rfl

/-- apply_root_diff by name is apply_root_diff by id. -/
theorem nApplyRoot_eq {n : Nat} (hr : RootTable defs table) (hl : LevelOk n table) (s : AMap RootSab) (df : RootDiff (DiffT n)) :
    (nApplyRoot n table s df).map (rootValsL n table) = applyRootDiff n (rootL n table) (rootValsL n table s) df := by
  unfold nApplyRoot applyRootDiff
  rw [← nRootParams_eq hr hl, map_bind, bind_map]
  congr 1
  funext v
  exact nRootLists_eq hr hl _ v

end
end Verif.Named
