import Verif.Lemmas.DiffNamed
/-! # Computing a diff by name is computing it by id -/
namespace Verif.Named
open Diff Core Source LinkedMap

theorem puts_some {α β : Type} {c : α → Option (Nat × β)} {e : α} {x : Nat × β} (h : c e = some x) (m : List (Nat × β)) :
    puts c [e] m = bput m x.1 x.2 := by
  show (match c e with | some x => bput m x.1 x.2 | none => m) = _
  rw [h]

theorem puts_none {α β : Type} {c : α → Option (Nat × β)} {e : α} (h : c e = none) (m : List (Nat × β)) : puts c [e] m = m := by
  show (match c e with | some x => bput m x.1 x.2 | none => m) = _
  rw [h]

/-- the pair stored for the member with the key `k` -/
def contrib {V β : Type} (ids : AMap (Nat × V)) (F : Nat → Option β) (k : String) : Option (Nat × β) :=
  (ids.get k).bind fun x => (F x.1).map fun b => (x.1, b)

theorem contrib_of {V β : Type} {ids : AMap (Nat × V)} {F : Nat → Option β} {k : String} {id : Nat} {v : V} (h : ids.get k = some (id, v)) :
    contrib ids F k = (F id).map fun b => (id, b) := by
  unfold contrib; rw [h]; rfl

/-- Filling by name in any order is filling by id, if every id that has something to store has a key. -/
theorem puts_contrib {V W β : Type} (ids : AMap (Nat × V)) (hinj : ∀ k k' id v v', ids.get k = some (id, v) → ids.get k' = some (id, v') → k = k')
    (l : AMap W) (hl : l.Wf) (n : Nat) (F : Nat → Option β) (hn : ∀ k id v, ids.get k = some (id, v) → id < n)
    (h : ∀ i b, F i = some b → ∃ k w v, (k, w) ∈ l ∧ ids.get k = some (i, v)) :
    puts (fun e : String × W => contrib ids F e.1) l [] = collect n F := by
  refine puts_collect _ l n F ?_ ?_ ?_
  · have : l.Pairwise fun a b => a.1 ≠ b.1 := List.pairwise_map.mp hl
    refine this.imp fun {a b} hab x y hx hy => ?_
    unfold contrib at hx hy
    cases ha : ids.get a.1 with
    | none => rw [ha] at hx; cases hx
    | some u =>
      cases hb : ids.get b.1 with
      | none => rw [hb] at hy; cases hy
      | some w =>
        rw [ha] at hx; rw [hb] at hy
        obtain ⟨_, _, rfl⟩ := Option.map_eq_some_iff.mp hx
        obtain ⟨_, _, rfl⟩ := Option.map_eq_some_iff.mp hy
        intro he
        obtain ⟨i, v⟩ := u
        obtain ⟨j, v'⟩ := w
        simp only at he
        subst he
        exact hab (hinj _ _ _ _ _ ha hb)
  · intro e _ x hx
    unfold contrib at hx
    cases ha : ids.get e.1 with
    | none => rw [ha] at hx; cases hx
    | some u =>
      rw [ha] at hx
      obtain ⟨b, hb, rfl⟩ := Option.map_eq_some_iff.mp hx
      exact ⟨hn _ _ _ ha, hb⟩
  · intro i b _ hb
    obtain ⟨k, w, v, h1, h2⟩ := h i b hb
    exact ⟨(k, w), h1, by rw [contrib_of h2, hb]; rfl⟩

/-- what is needed of the functions for inner lists: `new_list` -/
def NewSpec (n : Nat) (nl : LDef → Tables → NList → Res (DiffT n)) : Prop :=
  ∀ d m tb l n', metaTables m = some tb → Tab d tb → n = n' + 1 → LevelOk n' tb.1 → ListFits d l →
    ∃ s x, (colL n m).bind Col.tables = some s ∧ cellL n m (.mil l.items l.nextId) = .mil (some x) ∧ nl d tb l = .ok (newListN n s x)

/-- what is needed of the functions for inner lists: `get_mlist_diff` -/
def DiffSpec (n : Nat) (gd : Ptr → LDef → Tables → NList → NList → Res (Option (DiffT n))) : Prop :=
  ∀ ptr d m tb a b n', metaTables m = some tb → Tab d tb → n = n' + 1 → LevelOk n' tb.1 → ListFits d a → ListFits d b →
    ∃ s x y, (colL n m).bind Col.tables = some s ∧ cellL n m (.mil a.items a.nextId) = .mil (some x) ∧
      cellL n m (.mil b.items b.nextId) = .mil (some y) ∧ gd ptr d tb a b = .ok (getDiffN n ptr s x y)

theorem ItemFits.wf {d : LDef} {it : Item} (h : ItemFits d it) : it.values.Wf := by cases h with | mk a b c d e f g i => exact a
theorem ItemFits.refsWf {d : LDef} {it : Item} (h : ItemFits d it) : it.refs.Wf := by cases h with | mk a b c d e f g i => exact b
theorem ItemFits.param {d : LDef} {it : Item} (h : ItemFits d it) {k : String} {p : Param} (hk : it.values.get k = some (.param p)) :
    ∃ id q vt, d.members.get k = some (id, .param q vt) ∧ ParamOk q.ptype vt p := by
  cases h with | mk a b c d e f g i => exact c _ _ (AMap.mem_of_get hk)
theorem ItemFits.milNone {d : LDef} {it : Item} (h : ItemFits d it) {k : String} (hk : it.values.get k = some .milNone) :
    ∃ id d', d.members.get k = some (id, .milDef d' true) := by
  cases h with | mk a b c d e f g i => exact d _ (AMap.mem_of_get hk)
theorem ItemFits.cil {d : LDef} {it : Item} (h : ItemFits d it) {k : String} {l : List Item} (hk : it.values.get k = some (.cil l)) :
    ∃ id d', d.members.get k = some (id, .cilDef d') := by
  cases h with | mk a b c d e f g i => exact e _ _ (AMap.mem_of_get hk)
theorem ItemFits.mil {d : LDef} {it : Item} (h : ItemFits d it) {k : String} {l : List (Nat × Item)} {n : Nat}
    (hk : it.values.get k = some (.mil l n)) : ∃ id d' u, d.members.get k = some (id, .milDef d' u) ∧ ListFits d' ⟨l, n⟩ := by
  cases h with
  | mk a b c d e f g i =>
    obtain ⟨h1, id, d', u, h2⟩ := f _ _ _ (AMap.mem_of_get hk)
    exact ⟨id, d', u, h2, h1, g _ _ _ _ _ _ (AMap.mem_of_get hk) h2⟩
theorem ItemFits.ref {d : LDef} {it : Item} (h : ItemFits d it) {k : String} {q : Qv String} (hk : it.refs.get k = some q) :
    ∃ id x vt, d.refs.refs.get k = some (id, x, vt) ∧ RefOk vt q := by
  cases h with | mk a b c d e f g i => exact i _ _ (AMap.mem_of_get hk)

section
variable {n : Nat} {nl : LDef → Tables → NList → Res (DiffT n)} {gd : Ptr → LDef → Tables → NList → NList → Res (Option (DiffT n))}
  {d : LDef} {tb : Tables}

/-- the value at the place of a member -/
theorem entry_vals_of {k : String} {id : Nat} {m : Meta} (hm : metaGet tb.1 id = some (k, m)) (v : AMap SabVal) :
    entry (valsL n tb.1 v) id = (v.get k).map (cellL n m) := by rw [entry_valsL, hm]; rfl

theorem Tab.lt (ht : Tab d tb) {k : String} {id : Nat} {v : LDefVal} (h : d.members.get k = some (id, v)) : id < tb.1.length := by
  rw [ht.length]
  have : IdsFill (d.members.map (·.2.1)) := by cases ht.num with | mk a b c e f g => exact b
  have := idsFill_lt this (List.mem_map.mpr ⟨_, AMap.mem_of_get h, rfl⟩)
  simpa using this

theorem Tab.refLt (ht : Tab d tb) {k : String} {id : Nat} {v : Qv String × VType} (h : d.refs.refs.get k = some (id, v)) : id < tb.2.length := by
  rw [ht.refs.1]
  have : IdsFill (d.refs.refs.map (·.2.1)) := by cases ht.num with | mk a b c e f g => exact e
  have := idsFill_lt this (List.mem_map.mpr ⟨_, AMap.mem_of_get h, rfl⟩)
  simpa using this

/-- a place with a value has a key with a value -/
theorem entry_vals_some (ht : Tab d tb) {v : AMap SabVal} {i : Nat} {c : Cell (Obj n)} (h : entry (valsL n tb.1 v) i = some c) :
    ∃ k w x, (k, w) ∈ v ∧ d.members.get k = some (i, x) := by
  rw [entry_valsL] at h
  cases hm : metaGet tb.1 i with
  | none => rw [hm] at h; cases h
  | some e =>
    obtain ⟨k, m⟩ := e
    rw [hm] at h
    obtain ⟨w, hw, _⟩ := Option.map_eq_some_iff.mp h
    obtain ⟨x, hx⟩ := ht.member hm
    exact ⟨k, w, x, AMap.mem_of_get hw, hx⟩

theorem entry_refs_some (ht : Tab d tb) {v : AMap (Qv String)} {i : Nat} {c : Qv String} (h : entry (refValsL tb.2 v) i = some c) :
    ∃ k w x, (k, w) ∈ v ∧ d.refs.refs.get k = some (i, x) := by
  rw [entry_refValsL] at h
  cases hm : metaGet tb.2 i with
  | none => rw [hm] at h; cases h
  | some e =>
    obtain ⟨k, m⟩ := e
    rw [hm] at h
    obtain ⟨q, vt, hx, _⟩ := ht.refMember hm
    exact ⟨k, c, _, AMap.mem_of_get h, hx⟩

theorem paramDiff_none_to {X : Type} (b : Bool) (f : Option (Cell X)) : paramDiff b f none = none := rfl
theorem paramDiff_mil {X : Type} (b : Bool) (f : Option (Cell X)) (l : Option X) : paramDiff b f (some (.mil l)) = none := rfl

theorem cmpValue_step (hgd : DiffSpec n gd) (hnl : NewSpec n nl) (ht : Tab d tb) (hl : LevelOk n tb.1) (ptr : Ptr) {f t : Item}
    (hf : ItemFits d f) (hto : ItemFits d t) (e : String × SabVal) (he : e ∈ t.values) (acc : Acc (DiffT n)) :
    cmpValue ptr gd nl d tb.1 f.values acc e = .ok
      ⟨puts (fun e : String × SabVal => contrib d.members (fun i => paramDiff (ptr [i]) (entry (valsL n tb.1 f.values) i)
          (entry (valsL n tb.1 t.values) i)) e.1) [e] acc.params,
       puts (fun e : String × SabVal => contrib d.members (fun i => listDiff (getDiffN n fun p => ptr (i :: p)) (newListN n)
          (entry (colsL n tb.1) i) (entry (valsL n tb.1 f.values) i) (entry (valsL n tb.1 t.values) i)) e.1) [e] acc.lists⟩ := by
  obtain ⟨k, v⟩ := e
  have hk := AMap.get_of_mem hto.wf he
  unfold cmpValue
  cases v with
  | param p =>
    obtain ⟨id, q, vt, hd, _⟩ := hto.param hk
    have hm := ht.param hd
    have et := entry_vals_of (n := n) hm t.values
    rw [hk, Option.map_some, cellL_param] at et
    have ef := entry_vals_of (n := n) hm f.values
    simp only [hd]
    have hcl : contrib d.members (fun i => listDiff (getDiffN n fun p => ptr (i :: p)) (newListN n) (entry (colsL n tb.1) i)
        (entry (valsL n tb.1 f.values) i) (entry (valsL n tb.1 t.values) i)) k = none := by
      rw [contrib_of hd, et]; rfl
    rw [puts_none (c := fun e : String × SabVal => contrib d.members (fun i => listDiff (getDiffN n fun p => ptr (i :: p)) (newListN n)
      (entry (colsL n tb.1) i) (entry (valsL n tb.1 f.values) i) (entry (valsL n tb.1 t.values) i)) e.1) (e := (k, SabVal.param p)) hcl]
    cases hfk : f.values.get k with
    | none =>
      rw [hfk] at ef
      rw [puts_some (e := (k, SabVal.param p)) (x := (id, p))]
      rw [contrib_of hd, et, ef]; rfl
    | some w =>
      rw [hfk] at ef
      cases w with
      | param q' =>
        have ef' : entry (valsL n tb.1 f.values) id = some (.param q') := by rw [ef]; cases n <;> rfl
        have hpd : paramDiff (ptr [id]) (entry (valsL n tb.1 f.values) id) (entry (valsL n tb.1 t.values) id) =
            if identEq (ptr [id]) p q' then none else some p := by rw [ef', et]; rfl
        simp only
        split
        · rename_i hi
          rw [puts_none (e := (k, SabVal.param p))]
          rw [contrib_of hd, hpd, if_pos hi]; rfl
        · rename_i hi
          rw [puts_some (e := (k, SabVal.param p)) (x := (id, p))]
          rw [contrib_of hd, hpd, if_neg hi]; rfl
      | cil l => rw [puts_some (e := (k, SabVal.param p)) (x := (id, p))]; rw [contrib_of hd, et, ef]; cases n <;> rfl
      | milNone => rw [puts_some (e := (k, SabVal.param p)) (x := (id, p))]; rw [contrib_of hd, et, ef]; cases n <;> rfl
      | mil l ln => rw [puts_some (e := (k, SabVal.param p)) (x := (id, p))]; rw [contrib_of hd, et, ef]; cases n <;> rfl
  | cil l =>
    obtain ⟨id, d', hd⟩ := hto.cil hk
    have hm := ht.cil hd
    have et : entry (valsL n tb.1 t.values) id = none := by rw [entry_valsL, hm]; rfl
    rw [puts_none (e := (k, SabVal.cil l)), puts_none (e := (k, SabVal.cil l))]
    · rw [contrib_of hd, et]; rfl
    · rw [contrib_of hd, et]; rfl
  | milNone =>
    obtain ⟨id, d', hd⟩ := hto.milNone hk
    obtain ⟨tb', m, ht', hm, hmt⟩ := ht.mil' hd
    have et := entry_vals_of (n := n) hm t.values
    have ef := entry_vals_of (n := n) hm f.values
    rw [hk, Option.map_some, cellL_milNone hmt] at et
    obtain ⟨n', rfl, _⟩ := levelOk_get hl hm hmt
    have ec : (entry (colsL (n' + 1) tb.1) id).bind Col.tables = some (schL n' tb') := by
      rw [entry_colsL, hm]; exact colL_tables hmt
    simp only [hd, getTables, hm, Option.bind_some, hmt]
    rw [puts_none (e := (k, SabVal.milNone))]
    swap
    · rw [contrib_of hd, et]; rfl
    have hld : listDiff (getDiffN (n' + 1) fun p => ptr (id :: p)) (newListN (n' + 1)) (entry (colsL (n' + 1) tb.1) id)
        (entry (valsL (n' + 1) tb.1 f.values) id) (entry (valsL (n' + 1) tb.1 t.values) id) =
        (match entry (valsL (n' + 1) tb.1 f.values) id with | some (.mil none) => none | _ => some none) := by
      unfold listDiff
      rw [et, ec]
      simp only
      split <;> simp_all
    cases hfk : f.values.get k with
    | none =>
      rw [hfk] at ef
      rw [puts_some (e := (k, SabVal.milNone)) (x := (id, none))]
      rw [contrib_of hd, hld, ef]; rfl
    | some w =>
      rw [hfk, Option.map_some] at ef
      cases w with
      | param q =>
        obtain ⟨_, _, _, hx, _⟩ := hf.param hfk
        rw [hd] at hx; cases hx
      | cil l =>
        obtain ⟨_, _, hx⟩ := hf.cil hfk
        rw [hd] at hx; cases hx
      | milNone =>
        rw [cellL_milNone hmt] at ef
        rw [puts_none (e := (k, SabVal.milNone))]
        rw [contrib_of hd, hld, ef]; rfl
      | mil l ln =>
        rw [cellL_mil hmt] at ef
        rw [puts_some (e := (k, SabVal.milNone)) (x := (id, none))]
        rw [contrib_of hd, hld, ef]; rfl
  | mil l ln =>
    obtain ⟨id, d', u, hd, hlf⟩ := hto.mil hk
    obtain ⟨tb', m, ht', hm, hmt⟩ := ht.mil' hd
    have et := entry_vals_of (n := n) hm t.values
    have ef := entry_vals_of (n := n) hm f.values
    obtain ⟨n', hn, hl'⟩ := levelOk_get hl hm hmt
    obtain ⟨s, x, hs, hx, hnx⟩ := hnl d' m tb' ⟨l, ln⟩ n' hmt ht' hn hl' hlf
    rw [hk, Option.map_some] at et
    rw [hx] at et
    have ec : (entry (colsL n tb.1) id).bind Col.tables = some s := by rw [entry_colsL, hm]; exact hs
    simp only [hd, getTables, hm, Option.bind_some, hmt]
    rw [puts_none (e := (k, SabVal.mil l ln))]
    swap
    · rw [contrib_of hd, et]; rfl
    have hld : listDiff (getDiffN n fun p => ptr (id :: p)) (newListN n) (entry (colsL n tb.1) id)
        (entry (valsL n tb.1 f.values) id) (entry (valsL n tb.1 t.values) id) =
        (match entry (valsL n tb.1 f.values) id with
          | some (.mil (some a)) => (getDiffN n (fun p => ptr (id :: p)) s a x).map some
          | _ => some (some (newListN n s x))) := by
      unfold listDiff
      rw [et, ec]
      simp only
      split <;> simp_all
    cases hfk : f.values.get k with
    | none =>
      rw [hfk] at ef
      simp only
      rw [hnx]
      rw [puts_some (e := (k, SabVal.mil l ln)) (x := (id, some (newListN n s x)))]
      · rfl
      · rw [contrib_of hd, hld, ef]; rfl
    | some w =>
      rw [hfk, Option.map_some] at ef
      cases w with
      | param q =>
        obtain ⟨_, _, _, hx, _⟩ := hf.param hfk
        rw [hd] at hx; cases hx
      | cil l =>
        obtain ⟨_, _, hx⟩ := hf.cil hfk
        rw [hd] at hx; cases hx
      | milNone =>
        rw [cellL_milNone hmt] at ef
        simp only
        rw [hnx]
        rw [puts_some (e := (k, SabVal.mil l ln)) (x := (id, some (newListN n s x)))]
        · rfl
        · rw [contrib_of hd, hld, ef]; rfl
      | mil l' ln' =>
        obtain ⟨id2, d2, u2, hd2, hlf'⟩ := hf.mil hfk
        rw [hd] at hd2; cases hd2
        obtain ⟨s2, a, y, hs2, ha, hy, hgx⟩ := hgd (fun p => ptr (id :: p)) d' m tb' ⟨l', ln'⟩ ⟨l, ln⟩ n' hmt ht' hn hl' hlf' hlf
        rw [hs] at hs2; cases hs2
        rw [hx] at hy; cases hy
        rw [ha] at ef
        simp only
        rw [hgx]
        cases hg : getDiffN n (fun p => ptr (id :: p)) s a x with
        | none =>
          rw [puts_none (e := (k, SabVal.mil l ln))]
          · rfl
          · rw [contrib_of hd, hld, ef]; simp only [hg]; rfl
        | some z =>
          rw [puts_some (e := (k, SabVal.mil l ln)) (x := (id, some z))]
          · rfl
          · rw [contrib_of hd, hld, ef]; simp only [hg]; rfl

theorem cmpRef_step (ht : Tab d tb) {f t : Item} (hto : ItemFits d t) (e : String × Qv String) (he : e ∈ t.refs) (m : List (Nat × Qv String)) :
    cmpRef d f.refs m e = .ok (puts (fun e : String × Qv String => contrib d.refs.refs (fun i => refDiff (entry (refValsL tb.2 f.refs) i)
      (entry (refValsL tb.2 t.refs) i)) e.1) [e] m) := by
  obtain ⟨k, q⟩ := e
  have hk := AMap.get_of_mem hto.refsWf he
  obtain ⟨id, x, vt, hd, _⟩ := hto.ref hk
  have hm := ht.refPlace hd
  have et : entry (refValsL tb.2 t.refs) id = some q := by rw [entry_refValsL, hm]; exact hk
  have ef : entry (refValsL tb.2 f.refs) id = f.refs.get k := by rw [entry_refValsL, hm]; rfl
  unfold cmpRef
  simp only [hd]
  cases hfk : f.refs.get k with
  | none =>
    rw [puts_some (e := (k, q)) (x := (id, q))]
    rw [contrib_of hd, et, ef, hfk]; rfl
  | some q' =>
    simp only
    split
    · rename_i hne
      rw [puts_some (e := (k, q)) (x := (id, q))]
      rw [contrib_of hd, et, ef, hfk]; simp [refDiff, hne]
    · rename_i hne
      rw [puts_none (e := (k, q))]
      rw [contrib_of hd, et, ef, hfk]; simp only [refDiff, if_neg hne]; rfl

/-- compare_items by name is compare_items by id. -/
theorem cmpItems_eq (hgd : DiffSpec n gd) (hnl : NewSpec n nl) (ht : Tab d tb) (hl : LevelOk n tb.1) (ptr : Ptr) {f t : Item}
    (hf : ItemFits d f) (hto : ItemFits d t) : cmpItems ptr gd nl d tb f t =
      .ok (compareItems ptr (getDiffN n) (newListN n) (schL n tb) (rowL n tb f) (rowL n tb t)) := by
  unfold cmpItems
  rw [loop_acc _ _ _ t.values ⟨[], []⟩ fun e he acc => cmpValue_step hgd hnl ht hl ptr hf hto e he acc, Res.bind_ok,
    loop_map _ _ t.refs [] fun e he m => cmpRef_step ht hto e he m]
  have hinj := fun k k' id v v' h1 h2 => ht.inj (k := k) (k' := k') (id := id) (v := v) (v' := v') h1 h2
  rw [puts_contrib d.members hinj t.values hto.wf tb.1.length _ (fun k id v h => ht.lt h) (by
      intro i b hb
      cases he : entry (valsL n tb.1 t.values) i with
      | none => rw [he] at hb; cases hb
      | some c => exact entry_vals_some ht he),
    puts_contrib d.members hinj t.values hto.wf tb.1.length _ (fun k id v h => ht.lt h) (by
      intro i b hb
      cases he : entry (valsL n tb.1 t.values) i with
      | none => rw [he] at hb; simp [listDiff] at hb
      | some c => exact entry_vals_some ht he),
    puts_contrib d.refs.refs (fun k k' id v v' h1 h2 => ht.refInj h1 h2) t.refs hto.refsWf tb.2.length _ (fun k id v h => ht.refLt h) (by
      intro i b hb
      cases he : entry (refValsL tb.2 t.refs) i with
      | none => rw [he] at hb; cases hb
      | some c => exact entry_refs_some ht he)]
  unfold compareItems rowL schL
  simp only [valsL_length, refValsL_length]
  rfl

theorem newValue_step (hnl : NewSpec n nl) (ht : Tab d tb) (hl : LevelOk n tb.1) {t : Item}
    (hto : ItemFits d t) (e : String × SabVal) (he : e ∈ t.values) (acc : Acc (DiffT n)) :
    newValue nl d tb.1 acc e = .ok
      ⟨puts (fun e : String × SabVal => contrib d.members (fun i => newItemParam (entry (valsL n tb.1 t.values) i)) e.1) [e] acc.params,
       puts (fun e : String × SabVal => contrib d.members (fun i => newItemList (newListN n)
          (entry (colsL n tb.1) i) (entry (valsL n tb.1 t.values) i)) e.1) [e] acc.lists⟩ := by
  obtain ⟨k, v⟩ := e
  have hk := AMap.get_of_mem hto.wf he
  unfold newValue
  cases v with
  | param p =>
    obtain ⟨id, q, vt, hd, _⟩ := hto.param hk
    have hm := ht.param hd
    have et := entry_vals_of (n := n) hm t.values
    rw [hk, Option.map_some, cellL_param] at et
    simp only [hd]
    rw [puts_some (e := (k, SabVal.param p)) (x := (id, p)), puts_none (e := (k, SabVal.param p))]
    · rw [contrib_of hd, et]; rfl
    · rw [contrib_of hd, et]; rfl
  | cil l =>
    obtain ⟨id, d', hd⟩ := hto.cil hk
    have hm := ht.cil hd
    have et : entry (valsL n tb.1 t.values) id = none := by rw [entry_valsL, hm]; rfl
    rw [puts_none (e := (k, SabVal.cil l)), puts_none (e := (k, SabVal.cil l))]
    · rw [contrib_of hd, et]; rfl
    · rw [contrib_of hd, et]; rfl
  | milNone =>
    obtain ⟨id, d', hd⟩ := hto.milNone hk
    obtain ⟨tb', m, ht', hm, hmt⟩ := ht.mil' hd
    have et := entry_vals_of (n := n) hm t.values
    rw [hk, Option.map_some, cellL_milNone hmt] at et
    obtain ⟨n', rfl, _⟩ := levelOk_get hl hm hmt
    have ec : (entry (colsL (n' + 1) tb.1) id).bind Col.tables = some (schL n' tb') := by
      rw [entry_colsL, hm]; exact colL_tables hmt
    simp only [hd]
    rw [puts_none (e := (k, SabVal.milNone)), puts_some (e := (k, SabVal.milNone)) (x := (id, none))]
    · rw [contrib_of hd]; unfold newItemList; rw [et, ec]; rfl
    · rw [contrib_of hd, et]; rfl
  | mil l ln =>
    obtain ⟨id, d', u, hd, hlf⟩ := hto.mil hk
    obtain ⟨tb', m, ht', hm, hmt⟩ := ht.mil' hd
    have et := entry_vals_of (n := n) hm t.values
    obtain ⟨n', hn, hl'⟩ := levelOk_get hl hm hmt
    obtain ⟨s, x, hs, hx, hnx⟩ := hnl d' m tb' ⟨l, ln⟩ n' hmt ht' hn hl' hlf
    rw [hk, Option.map_some, hx] at et
    have ec : (entry (colsL n tb.1) id).bind Col.tables = some s := by rw [entry_colsL, hm]; exact hs
    simp only [hd, getTables, hm, Option.bind_some, hmt]
    rw [hnx, puts_none (e := (k, SabVal.mil l ln)), puts_some (e := (k, SabVal.mil l ln)) (x := (id, some (newListN n s x)))]
    · rfl
    · rw [contrib_of hd]; unfold newItemList; rw [et, ec]; rfl
    · rw [contrib_of hd, et]; rfl

theorem newRef_step (ht : Tab d tb) {t : Item} (hto : ItemFits d t) (e : String × Qv String) (he : e ∈ t.refs) (m : List (Nat × Qv String)) :
    newRef d m e = .ok (puts (fun e : String × Qv String => contrib d.refs.refs (fun i => entry (refValsL tb.2 t.refs) i) e.1) [e] m) := by
  obtain ⟨k, q⟩ := e
  have hk := AMap.get_of_mem hto.refsWf he
  obtain ⟨id, x, vt, hd, _⟩ := hto.ref hk
  have hm := ht.refPlace hd
  have et : entry (refValsL tb.2 t.refs) id = some q := by rw [entry_refValsL, hm]; exact hk
  unfold newRef
  simp only [hd]
  rw [puts_some (e := (k, q)) (x := (id, q))]
  rw [contrib_of hd, et]; rfl

/-- new_item by name is new_item by id. -/
theorem nItem_eq (hnl : NewSpec n nl) (ht : Tab d tb) (hl : LevelOk n tb.1) {t : Item} (hto : ItemFits d t) :
    nItem nl d tb t = .ok (newItem (newListN n) (schL n tb) (rowL n tb t)) := by
  unfold nItem
  rw [loop_acc _ _ _ t.values ⟨[], []⟩ fun e he acc => newValue_step hnl ht hl hto e he acc, Res.bind_ok,
    loop_map _ _ t.refs [] fun e he m => newRef_step ht hto e he m]
  have hinj := fun k k' id v v' h1 h2 => ht.inj (k := k) (k' := k') (id := id) (v := v) (v' := v') h1 h2
  rw [puts_contrib d.members hinj t.values hto.wf tb.1.length _ (fun k id v h => ht.lt h) (by
      intro i b hb
      cases he : entry (valsL n tb.1 t.values) i with
      | none => rw [he] at hb; cases hb
      | some c => exact entry_vals_some ht he),
    puts_contrib d.members hinj t.values hto.wf tb.1.length _ (fun k id v h => ht.lt h) (by
      intro i b hb
      cases he : entry (valsL n tb.1 t.values) i with
      | none => rw [he] at hb; simp [newItemList] at hb
      | some c => exact entry_vals_some ht he),
    puts_contrib d.refs.refs (fun k k' id v v' h1 h2 => ht.refInj h1 h2) t.refs hto.refsWf tb.2.length _ (fun k id v h => ht.refLt h) (by
      intro i b hb
      exact entry_refs_some ht hb)]
  unfold newItem rowL schL
  simp only [valsL_length, refValsL_length]
  rfl

theorem nCreates_eq (old : Nat → Bool) {ni : Item → Res (RowDiff (DiffT n))} {ni' : Row (Obj n) → RowDiff (DiffT n)} :
    ∀ (l : List (Nat × Item)) (prev : Option Nat), (∀ e ∈ l, ni e.2 = .ok (ni' (rowL n tb e.2))) →
      nCreates old ni prev l = .ok (creates old ni' prev (l.map fun e => (e.1, rowL n tb e.2)))
  | [], _, _ => rfl
  | (id, it) :: l, prev, h => by
    rw [List.map_cons, creates, nCreates]
    have ih := nCreates_eq old (ni := ni) (ni' := ni') l (some id) fun e he => h e (by simp [he])
    split
    · rw [ih]; rfl
    · rw [h (id, it) (by simp), Res.bind_ok, ih]; rfl

theorem listL_find (l : NList) (id : Nat) : (listL n tb l).find id = (l.find id).map fun e => (e.1, rowL n tb e.2) := by
  unfold SList.find listL
  rw [List.find?_map]
  rfl

theorem listL_ids (l : NList) : (listL n tb l).ids = l.ids := by
  unfold SList.ids listL
  simp only [List.map_map]
  rfl

theorem nOld_eq (hgd : DiffSpec n gd) (hnl : NewSpec n nl) (ht : Tab d tb) (hl : LevelOk n tb.1) (ptr : Ptr) {tl : NList}
    (hto : ListFits d tl) : ∀ (l : List (Nat × Item)), (∀ e ∈ l, ItemFits d e.2) →
      nOld ptr gd nl d tb tl l = .ok ((l.map fun e => (e.1, rowL n tb e.2)).filterMap
        (oldItem ptr (getDiffN n) (newListN n) (schL n tb) (listL n tb tl)))
  | [], _ => rfl
  | (id, it) :: l, h => by
    have ih := nOld_eq hgd hnl ht hl ptr hto l fun e he => h e (by simp [he])
    rw [List.map_cons, List.filterMap_cons, nOld]
    unfold oldItem
    rw [listL_find]
    cases hy : tl.find id with
    | none => simp only [Option.map_none]; rw [ih]; rfl
    | some y =>
      simp only [Option.map_some]
      have hym : y ∈ tl.items := List.mem_of_find?_eq_some hy
      rw [cmpItems_eq hgd hnl ht hl _ (h (id, it) (by simp)) (hto.2 y hym), Res.bind_ok, ih]
      cases compareItems (fun p => ptr (id :: p)) (getDiffN n) (newListN n) (schL n tb) (rowL n tb it) (rowL n tb y.2) with
      | none => rfl
      | some z => rfl

theorem nNewList_eq (hnl : NewSpec n nl) (ht : Tab d tb) (hl : LevelOk n tb.1) {l : NList} (hf : ListFits d l) :
    nNewList nl d tb l = .ok (newList (newListN n) (schL n tb) (listL n tb l)) := by
  unfold nNewList
  rw [nCreates_eq (tb := tb) _ _ _ fun e he => nItem_eq hnl ht hl (hf.2 e he)]
  rfl

theorem nMListDiff_eq (hgd : DiffSpec n gd) (hnl : NewSpec n nl) (ht : Tab d tb) (hl : LevelOk n tb.1) (ptr : Ptr) {a b : NList}
    (ha : ListFits d a) (hb : ListFits d b) : nMListDiff ptr gd nl d tb a b =
      .ok (getMListDiff ptr (getDiffN n) (newListN n) (schL n tb) (listL n tb a) (listL n tb b)) := by
  unfold nMListDiff
  rw [nOld_eq hgd hnl ht hl ptr hb _ ha.2, Res.bind_ok, nCreates_eq (tb := tb) _ _ _ fun e he => nItem_eq hnl ht hl (hb.2 e he)]
  unfold getMListDiff
  rw [listL_ids]
  rfl

end

theorem newSpec : ∀ n, NewSpec n (nNewListN n)
  | 0 => fun _ _ _ _ _ _ _ h => by cases h
  | n + 1 => fun d m tb l n' hm ht hn hl hf => by
    cases hn
    exact ⟨schL n tb, listL n tb l, colL_tables hm, cellL_mil hm _ _, nNewList_eq (newSpec n) ht hl hf⟩

theorem diffSpec : ∀ n, DiffSpec n (nDiffN n)
  | 0 => fun _ _ _ _ _ _ _ _ _ h => by cases h
  | n + 1 => fun ptr d m tb a b n' hm ht hn hl ha hb => by
    cases hn
    exact ⟨schL n tb, listL n tb a, listL n tb b, colL_tables hm, cellL_mil hm _ _, cellL_mil hm _ _,
      nMListDiff_eq (diffSpec n) (newSpec n) ht hl ptr ha hb⟩

end Verif.Named
