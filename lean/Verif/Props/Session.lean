import Verif.Lemmas.SessionFits
import Verif.Spec.LinkedMap
/-!
# Sessions are restored by their diffs

C73. A source is loaded, the object is changed through the interface, the diff is written, the source is loaded again and the diff applied.
-/
namespace Verif.Named
open VarInt Codec Diff Core Source LinkedMap

section
variable {defs : AMap (Nat × RootValI)} {table : MetaTable}

theorem legibleTables_of {r : Nat} : ∀ (n : Nat) {d : LDef} {tb : Tables}, Tab d tb → LevelOk n tb.1 → Legible r d →
    LegibleTables (n + 1) (schL n tb) := by
  intro n
  induction n with
  | zero => intro d tb ht _ hs _ t; exact nomatch t
  | succ n ih =>
    intro d tb ht hl hs
    · intro i t he
      have he' : ∃ k m, metaGet tb.1 i = some (k, m) ∧ (colL (n + 1) m = some (.mlist t) ∨ colL (n + 1) m = some (.optMil t)) := by
        change entry (colsL (n + 1) tb.1) i = _ ∨ entry (colsL (n + 1) tb.1) i = _ at he
        rw [entry_colsL] at he
        cases hm : metaGet tb.1 i with
        | none => rw [hm] at he; rcases he with he | he <;> cases he
        | some e => rw [hm] at he; exact ⟨e.1, e.2, rfl, he⟩
      obtain ⟨k, m, hm, hc⟩ := he'
      obtain ⟨v, hk⟩ := ht.member hm
      cases v with
      | param p vt =>
        have h1 := ht.param hk
        rw [hm] at h1
        cases h1
        rw [colL_param] at hc
        rcases hc with hc | hc <;> cases hc
      | cilDef d' =>
        have h1 := ht.cil hk
        rw [hm] at h1
        cases h1
      | milDef d' u =>
        obtain ⟨tb', ht', h1⟩ := ht.mil hk
        rw [hm] at h1
        cases h1
        rw [colL_if] at hc
        have e : t = schL n tb' := by
          rcases hc with hc | hc <;> split at hc <;> cases hc <;> rfl
        subst e
        cases hs with
        | mk _ _ h3 h4 h5 =>
          refine ⟨h3 _ _ _ _ hk, ?_, ih ht' ?_ (h5 _ _ _ _ hk)⟩
          · intro j c hj
            have h6 : j < (colsL (n + 1) tb.1).length := entry_lt hj
            rw [colsL_length, ht.length] at h6
            exact lt_of_lt_of_le h6 (h4 _ _ _ _ hk)
          · exact hl k _ (metaGet_mem hm) tb' (metaTables_if u tb')

theorem sized_mono {a b a' b' : Nat} (ha : a ≤ a') (hb : b ≤ b') {d : LDef} (h : Sized a b d) : Sized a' b' d := by
  induction h with
  | mk h1 h2 _ ih => exact .mk (le_trans h1 ha) (le_trans h2 hb) ih

/-- the lists of the root are small, too -/
theorem legibleRoot_of {n c : Nat} (hr : RootTable defs table) (hl : LevelOk n table)
    (hs : ∀ k id d u, defs.get k = some (id, .mlist d u) → Legible c d) :
    ∀ i s, entry (rootL n table) i = some (.mlist s) ∨ entry (rootL n table) i = some (.optMil s) → LegibleTables n s := by
  intro i sc hi
  rw [rootL_eq, entry_colsL] at hi
  cases hm : metaGet table i with
  | none => rw [hm] at hi; rcases hi with hi | hi <;> cases hi
  | some e =>
    obtain ⟨k, m⟩ := e
    rw [hm] at hi
    obtain ⟨v, hv⟩ := hr.member hm
    cases v with
    | param p vt =>
      have := hr.param hv; rw [hm] at this; cases this
      simp only [Option.bind_some, colL_param] at hi
      rcases hi with hi | hi <;> cases hi
    | table d x y => rw [hr.const hv] at hm; cases hm
    | clist d x => rw [hr.const' hv] at hm; cases hm
    | mlist d u =>
      obtain ⟨tb', ht', h4⟩ := hr.mlist hv
      rw [hm] at h4; cases h4
      obtain ⟨n', rfl, hl'⟩ := levelOk_get hl hm (metaTables_if u tb')
      simp only [Option.bind_some, colL_if] at hi
      have e : sc = schL n' tb' := by
        rcases hi with hi | hi <;> split at hi <;> cases hi <;> rfl
      subst e
      exact legibleTables_of n' ht' hl' (hs _ _ _ _ hv)

/-- A definition without mutable lists inside is fine, whatever its size. -/
theorem legible_flat {c : Nat} {d : LDef} (h1 : d.members.length ≤ c) (h2 : d.refs.refs.length ≤ c)
    (h : ∀ k id d' u, d.members.get k ≠ some (id, .milDef d' u)) : Legible c d :=
  .mk h1 h2 (fun _ _ _ _ hk => absurd hk (h _ _ _ _)) (fun _ _ _ _ hk => absurd hk (h _ _ _ _)) fun _ _ _ _ hk => absurd hk (h _ _ _ _)

/-- C72 for definitions all of whose diffs can be read: no condition on the diff remains. -/
theorem C72_small_partial (F : Compaction.FloatOps) {n c : Nat} (hc : c < 2 ^ 62) (hr : RootTable defs table) (hl : LevelOk n table)
    (hlen : defs.length < 2 ^ 62) (hs : ∀ k id d u, defs.get k = some (id, .mlist d u) → Legible c d) (ptr : Ptr) {f t : AMap RootSab}
    (hf : RootFits defs f) (ht : RootFits defs t) (hof : OptUndefined defs f) (hot : OptUndefined defs t) (hst : RootStepN defs f t) :
    ∃ bytes, nGetDiff F n ptr defs table f t = .ok bytes ∧
      (bytes.length < 2 ^ 60 → ∃ res, nApplyDiff F n table f bytes = .ok res ∧ SameRoot defs t res) := by
  have hc' : c < 2 ^ 62 := hc
  have hs' : ∀ k id d u, defs.get k = some (id, .mlist d u) → Sized c c d :=
    fun k id d u hk => (hs k id d u hk).sized
  obtain ⟨d, bytes, h1, h2, h3⟩ := C72_restores_partial F hc' hr hl hlen hs' ptr hf ht hof hot hst
  refine ⟨bytes, h2, h3 ?_⟩
  rw [nRootDiff_eq hc' hr hl hlen hs' ptr hf ht hof hot] at h1
  exact rootReadable_of_legible (legibleRoot_of hr hl hs) (getRootDiff_ok (rootOk_of hc' hr hl hlen hs' hf) (rootOk_of hc' hr hl hlen hs' ht)
    (optUndefined_of hr hl hof) (optUndefined_of hr hl hot) h1)

/-! ## C73: sessions -/

/-- **C73, what a session keeps.** After any session, an object that fitted its definition fits it, at every depth, and its ids are distinct
and below the next ids. -/
theorem C73_session_fits {s t : AMap RootSab} (h : Session defs s t) (hf : ListsFresh s) (hs : RootFits defs s) :
    ListsFresh t ∧ RootFits defs t := ⟨(session_keeps h hf hs).1, (session_keeps h hf hs).2.1⟩

/-- **C73, sessions are steps.** A session, of any length, is a change that a diff can express, unless it left a float at the other zero or a
list with nothing but another next id. -/
theorem C73_session_step {s t : AMap RootSab} (h : Session defs s t) (hf : ListsFresh s) (hs : RootFits defs s) (hst : RootSettled defs s t) :
    RootStepN defs s t := rootStep_of_keeps (session_keeps h hf hs).2.2 hst

/-- **C73 (partial).** The diff of a session can be written, and applying it to the object before gives the object after. -/
theorem C73_session_partial (F : Compaction.FloatOps) {n c : Nat} (hc : c < 2 ^ 62) (hr : RootTable defs table) (hl : LevelOk n table)
    (hlen : defs.length < 2 ^ 62) (hs : ∀ k id d u, defs.get k = some (id, .mlist d u) → Legible c d) (ptr : Ptr) {f t : AMap RootSab}
    (hfr : ListsFresh f) (hf : RootFits defs f) (hof : OptUndefined defs f) (h : Session defs f t) (hst : RootSettled defs f t) :
    ∃ bytes, nGetDiff F n ptr defs table f t = .ok bytes ∧
      (bytes.length < 2 ^ 60 → ∃ res, nApplyDiff F n table f bytes = .ok res ∧ SameRoot defs t res) := by
  obtain ⟨_, h2, h3⟩ := session_keeps h hfr hf
  exact C72_small_partial F hc hr hl hlen hs ptr hf h2 hof (optUndefined_keeps h3 hof) (rootStep_of_keeps h3 hst)

end

/-- **C73 from the source to the restored object (partial).** A valid source is loaded; each name of the root is declared once, there are
no numeric ids and no undefiable lists in the root, and the definitions are `Legible`. A session changes the object. Then the diff can be
written, and applied to the object as it was loaded it gives the object as it was left. Missing: moved items, changed enums, an undefiable
list in the root, lists with more members; for these it is false (C09, C13). -/
theorem C73_loaded_partial (F : Compaction.FloatOps) (env : Env) (he : env.Sound) (files : List (String × JVal)) (hp : ∀ e ∈ files, Plain e.2)
    (r : Source.Root) (h : loadValid env files = .ok r) (l : List Source.Decl) (hl : SourceDecls files l) (hd : Distinct l)
    (hm : ListsInMemory r.sabun) (hno : ∀ k id d, r.defs.get k ≠ some (id, .mlist d true)) {n c : Nat} (hn : LevelOk n r.table)
    (hc : c < 2 ^ 62) (hlen : r.defs.length < 2 ^ 62) (hs : ∀ k id d u, r.defs.get k = some (id, .mlist d u) → Legible c d)
    (ptr : Ptr) (t : AMap RootSab) (ht : Session r.defs r.sabun t) (hst : RootSettled r.defs r.sabun t) :
    ∃ bytes, nGetDiff F n ptr r.defs r.table r.sabun t = .ok bytes ∧
      (bytes.length < 2 ^ 60 → ∃ res, nApplyDiff F n r.table r.sabun bytes = .ok res ∧ SameRoot r.defs t res) := by
  obtain ⟨h1, h2⟩ := C72_loaded_plain_partial env he files hp r h l hl hd hm
  obtain ⟨r', h3, h4⟩ := bind_inv h
  obtain ⟨_, hv, rfl⟩ := map_inv h4
  exact C73_session_partial F hc h1 hn hlen hs ptr (C60_plain_partial env he files hp r' h3).1 h2 (fun k id d hk => absurd hk (hno k id d)) ht hst

/-! ## The functions of the interface make such changes -/

theorem paramOk_of_verify {p q : Param} {vt : VType} (hq : q.Fits) (h : verifySet p vt q = none) : ParamOk p.ptype vt q := by
  unfold verifySet at h
  split at h
  · cases h
  · rename_i h1
    split at h
    · cases h
    · rename_i h2
      refine ⟨?_, (allows_iff _ _).2 (by simpa using h2), hq⟩
      simp only [Bool.not_eq_false, paramAcceptable, decide_eq_true_eq, ptype_eq] at h1
      exact h1.symm

/-- Assigning a parameter of an item, of the right type or not. -/
theorem C73_api_set {d : LDef} {it : Item} {k : String} {q : Param} (hq : q.Fits) :
    (setItem d.erase it k q).1 = it ∨ ItemOp d it (setItem d.erase it k q).1 := by
  unfold setItem
  rw [LDef.erase_members]
  cases hk : d.members.get k with
  | none => exact .inl rfl
  | some e =>
    obtain ⟨id, v⟩ := e
    cases v with
    | cilDef d' => exact .inl rfl
    | milDef d' u => exact .inl rfl
    | param p vt =>
      simp only [Option.map_some, LDefVal.erase]
      cases hv : verifySet p vt q with
      | some e => exact .inl rfl
      | none =>
        right
        obtain ⟨values, refs⟩ := it
        have := ItemOp.set (values := values) (refs := refs) hk (paramOk_of_verify hq hv)
        simp only [Item.values, Item.refs]
        split <;> exact this

/-- Assigning a reference. -/
theorem C73_api_ref {d : LDef} {it : Item} {k : String} {id : Nat} {x q : Qv String} {vt : VType} (hk : d.refs.refs.get k = some (id, x, vt))
    (hq : RefOk vt q) : ItemOp d it (setRef it k q).1 := by
  obtain ⟨values, refs⟩ := it
  exact .ref hk hq

/-- Asking for an inner list. -/
theorem C73_api_list {d : LDef} {it it' : Item} {k : String} (hf : ItemFits d it) (h : touchMil d.erase it k = some it') : it' = it ∨ ItemOp d it it' := by
  unfold touchMil at h
  rw [LDef.erase_members] at h
  cases hk : d.members.get k with
  | none => rw [hk] at h; cases h
  | some e =>
    obtain ⟨id, v⟩ := e
    rw [hk] at h
    cases v with
    | cilDef d' => cases h
    | param p vt => cases h
    | milDef d' u =>
      obtain ⟨values, refs⟩ := it
      simp only [Option.map_some, LDefVal.erase, Item.values, Item.refs] at h
      cases hf with | mk h1 h2 h3 h4 h5 h6 h7 h8 =>
      cases hv : AMap.get values k with
      | none => rw [hv] at h; cases h; exact .inr (.make hk (.inl hv))
      | some v =>
        rw [hv] at h
        cases v with
        | mil items n => cases h; exact .inl rfl
        | milNone => cases h; exact .inr (.make hk (.inr hv))
        | param p =>
          obtain ⟨_, _, _, hc, _⟩ := h3 k p (AMap.mem_of_get hv)
          rw [hk] at hc; cases hc
        | cil l =>
          obtain ⟨_, _, hc⟩ := h5 k l (AMap.mem_of_get hv)
          rw [hk] at hc; cases hc

theorem without_split {l : List (Nat × Item)} {i : Nat} (hn : (l.map (·.1)).Nodup) (hi : i ∈ l.map (·.1)) :
    ∃ a x b, l = a ++ x :: b ∧ l.filter (·.1 ≠ i) = a ++ b := by
  obtain ⟨x, hx, rfl⟩ := List.mem_map.1 hi
  obtain ⟨a, b, rfl⟩ := List.append_of_mem hx
  refine ⟨a, x, b, rfl, ?_⟩
  simp only [List.map_append, List.map_cons] at hn
  have h1 := (List.nodup_cons.1 (List.nodup_middle.1 hn)).1
  rw [List.mem_append, not_or] at h1
  rw [List.filter_append, List.filter_cons_of_neg (by simp)]
  congr 1
  · refine List.filter_eq_self.2 fun y hy => ?_
    have : y.1 ≠ x.1 := fun h => h1.1 (List.mem_map.2 ⟨y, hy, h⟩)
    simpa using this
  · refine List.filter_eq_self.2 fun y hy => ?_
    have : y.1 ≠ x.1 := fun h => h1.2 (List.mem_map.2 ⟨y, hy, h⟩)
    simpa using this

/-- the operations on lists that are offered, except moving; new items are empty -/
inductive ListApi : LinkedMap.Op Item → Prop
  | insertFirst : ListApi (.insertFirst (.mk [] []))
  | insertLast : ListApi (.insertLast (.mk [] []))
  | remove (i) : ListApi (.remove i)
  | removeFirst : ListApi .removeFirst
  | removeLast : ListApi .removeLast

/-- what such an operation does to a list -/
theorem listApi_cases {l : List (Nat × Item)} {n : Nat} (hn : (l.map (·.1)).Nodup) {op : LinkedMap.Op Item} (h : ListApi op) :
    let s := (SList.step ⟨l, n⟩ op).1
    (s.items = l ∧ s.nextId = n) ∨ (s.items = (n, .mk [] []) :: l ∧ s.nextId = n + 1) ∨ (s.items = l ++ [(n, .mk [] [])] ∧ s.nextId = n + 1) ∨
      ∃ a x b, l = a ++ x :: b ∧ s.items = a ++ b ∧ s.nextId = n := by
  cases h with
  | insertFirst => exact .inr (.inl ⟨rfl, rfl⟩)
  | insertLast => exact .inr (.inr (.inl ⟨rfl, rfl⟩))
  | remove i =>
    by_cases hi : i ∈ l.map (·.1)
    · obtain ⟨a, x, b, h1, h2⟩ := without_split hn hi
      exact .inr (.inr (.inr ⟨a, x, b, h1, h2, rfl⟩))
    · left
      refine ⟨?_, rfl⟩
      refine List.filter_eq_self.2 fun y hy => ?_
      have : y.1 ≠ i := fun h => hi (List.mem_map.2 ⟨y, hy, h⟩)
      simpa using this
  | removeFirst =>
    cases l with
    | nil => exact .inl ⟨rfl, rfl⟩
    | cons x r => exact .inr (.inr (.inr ⟨[], x, r, rfl, rfl, rfl⟩))
  | removeLast =>
    rcases List.eq_nil_or_concat l with rfl | ⟨a, x, rfl⟩
    · exact .inl ⟨rfl, rfl⟩
    · refine .inr (.inr (.inr ⟨a, x, [], by simp, ?_, rfl⟩))
      show (a.concat x).dropLast = a ++ []
      simp

/-- An operation on an inner list, as long as the ids and the length do not overflow. -/
theorem C73_api_inner {d d' : LDef} {values : AMap SabVal} {refs : AMap (Qv String)} {k : String} {id : Nat} {u : Bool} {l : List (Nat × Item)} {n : Nat}
    (hk : d.members.get k = some (id, .milDef d' u)) (hv : values.get k = some (.mil l n)) (hn : (l.map (·.1)).Nodup) (h1 : n + 1 < 2 ^ 64)
    (h2 : l.length + 1 < 2 ^ 62) {op : LinkedMap.Op Item} (h : ListApi op) :
    let s := (SList.step ⟨l, n⟩ op).1
    (s.items = l ∧ s.nextId = n) ∨ ItemOp d (.mk values refs) (.mk (values.insert k (.mil s.items s.nextId)) refs) := by
  intro s
  rcases listApi_cases hn h (n := n) with ⟨e1, e2⟩ | ⟨e1, e2⟩ | ⟨e1, e2⟩ | ⟨a, x, b, e0, e1, e2⟩
  · exact .inl ⟨e1, e2⟩
  · right; rw [e1, e2]; exact .first hk hv h1 h2
  · right; rw [e1, e2]; exact .last hk hv h1 h2
  · right; rw [e1, e2]; rw [e0] at hv; exact .remove hk hv

/-- An operation on a list of the root. -/
theorem C73_api_root {defs : AMap (Nat × RootValI)} {s : AMap RootSab} {k : String} {id : Nat} {d : LDef} {u : Bool} {l : List (Nat × Item)} {n : Nat}
    (hk : defs.get k = some (id, .mlist d u)) (hv : s.get k = some (.list (some (l, n)))) (hn : (l.map (·.1)).Nodup) (h1 : n + 1 < 2 ^ 64)
    (h2 : l.length + 1 < 2 ^ 62) {op : LinkedMap.Op Item} (h : ListApi op) :
    let m := (SList.step ⟨l, n⟩ op).1
    (m.items = l ∧ m.nextId = n) ∨ RootOp defs s (s.insert k (.list (some (m.items, m.nextId)))) := by
  intro m
  rcases listApi_cases hn h (n := n) with ⟨e1, e2⟩ | ⟨e1, e2⟩ | ⟨e1, e2⟩ | ⟨a, x, b, e0, e1, e2⟩
  · exact .inl ⟨e1, e2⟩
  · right; rw [e1, e2]; exact .first hk hv h1 h2
  · right; rw [e1, e2]; exact .last hk hv h1 h2
  · right; rw [e1, e2]; rw [e0] at hv; exact .remove hk hv

/-- Assigning a parameter of the root. -/
theorem C73_api_root_set {r : Source.Root} {s : AMap RootSab} {k : String} {q : Param} (hq : q.Fits) :
    (setRoot { r.erase with sabun := s } k q).1.sabun = s ∨ RootOp r.defs s (setRoot { r.erase with sabun := s } k q).1.sabun := by
  unfold setRoot
  have e : r.erase.defs.get k = (r.defs.get k).map fun e => e.2.erase := by
    show AMap.get (r.defs.map fun e => (e.1, e.2.2.erase)) k = _
    generalize r.defs = ds
    induction ds with
    | nil => rfl
    | cons x t ih =>
      simp only [AMap.get, List.map_cons] at ih ⊢
      split <;> first | rfl | exact ih
  simp only [e]
  cases hk : r.defs.get k with
  | none => exact .inl rfl
  | some e =>
    obtain ⟨id, v⟩ := e
    cases v with
    | table => exact .inl rfl
    | clist => exact .inl rfl
    | mlist => exact .inl rfl
    | param p vt =>
      simp only [Option.map_some, RootValI.erase]
      cases hv : verifySet p vt q with
      | some e => exact .inl rfl
      | none =>
        right
        have := RootOp.set (s := s) hk (paramOk_of_verify hq hv)
        simp only
        split <;> exact this

end Verif.Named
