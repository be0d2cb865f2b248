import Verif.Spec.DiffNamed
import Verif.Lemmas.AMap
import Verif.Lemmas.SourceMeta
import Verif.Lemmas.DiffRoot
/-! # Objects by name and objects by id -/
namespace Verif.Named
open Diff Core Source LinkedMap

/-! ## Lowering -/

/-- a stored value as the value of a column. What does not belong there is kept apart from what does. -/
def cellL : (n : Nat) → Meta → SabVal → Cell (Obj n)
  | _, .param _ _, .param p => .param p
  | _, .param _ _, _ => .mil none
  | n + 1, .mlist i r, .mil items next =>
    .mil (some ⟨items.map fun e => (e.1, ⟨i.map fun c => c.bind fun c => (e.2.values.get c.1).map (cellL n c.2),
      r.map fun c => c.bind fun c => e.2.refs.get c.1⟩), next⟩)
  | n + 1, .optMil i r, .mil items next =>
    .mil (some ⟨items.map fun e => (e.1, ⟨i.map fun c => c.bind fun c => (e.2.values.get c.1).map (cellL n c.2),
      r.map fun c => c.bind fun c => e.2.refs.get c.1⟩), next⟩)
  | 0, _, .mil _ _ => .mil none
  | _, _, .param p => .param p
  | _, _, .cil _ => .param (.bool .undef)
  | _, _, .milNone => .mil none

/-- the values of an item by id -/
def valsL (n : Nat) (i : MetaTable) (v : AMap SabVal) : List (Option (Cell (Obj n))) :=
  i.map fun c => c.bind fun c => (v.get c.1).map (cellL n c.2)

/-- the references of an item by id -/
def refValsL (r : MetaTable) (v : AMap (Qv String)) : List (Option (Qv String)) := r.map fun c => c.bind fun c => v.get c.1

/-- an item by id -/
def rowL (n : Nat) (tb : Tables) (it : Item) : Row (Obj n) := ⟨valsL n tb.1 it.values, refValsL tb.2 it.refs⟩

/-- a list by id -/
def listL (n : Nat) (tb : Tables) (l : NList) : Obj (n + 1) := ⟨l.items.map fun e => (e.1, rowL n tb e.2), l.nextId⟩

/-- the columns of a table without names -/
def colsL (n : Nat) (i : MetaTable) : List (Option (Col (Sch n))) := i.map fun c => c.bind fun c => colL n c.2

/-- the tables of a list without names -/
def schL (n : Nat) (tb : Tables) : Sch (n + 1) := ⟨colsL n tb.1, refsL tb.2⟩

theorem cellL_param (n : Nat) (m : Meta) (p : Param) : cellL n m (.param p) = .param p := by
  cases m <;> cases n <;> rfl

theorem cellL_mil {n : Nat} {m : Meta} {tb : Tables} (h : metaTables m = some tb) (items : List (Nat × Item)) (next : Nat) :
    cellL (n + 1) m (.mil items next) = .mil (some (listL n tb ⟨items, next⟩)) := by
  cases m with
  | param => cases h
  | mlist i r => cases h; rfl
  | optMil i r => cases h; rfl

theorem cellL_milNone {n : Nat} {m : Meta} {tb : Tables} (h : metaTables m = some tb) : cellL n m .milNone = .mil none := by
  cases m with
  | param => cases h
  | mlist i r => cases n <;> rfl
  | optMil i r => cases n <;> rfl

theorem cellL_cil {n : Nat} {m : Meta} {tb : Tables} (h : metaTables m = some tb) (l : List Item) :
    cellL n m (.cil l) = .param (.bool .undef) := by
  cases m with
  | param => cases h
  | mlist i r => cases n <;> rfl
  | optMil i r => cases n <;> rfl

theorem cellL_mil0 (m : Meta) (items : List (Nat × Item)) (next : Nat) : cellL 0 m (.mil items next) = .mil none := by
  cases m <;> rfl

/-- the column of a list member -/
theorem colL_tables {n : Nat} {m : Meta} {tb : Tables} (h : metaTables m = some tb) :
    (colL (n + 1) m).bind Col.tables = some (schL n tb) := by
  cases m with
  | param => cases h
  | mlist i r => cases h; rfl
  | optMil i r => cases h; rfl

theorem colL_tables_none {n : Nat} {m : Meta} (h : metaTables m = none) : (colL n m).bind Col.tables = none := by
  cases m with
  | param => cases n <;> rfl
  | mlist i r => cases h
  | optMil i r => cases h

/-! ## Entries -/

theorem entry_map_bind {α β : Type} (t : List (Option α)) (f : α → Option β) (i : Nat) :
    entry (t.map fun c => c.bind f) i = (t[i]?.join).bind f := by
  unfold entry
  rw [List.getElem?_map]
  cases t[i]? with
  | none => rfl
  | some c => rfl

theorem entry_valsL (n : Nat) (t : MetaTable) (v : AMap SabVal) (i : Nat) :
    entry (valsL n t v) i = (metaGet t i).bind fun c => (v.get c.1).map (cellL n c.2) := entry_map_bind _ _ _

theorem entry_refValsL (t : MetaTable) (v : AMap (Qv String)) (i : Nat) :
    entry (refValsL t v) i = (metaGet t i).bind fun c => v.get c.1 := entry_map_bind _ _ _

theorem entry_colsL (n : Nat) (t : MetaTable) (i : Nat) : entry (colsL n t) i = (metaGet t i).bind fun c => colL n c.2 := entry_map_bind _ _ _

theorem valsL_length (n : Nat) (t : MetaTable) (v : AMap SabVal) : (valsL n t v).length = t.length := by simp [valsL]
theorem refValsL_length (t : MetaTable) (v : AMap (Qv String)) : (refValsL t v).length = t.length := by simp [refValsL]
theorem colsL_length (n : Nat) (t : MetaTable) : (colsL n t).length = t.length := by simp [colsL]
theorem refsL_length (t : MetaTable) : (refsL t).length = t.length := by simp [refsL]

theorem metaGet_mem {t : MetaTable} {i : Nat} {k : String} {m : Meta} (h : metaGet t i = some (k, m)) : some (k, m) ∈ t := by
  unfold metaGet at h
  cases hx : t[i]? with
  | none => rw [hx] at h; cases h
  | some x => rw [hx] at h; cases x with
    | none => cases h
    | some y => cases h; exact List.mem_of_getElem? hx

theorem metaGet_lt {t : MetaTable} {i : Nat} {x : String × Meta} (h : metaGet t i = some x) : i < t.length := by
  unfold metaGet at h
  cases hx : t[i]? with
  | none => rw [hx] at h; cases h
  | some x => exact (List.getElem?_eq_some_iff.mp hx).1

theorem metaGet_of {t : MetaTable} {i : Nat} {x : String × Meta} (h : t[i]? = some (some x)) : metaGet t i = some x := by
  unfold metaGet; rw [h]; rfl

theorem metaGet_none_of {t : MetaTable} {i : Nat} (h : t[i]? = some none) : metaGet t i = none := by
  unfold metaGet; rw [h]; rfl

/-! ## Tables of a definition -/

theorem membersIn_mem : ∀ {l : List (String × Nat × LDefVal)} {t : MetaTable}, MembersIn l t → ∀ {k id v}, (k, id, v) ∈ l → PlaceOf k v (t[id]?)
  | [], _, _, _, _, _, h => by cases h
  | (k', id', v') :: r, t, hm, k, id, v, h => by
    rw [MembersIn] at hm
    rcases List.mem_cons.mp h with h | h
    · cases h; exact hm.1
    · exact membersIn_mem hm.2 h

/-- A definition and its tables belong together. -/
structure Tab (d : LDef) (tb : Tables) : Prop where
  num : Numbered d
  items : TableOf d tb.1
  refs : RefsIn d.refs.refs tb.2

theorem Tab.wf {d : LDef} {tb : Tables} (h : Tab d tb) : d.members.Wf := by cases h.num with | mk a b c e f g => exact a
theorem Tab.refsWf {d : LDef} {tb : Tables} (h : Tab d tb) : d.refs.refs.Wf := by cases h.num with | mk a b c e f g => exact c

theorem Tab.length {d : LDef} {tb : Tables} (h : Tab d tb) : tb.1.length = d.members.length := by
  obtain ⟨m, r, o⟩ := d
  have := h.items
  rw [TableOf] at this
  exact this.1

theorem Tab.place {d : LDef} {tb : Tables} (h : Tab d tb) {k : String} {id : Nat} {v : LDefVal} (hk : d.members.get k = some (id, v)) :
    PlaceOf k v (tb.1[id]?) := by
  obtain ⟨m, r, o⟩ := d
  have := h.items
  rw [TableOf] at this
  exact membersIn_mem this.2 (AMap.mem_of_get hk)

theorem Tab.param {d : LDef} {tb : Tables} (h : Tab d tb) {k : String} {id : Nat} {p : Param} {vt : VType}
    (hk : d.members.get k = some (id, .param p vt)) : metaGet tb.1 id = some (k, .param (ptype p) vt) := by
  have := h.place hk
  rw [PlaceOf] at this
  exact metaGet_of this

theorem Tab.cil {d : LDef} {tb : Tables} (h : Tab d tb) {k : String} {id : Nat} {d' : LDef}
    (hk : d.members.get k = some (id, .cilDef d')) : metaGet tb.1 id = none := by
  have := h.place hk
  rw [PlaceOf] at this
  exact metaGet_none_of this

theorem Tab.mil {d : LDef} {tb : Tables} (h : Tab d tb) {k : String} {id : Nat} {d' : LDef} {u : Bool}
    (hk : d.members.get k = some (id, .milDef d' u)) :
    ∃ tb', Tab d' tb' ∧ metaGet tb.1 id = some (k, if u then .optMil tb'.1 tb'.2 else .mlist tb'.1 tb'.2) := by
  have hp := h.place hk
  obtain ⟨m', r', o'⟩ := d'
  rw [PlaceOf] at hp
  obtain ⟨i, r, h1, h2, h3⟩ := hp
  refine ⟨(i, r), ⟨?_, h1, h2⟩, metaGet_of h3⟩
  have hm := AMap.mem_of_get hk
  cases h.num with | mk a b c e f g => exact g _ _ _ _ hm

theorem metaTables_if (u : Bool) (tb : Tables) : metaTables (if u then .optMil tb.1 tb.2 else .mlist tb.1 tb.2) = some tb := by
  cases u <;> rfl

theorem Tab.mil' {d : LDef} {tb : Tables} (h : Tab d tb) {k : String} {id : Nat} {d' : LDef} {u : Bool}
    (hk : d.members.get k = some (id, .milDef d' u)) :
    ∃ tb' m, Tab d' tb' ∧ metaGet tb.1 id = some (k, m) ∧ metaTables m = some tb' := by
  obtain ⟨tb', h1, h2⟩ := h.mil hk
  exact ⟨tb', _, h1, h2, metaTables_if _ _⟩

/-- Every place of the table is a member. -/
theorem Tab.member {d : LDef} {tb : Tables} (h : Tab d tb) {k : String} {id : Nat} {m : Meta} (hm : metaGet tb.1 id = some (k, m)) :
    ∃ v, d.members.get k = some (id, v) := by
  have hlt := metaGet_lt hm
  rw [h.length] at hlt
  have hid : id ∈ d.members.map (·.2.1) := by
    have : IdsFill (d.members.map (·.2.1)) := by cases h.num with | mk a b c e f g => exact b
    refine this.mem_iff.mpr ?_
    simpa using hlt
  obtain ⟨⟨k', id', v⟩, he, rfl⟩ := List.mem_map.mp hid
  have hk' := AMap.get_of_mem h.wf he
  have hkk : k' = k := by
    cases v with
    | param p vt => have := h.param hk'; rw [this] at hm; cases hm; rfl
    | cilDef d' => have := h.cil hk'; rw [this] at hm; cases hm
    | milDef d' u => obtain ⟨tb', _, h2⟩ := h.mil hk'; rw [h2] at hm; cases hm; rfl
  subst hkk
  exact ⟨v, hk'⟩

/-- ids of members are distinct -/
theorem Tab.inj {d : LDef} {tb : Tables} (h : Tab d tb) {k k' : String} {id : Nat} {v v' : LDefVal} (h1 : d.members.get k = some (id, v))
    (h2 : d.members.get k' = some (id, v')) : k = k' := by
  have hids : (d.members.map (·.2.1)).Nodup := by cases h.num with | mk a b c e f g => exact idsFill_nodup b
  have := List.inj_on_of_nodup_map hids (AMap.mem_of_get h1) (AMap.mem_of_get h2) rfl
  exact congrArg (·.1) this

theorem Tab.refPlace {d : LDef} {tb : Tables} (h : Tab d tb) {k : String} {id : Nat} {q : Qv String} {vt : VType}
    (hk : d.refs.refs.get k = some (id, q, vt)) : metaGet tb.2 id = some (k, .param .string vt) :=
  metaGet_of (h.refs.2 _ _ _ _ (AMap.mem_of_get hk))

theorem Tab.refMember {d : LDef} {tb : Tables} (h : Tab d tb) {k : String} {id : Nat} {m : Meta} (hm : metaGet tb.2 id = some (k, m)) :
    ∃ q vt, d.refs.refs.get k = some (id, q, vt) ∧ m = .param .string vt := by
  have hlt := metaGet_lt hm
  rw [h.refs.1] at hlt
  have hid : id ∈ d.refs.refs.map (·.2.1) := by
    have : IdsFill (d.refs.refs.map (·.2.1)) := by cases h.num with | mk a b c e f g => exact e
    refine this.mem_iff.mpr ?_
    simpa using hlt
  obtain ⟨⟨k', id', q, vt⟩, he, rfl⟩ := List.mem_map.mp hid
  have hk' := AMap.get_of_mem h.refsWf he
  have := h.refPlace hk'
  rw [this] at hm; cases hm
  exact ⟨q, vt, hk', rfl⟩

theorem Tab.refInj {d : LDef} {tb : Tables} (h : Tab d tb) {k k' : String} {id : Nat} {v v' : Qv String × VType}
    (h1 : d.refs.refs.get k = some (id, v)) (h2 : d.refs.refs.get k' = some (id, v')) : k = k' := by
  have hids : (d.refs.refs.map (·.2.1)).Nodup := by cases h.num with | mk a b c e f g => exact idsFill_nodup e
  have := List.inj_on_of_nodup_map hids (AMap.mem_of_get h1) (AMap.mem_of_get h2) rfl
  exact congrArg (·.1) this

theorem levelOk_get {n : Nat} {t : MetaTable} (h : LevelOk n t) {id : Nat} {k : String} {m : Meta} {tb : Tables}
    (hm : metaGet t id = some (k, m)) (ht : metaTables m = some tb) : ∃ n', n = n' + 1 ∧ LevelOk n' tb.1 := by
  cases n with
  | zero =>
    rw [LevelOk] at h
    rw [h _ _ (metaGet_mem hm)] at ht; cases ht
  | succ n =>
    rw [LevelOk] at h
    exact ⟨n, rfl, h _ _ (metaGet_mem hm) _ ht⟩

theorem ptype_eq (p : Param) : ptype p = p.ptype := by cases p <;> rfl

/-! ## Filling a `BTreeMap` -/

section
variable {β : Type}

/-- ascending keys -/
def Asc (m : List (Nat × β)) : Prop := m.Pairwise fun a b => a.1 < b.1

theorem mem_bput {m : List (Nat × β)} (hm : Asc m) (k : Nat) (v : β) (x : Nat × β) :
    x ∈ bput m k v ↔ x = (k, v) ∨ (x.1 ≠ k ∧ x ∈ m) := by
  induction m with
  | nil => simp [bput]
  | cons e r ih =>
    obtain ⟨k', v'⟩ := e
    obtain ⟨h1, h2⟩ := List.pairwise_cons.mp hm
    rw [bput]
    split
    · rename_i hlt
      constructor
      · intro hx
        rcases List.mem_cons.mp hx with hx | hx
        · exact .inl hx
        · refine .inr ⟨?_, hx⟩
          rcases List.mem_cons.mp hx with hx | hx
          · subst hx; exact Nat.ne_of_gt hlt
          · exact Nat.ne_of_gt (Nat.lt_trans hlt (h1 x hx))
      · rintro (hx | ⟨_, hx⟩)
        · exact List.mem_cons.mpr (.inl hx)
        · exact List.mem_cons.mpr (.inr hx)
    · split
      · rename_i hlt heq
        subst heq
        constructor
        · intro hx
          rcases List.mem_cons.mp hx with hx | hx
          · exact .inl hx
          · exact .inr ⟨Nat.ne_of_gt (h1 x hx), List.mem_cons.mpr (.inr hx)⟩
        · rintro (hx | ⟨hne, hx⟩)
          · exact List.mem_cons.mpr (.inl hx)
          · rcases List.mem_cons.mp hx with hx | hx
            · exact absurd (congrArg (·.1) hx) hne
            · exact List.mem_cons.mpr (.inr hx)
      · rename_i hlt hne
        rw [List.mem_cons, ih h2]
        constructor
        · rintro (hx | hx | ⟨hx, hx'⟩)
          · subst hx; exact .inr ⟨fun h => hne h.symm, by simp⟩
          · exact .inl hx
          · exact .inr ⟨hx, by simp [hx']⟩
        · rintro (hx | ⟨hx, hx'⟩)
          · exact .inr (.inl hx)
          · rcases List.mem_cons.mp hx' with hx' | hx'
            · exact .inl hx'
            · exact .inr (.inr ⟨hx, hx'⟩)

theorem asc_bput {m : List (Nat × β)} (hm : Asc m) (k : Nat) (v : β) : Asc (bput m k v) := by
  induction m with
  | nil => simp [bput, Asc]
  | cons e r ih =>
    obtain ⟨k', v'⟩ := e
    obtain ⟨h1, h2⟩ := List.pairwise_cons.mp hm
    rw [bput]
    split
    · rename_i hlt
      refine List.pairwise_cons.mpr ⟨fun x hx => ?_, hm⟩
      rcases List.mem_cons.mp hx with hx | hx
      · subst hx; exact hlt
      · exact Nat.lt_trans hlt (h1 x hx)
    · split
      · rename_i hlt heq
        subst heq
        exact List.pairwise_cons.mpr ⟨fun x hx => h1 x hx, h2⟩
      · rename_i hlt hne
        refine List.pairwise_cons.mpr ⟨fun x hx => ?_, ih h2⟩
        rcases (mem_bput h2 k v x).mp hx with hx | ⟨_, hx⟩
        · subst hx; exact Nat.lt_of_le_of_ne (Nat.le_of_not_lt hlt) (fun h => hne h.symm)
        · exact h1 x hx

theorem asc_ext {a b : List (Nat × β)} (ha : Asc a) (hb : Asc b) (h : ∀ x, x ∈ a ↔ x ∈ b) : a = b := by
  induction a generalizing b with
  | nil =>
    cases b with
    | nil => rfl
    | cons y b => exact absurd ((h y).mpr (by simp)) (by simp)
  | cons x a ih =>
    cases b with
    | nil => exact absurd ((h x).mp (by simp)) (by simp)
    | cons y b =>
      obtain ⟨ha1, ha2⟩ := List.pairwise_cons.mp ha
      obtain ⟨hb1, hb2⟩ := List.pairwise_cons.mp hb
      have hxy : x = y := by
        rcases List.mem_cons.mp ((h x).mp (by simp)) with h1 | h1
        · exact h1
        · rcases List.mem_cons.mp ((h y).mpr (by simp)) with h2 | h2
          · exact h2.symm
          · exact absurd (Nat.lt_trans (hb1 x h1) (ha1 y h2)) (Nat.lt_irrefl _)
      subst hxy
      rw [ih ha2 hb2 fun z => ?_]
      constructor
      · intro hz
        rcases List.mem_cons.mp ((h z).mp (by simp [hz])) with h1 | h1
        · subst h1; exact absurd (ha1 _ hz) (Nat.lt_irrefl _)
        · exact h1
      · intro hz
        rcases List.mem_cons.mp ((h z).mpr (by simp [hz])) with h1 | h1
        · subst h1; exact absurd (hb1 _ hz) (Nat.lt_irrefl _)
        · exact h1

/-- a map filled from the pairs that are there -/
def puts {α : Type} (c : α → Option (Nat × β)) (l : List α) (m : List (Nat × β)) : List (Nat × β) :=
  l.foldl (fun m e => match c e with | some x => bput m x.1 x.2 | none => m) m

theorem puts_asc {α : Type} (c : α → Option (Nat × β)) : ∀ (l : List α) {m : List (Nat × β)}, Asc m → Asc (puts c l m)
  | [], _, h => h
  | e :: l, m, h => by
    show Asc (puts c l (match c e with | some x => bput m x.1 x.2 | none => m))
    apply puts_asc c l
    cases c e with
    | none => exact h
    | some x => exact asc_bput h _ _

theorem mem_puts {α : Type} (c : α → Option (Nat × β)) : ∀ (l : List α) {m : List (Nat × β)}, Asc m →
    (l.Pairwise fun a b => ∀ x y, c a = some x → c b = some y → x.1 ≠ y.1) → (∀ e ∈ l, ∀ x, c e = some x → ∀ y ∈ m, y.1 ≠ x.1) →
    ∀ x, x ∈ puts c l m ↔ x ∈ m ∨ ∃ e ∈ l, c e = some x
  | [], m, hm, hd, hf, x => by simp [puts]
  | e :: l, m, hm, hd, hf, x => by
    obtain ⟨hd1, hd2⟩ := List.pairwise_cons.mp hd
    show x ∈ puts c l (match c e with | some x => bput m x.1 x.2 | none => m) ↔ _
    cases hc : c e with
    | none =>
      rw [mem_puts c l hm hd2 (fun e he => hf e (by simp [he])) x]
      simp [hc]
    | some z =>
      have hm' : Asc (bput m z.1 z.2) := asc_bput hm _ _
      show x ∈ puts c l (bput m z.1 z.2) ↔ _
      rw [mem_puts c l hm' hd2 ?_ x, mem_bput hm]
      · constructor
        · rintro ((h | ⟨h, h'⟩) | ⟨a, ha, h⟩)
          · exact .inr ⟨e, by simp, by rw [hc, h]⟩
          · exact .inl h'
          · exact .inr ⟨a, by simp [ha], h⟩
        · rintro (h | ⟨a, ha, h⟩)
          · exact .inl (.inr ⟨hf e (by simp) z hc x h, h⟩)
          · rcases List.mem_cons.mp ha with ha | ha
            · subst ha; rw [hc] at h; cases h; exact .inl (.inl rfl)
            · exact .inr ⟨a, ha, h⟩
      · intro a ha w hw y hy
        rcases (mem_bput hm _ _ y).mp hy with hy | ⟨_, hy⟩
        · subst hy; exact hd1 a ha z w hc hw
        · exact hf a (by simp [ha]) w hw y hy

theorem collect_asc (n : Nat) (f : Nat → Option β) : Asc (collect n f) := List.pairwise_map.mp (collect_sorted n f)

/-- A map filled in any order is the map filled by ascending ids. -/
theorem puts_collect {α : Type} (c : α → Option (Nat × β)) (l : List α) (n : Nat) (f : Nat → Option β)
    (hd : l.Pairwise fun a b => ∀ x y, c a = some x → c b = some y → x.1 ≠ y.1)
    (h1 : ∀ e ∈ l, ∀ x, c e = some x → x.1 < n ∧ f x.1 = some x.2) (h2 : ∀ i b, i < n → f i = some b → ∃ e ∈ l, c e = some (i, b)) :
    puts c l [] = collect n f := by
  refine asc_ext (puts_asc c l List.Pairwise.nil) (collect_asc n f) fun x => ?_
  rw [mem_puts c l List.Pairwise.nil hd (fun _ _ _ _ _ h => by cases h), mem_collect]
  constructor
  · rintro (h | ⟨e, he, h⟩)
    · cases h
    · exact h1 e he x h
  · rintro ⟨h, h'⟩
    exact .inr (h2 _ _ h h')

end

/-- a loop that does not fail and fills two maps -/
theorem loop_acc {α D : Type} (f : Acc D → α → Res (Acc D)) (cp : α → Option (Nat × Param)) (cl : α → Option (Nat × Option D)) :
    ∀ (l : List α) (acc : Acc D), (∀ e ∈ l, ∀ acc, f acc e = .ok ⟨puts cp [e] acc.params, puts cl [e] acc.lists⟩) →
      loop f l acc = .ok ⟨puts cp l acc.params, puts cl l acc.lists⟩
  | [], acc, _ => rfl
  | e :: l, acc, h => by
    rw [loop, h e (by simp), Res.bind_ok, loop_acc f cp cl l _ fun e he => h e (by simp [he])]
    rfl

theorem loop_map {α β : Type} (f : List (Nat × β) → α → Res (List (Nat × β))) (c : α → Option (Nat × β)) :
    ∀ (l : List α) (m : List (Nat × β)), (∀ e ∈ l, ∀ m, f m e = .ok (puts c [e] m)) → loop f l m = .ok (puts c l m)
  | [], _, _ => rfl
  | e :: l, m, h => by
    rw [loop, h e (by simp), Res.bind_ok, loop_map f c l _ fun e he => h e (by simp [he])]
    rfl

end Verif.Named
