import Verif.Lemmas.DiffNamedSame
import Verif.Lemmas.DiffTyped
/-!
# What applying a diff leaves as it is

Whatever the diff is: names are declared, and constant lists are where they are declared and what they were.
-/
namespace Verif.Named
open Diff Core Source LinkedMap

/-- Names are declared, constant lists stay where they are; `C` is what is known of constant lists. -/
inductive Kept (C : List Item → Prop) : LDef → Item → Prop
  | mk {d : LDef} {values : AMap SabVal} {refs : AMap (Qv String)} :
      values.Wf → refs.Wf →
      (∀ k v, (k, v) ∈ values → ∃ e, d.members.get k = some e) →
      (∀ k id d' v, (k, v) ∈ values → d.members.get k = some (id, .cilDef d') → ∃ items, v = .cil items) →
      (∀ k items, (k, SabVal.cil items) ∈ values → C items) →
      (∀ k items next id d' u, (k, SabVal.mil items next) ∈ values → d.members.get k = some (id, .milDef d' u) → ∀ e ∈ items, Kept C d' e.2) →
      (∀ k q, (k, q) ∈ refs → ∃ e, d.refs.refs.get k = some e) →
      Kept C d (.mk values refs)

variable {C : List Item → Prop}

theorem kept_of_fits {d : LDef} {it : Item} (h : ItemFits d it) (hC : ∀ l, C l) : Kept C d it := by
  induction h with
  | @mk d values refs h1 h2 h3 h4 h5 h6 _ h8 ih =>
    refine .mk h1 h2 ?_ ?_ (fun _ l _ => hC l) (fun k items next id d' u hk hd e he => ih k items next id d' u hk hd e he) ?_
    · intro k v hk
      cases v with
      | param p => obtain ⟨id, q, vt, h, _⟩ := h3 k p hk; exact ⟨_, h⟩
      | milNone => obtain ⟨id, d', h⟩ := h4 k hk; exact ⟨_, h⟩
      | cil items => obtain ⟨id, d', h⟩ := h5 k items hk; exact ⟨_, h⟩
      | mil items next => obtain ⟨_, id, d', u, h⟩ := h6 k items next hk; exact ⟨_, h⟩
    · intro k id d' v hk hd
      cases v with
      | param p => obtain ⟨id, q, vt, h, _⟩ := h3 k p hk; rw [hd] at h; cases h
      | milNone => obtain ⟨id, d', h⟩ := h4 k hk; rw [hd] at h; cases h
      | cil items => exact ⟨items, rfl⟩
      | mil items next => obtain ⟨_, id, d', u, h⟩ := h6 k items next hk; rw [hd] at h; cases h
    · intro k q hk
      obtain ⟨id, x, vt, h, _⟩ := h8 k q hk
      exact ⟨_, h⟩

theorem mem_insert {α : Type} {m : AMap α} (hm : m.Wf) {k k' : String} {v v' : α} (h : (k', v') ∈ m.insert k v) :
    (k' = k ∧ v' = v) ∨ (k', v') ∈ m := by
  have := AMap.get_of_mem (hm.insert k v) h
  rw [AMap.get_insert] at this
  split at this
  · rename_i he; cases this; exact .inl ⟨he, rfl⟩
  · exact .inr (AMap.mem_of_get this)

theorem kept_empty (d : LDef) : Kept C d (.mk [] []) :=
  .mk List.nodup_nil List.nodup_nil (fun _ _ h => nomatch h) (fun _ _ _ _ h => nomatch h) (fun _ _ h => nomatch h)
    (fun _ _ _ _ _ _ h => nomatch h) (fun _ _ h => nomatch h)

/-- a value that is no constant list is written at a place of the table -/
theorem kept_insert {d : LDef} {tb : Tables} (ht : Tab d tb) {values : AMap SabVal} {refs : AMap (Qv String)} (h : Kept C d (.mk values refs))
    {id : Nat} {k : String} {m : Meta} (hm : metaGet tb.1 id = some (k, m)) {v : SabVal} (hc : ∀ items, v ≠ .cil items)
    (hv : ∀ items next id d' u, v = .mil items next → d.members.get k = some (id, .milDef d' u) → ∀ e ∈ items, Kept C d' e.2) :
    Kept C d (.mk (values.insert k v) refs) := by
  cases h with
  | mk h1 h2 h3 h4 h5 h6 h7 =>
    obtain ⟨w, hw⟩ := ht.member hm
    refine .mk (h1.insert k v) h2 ?_ ?_ ?_ ?_ h7
    · intro k' v' hk
      rcases mem_insert h1 hk with ⟨rfl, rfl⟩ | hk
      · exact ⟨_, hw⟩
      · exact h3 k' v' hk
    · intro k' id' d' v' hk hd
      rcases mem_insert h1 hk with ⟨rfl, rfl⟩ | hk
      · rw [hw] at hd; cases hd
        rw [ht.cil hw] at hm; cases hm
      · exact h4 k' id' d' v' hk hd
    · intro k' items hk
      rcases mem_insert h1 hk with ⟨_, he⟩ | hk
      · exact absurd he.symm (hc items)
      · exact h5 k' items hk
    · intro k' items next id' d' u hk hd
      rcases mem_insert h1 hk with ⟨rfl, he⟩ | hk
      · exact hv items next id' d' u he.symm hd
      · exact h6 k' items next id' d' u hk hd

theorem kept_params {d : LDef} {tb : Tables} (ht : Tab d tb) {refs : AMap (Qv String)} : ∀ {ps : List (Nat × Param)} {v w : AMap SabVal},
    Kept C d (.mk v refs) → nApplyParams tb.1 ps v = .ok w → Kept C d (.mk w refs)
  | [], v, w, h, hw => by cases hw; exact h
  | (id, p) :: ps, v, w, h, hw => by
    rw [nApplyParams] at hw
    cases hm : metaGet tb.1 id with
    | none => rw [hm] at hw; cases hw
    | some e =>
      obtain ⟨k, m⟩ := e
      rw [hm] at hw
      exact kept_params ht (kept_insert ht h hm (fun _ h => by cases h) (fun _ _ _ _ _ h => by cases h)) hw

theorem kept_refs {d : LDef} {tb : Tables} (ht : Tab d tb) {values : AMap SabVal} : ∀ {rs : List (Nat × Qv String)} {v w : AMap (Qv String)},
    Kept C d (.mk values v) → nApplyRefs tb.2 rs v = .ok w → Kept C d (.mk values w)
  | [], v, w, h, hw => by cases hw; exact h
  | (id, q) :: rs, v, w, h, hw => by
    rw [nApplyRefs] at hw
    cases hm : metaGet tb.2 id with
    | none => rw [hm] at hw; cases hw
    | some e =>
      obtain ⟨k, m⟩ := e
      rw [hm] at hw
      refine kept_refs ht ?_ hw
      obtain ⟨x, vt, hx, _⟩ := ht.refMember hm
      cases h with
      | mk h1 h2 h3 h4 h5 h6 h7 =>
        refine .mk h1 (h2.insert k q) h3 h4 h5 h6 ?_
        intro k' q' hk
        rcases mem_insert h2 hk with ⟨rfl, _⟩ | hk
        · exact ⟨_, hx⟩
        · exact h7 k' q' hk

/-- all items of a list -/
def KeptList (C : List Item → Prop) (d : LDef) (l : NList) : Prop := ∀ e ∈ l.items, Kept C d e.2

/-- applying at some level -/
def KeepSpec {D : Type} (C : List Item → Prop) (dn : Tables → D → Res NList) (ad : Tables → NList → D → Res NList) : Prop :=
  ∀ d tb, Tab d tb → (∀ df l, dn tb df = .ok l → KeptList C d l) ∧ ∀ l0 df l, KeptList C d l0 → ad tb l0 df = .ok l → KeptList C d l

section
variable {D : Type} {dn : Tables → D → Res NList} {ad : Tables → NList → D → Res NList}

theorem kept_lists (hs : KeepSpec C dn ad) {d : LDef} {tb : Tables} (ht : Tab d tb) {refs : AMap (Qv String)} :
    ∀ {ls : List (Nat × Option D)} {v w : AMap SabVal}, Kept C d (.mk v refs) → nApplyLists ad dn tb.1 ls v = .ok w → Kept C d (.mk w refs)
  | [], v, w, h, hw => by cases hw; exact h
  | (id, df) :: ls, v, w, h, hw => by
    rw [nApplyLists] at hw
    cases hm : metaGet tb.1 id with
    | none => rw [hm] at hw; cases hw
    | some e =>
      obtain ⟨k, m⟩ := e
      rw [hm] at hw
      dsimp only at hw
      cases hmt : metaTables m with
      | none => rw [hmt] at hw; cases hw
      | some tb' =>
        rw [hmt] at hw
        obtain ⟨c, hc, hw⟩ := bind_inv hw
        refine kept_lists hs ht ?_ hw
        have hdef : ∀ id' d' u, d.members.get k = some (id', .milDef d' u) → Tab d' tb' := by
          intro id' d' u hd
          obtain ⟨w', hw'⟩ := ht.member hm
          rw [hd] at hw'; cases hw'
          obtain ⟨tb'', ht', h1⟩ := ht.mil hd
          rw [hm] at h1; cases h1
          rw [metaTables_if] at hmt; cases hmt
          exact ht'
        unfold nApplyList at hc
        cases df with
        | none => cases hc; exact kept_insert ht h hm (fun _ h => by cases h) (fun _ _ _ _ _ h => by cases h)
        | some df =>
          dsimp only at hc
          have hnew : (dn tb' df).map (fun l => SabVal.mil l.items l.nextId) = .ok c → Kept C d (.mk (v.insert k c) refs) := by
            intro hc
            obtain ⟨l, hl, rfl⟩ := map_inv hc
            refine kept_insert ht h hm (fun _ h => by cases h) ?_
            intro items next id' d' u he hd e hmem
            cases he
            exact ((hs d' tb' (hdef _ _ _ hd)).1 df l hl) e hmem
          split at hc
          · rename_i items next hcur
            obtain ⟨l, hl, rfl⟩ := map_inv hc
            refine kept_insert ht h hm (fun _ h => by cases h) ?_
            intro items' next' id' d' u he hd e hmem
            cases he
            refine ((hs d' tb' (hdef _ _ _ hd)).2 ⟨items, next⟩ df l ?_ hl) e hmem
            cases h with
            | mk h1 h2 h3 h4 h5 h6 h7 => exact h6 _ _ _ _ _ _ (AMap.mem_of_get hcur) hd
          · exact hnew hc

theorem kept_modify (hs : KeepSpec C dn ad) {d : LDef} {tb : Tables} (ht : Tab d tb) {it it' : Item} {df : RowDiff D} (h : Kept C d it)
    (hm : nModify ad dn tb it df = .ok it') : Kept C d it' := by
  obtain ⟨values, refs⟩ := it
  unfold nModify at hm
  obtain ⟨v, h1, hm⟩ := bind_inv hm
  obtain ⟨w, h2, hm⟩ := bind_inv hm
  obtain ⟨r, h3, rfl⟩ := map_inv hm
  exact kept_refs ht (kept_lists hs ht (kept_params ht h h1) h2) h3

theorem kept_item (hs : KeepSpec C dn ad) {d : LDef} {tb : Tables} (ht : Tab d tb) {l l' : NList} {x : Nat × ItemDiff D} (h : KeptList C d l)
    (ha : nApplyItem ad dn tb l x = .ok l') : KeptList C d l' := by
  obtain ⟨id, x⟩ := x
  unfold nApplyItem at ha
  cases x with
  | delete => cases ha; exact fun e he => h e (List.mem_filter.mp he).1
  | modify df =>
    dsimp only at ha
    cases hf : l.find id with
    | none => rw [hf] at ha; cases ha
    | some y =>
      rw [hf] at ha
      dsimp only at ha
      obtain ⟨row, hr, rfl⟩ := map_inv ha
      have hrow := kept_modify hs ht (h y (find_inv hf).1) hr
      intro e he
      obtain ⟨a, ha, rfl⟩ := List.mem_map.mp he
      split
      · exact hrow
      · exact h a ha
  | create prev df =>
    dsimp only at ha
    obtain ⟨row, hr, ha⟩ := bind_inv ha
    have hrow := kept_modify hs ht (kept_empty d) hr
    by_cases hin : id ∈ l.ids
    · rw [show l.step (.insertFirstWithId id row) = (l, .bool false) by simp [SList.step, hin]] at ha
      cases ha
    · rw [show l.step (.insertFirstWithId id row) = (⟨(id, row) :: l.items, l.nextId⟩, .bool true) by simp [SList.step, hin]] at ha
      dsimp only at ha
      have h0 : KeptList C d ⟨(id, row) :: l.items, l.nextId⟩ := by
        intro z hz
        rcases List.mem_cons.mp hz with rfl | hz
        · exact hrow
        · exact h z hz
      cases prev with
      | none => cases ha; exact h0
      | some p =>
        dsimp only at ha
        generalize hl0 : (⟨(id, row) :: l.items, l.nextId⟩ : NList) = l0 at ha h0
        unfold SList.step at ha
        dsimp only at ha
        cases hf : l0.find id with
        | none => rw [hf] at ha; cases ha
        | some y =>
          rw [hf] at ha
          dsimp only at ha
          split at ha
          · rename_i l1 heq
            cases ha
            split at heq
            · injection heq with h1 h2
              subst h1
              intro z hz
              rcases mem_putAfter hz with rfl | hz
              · exact h0 z (find_inv hf).1
              · exact h0 z (List.mem_filter.mp hz).1
            · injection heq with h1 h2; cases h2
          · cases ha

theorem kept_items (hs : KeepSpec C dn ad) {d : LDef} {tb : Tables} (ht : Tab d tb) : ∀ {xs : List (Nat × ItemDiff D)} {l l' : NList},
    KeptList C d l → loop (nApplyItem ad dn tb) xs l = .ok l' → KeptList C d l'
  | [], l, l', h, hl => by cases hl; exact h
  | x :: xs, l, l', h, hl => by
    rw [loop] at hl
    obtain ⟨l1, h1, h2⟩ := bind_inv hl
    exact kept_items hs ht (kept_item hs ht h h1) h2

end

theorem keepSpec : ∀ n, KeepSpec C (nApplyN n).1 (nApplyN n).2
  | 0 => fun _ _ _ => ⟨fun df => (nomatch df), fun _ df => (nomatch df)⟩
  | n + 1 => fun d tb ht =>
    ⟨fun df l h => kept_items (keepSpec n) ht (l := ⟨[], df.next⟩) (fun e he => by cases he) h,
     fun l0 df l h0 h => kept_items (keepSpec n) ht (l := ⟨l0.items, df.next⟩) h0 h⟩

/-! ## The root -/

/-- the root object: names of parameters and mutable lists, and the items of the lists -/
structure KeptRoot (C : List Item → Prop) (defs : AMap (Nat × RootValI)) (s : AMap RootSab) : Prop where
  wf : s.Wf
  keys : ∀ k v, (k, v) ∈ s → ∃ id y, defs.get k = some (id, y) ∧ ((∃ p vt, y = .param p vt) ∨ ∃ d u, y = .mlist d u)
  items : ∀ k l id d u, (k, RootSab.list (some l)) ∈ s → defs.get k = some (id, .mlist d u) → KeptList C d ⟨l.1, l.2⟩

section
variable {defs : AMap (Nat × RootValI)} {table : MetaTable}

theorem keptRoot_of_fits {s : AMap RootSab} (h : RootFits defs s) (hC : ∀ l, C l) : KeptRoot C defs s where
  wf := h.wf
  keys k v hk := by
    cases v with
    | param p => obtain ⟨id, q, vt, hd, _⟩ := h.params k p hk; exact ⟨id, _, hd, .inl ⟨_, _, rfl⟩⟩
    | list l => obtain ⟨id, d, u, hd⟩ := h.lists k l hk; exact ⟨id, _, hd, .inr ⟨_, _, rfl⟩⟩
  items k l id d u hk hd e he := kept_of_fits ((h.items k l id d u hk hd).2 e he) hC

theorem RootTable.mutable (hr : RootTable defs table) {id : Nat} {k : String} {m : Meta} (hm : metaGet table id = some (k, m)) :
    ∃ y, defs.get k = some (id, y) ∧ ((∃ p vt, y = .param p vt) ∨ ∃ d u, y = .mlist d u) := by
  obtain ⟨w, hw⟩ := hr.member hm
  refine ⟨w, hw, ?_⟩
  cases w with
  | param p vt => exact .inl ⟨_, _, rfl⟩
  | table d x y => rw [hr.const hw] at hm; cases hm
  | clist d x => rw [hr.const' hw] at hm; cases hm
  | mlist d u => exact .inr ⟨_, _, rfl⟩

theorem keptRoot_insert (hr : RootTable defs table) {s : AMap RootSab} (h : KeptRoot C defs s) {id : Nat} {k : String} {m : Meta}
    (hm : metaGet table id = some (k, m)) {v : RootSab}
    (hv : ∀ l id d u, v = .list (some l) → defs.get k = some (id, .mlist d u) → KeptList C d ⟨l.1, l.2⟩) : KeptRoot C defs (s.insert k v) where
  wf := h.wf.insert k v
  keys k' v' hk := by
    rcases mem_insert h.wf hk with ⟨rfl, rfl⟩ | hk
    · obtain ⟨y, h1, h2⟩ := hr.mutable hm; exact ⟨id, y, h1, h2⟩
    · exact h.keys k' v' hk
  items k' l id d u hk hd := by
    rcases mem_insert h.wf hk with ⟨rfl, he⟩ | hk
    · exact hv l id d u he.symm hd
    · exact h.items k' l id d u hk hd

theorem keptRoot_params (hr : RootTable defs table) : ∀ {ps : List (Nat × Param)} {v w : AMap RootSab}, KeptRoot C defs v →
    nRootParams table ps v = .ok w → KeptRoot C defs w
  | [], v, w, h, hw => by cases hw; exact h
  | (id, p) :: ps, v, w, h, hw => by
    rw [nRootParams] at hw
    cases hm : metaGet table id with
    | none => rw [hm] at hw; cases hw
    | some e =>
      obtain ⟨k, m⟩ := e
      rw [hm] at hw
      exact keptRoot_params hr (keptRoot_insert hr h hm (fun _ _ _ _ h => by cases h)) hw

theorem keptRoot_lists (hr : RootTable defs table) {n : Nat} : ∀ {ls : List (Nat × Option (DiffT n))} {v w : AMap RootSab}, KeptRoot C defs v →
    nRootLists (nApplyN n).2 (nApplyN n).1 table ls v = .ok w → KeptRoot C defs w
  | [], v, w, h, hw => by cases hw; exact h
  | (id, df) :: ls, v, w, h, hw => by
    rw [nRootLists] at hw
    cases hm : metaGet table id with
    | none => rw [hm] at hw; cases hw
    | some e =>
      obtain ⟨k, m⟩ := e
      rw [hm] at hw
      dsimp only at hw
      cases hmt : metaTables m with
      | none => rw [hmt] at hw; cases hw
      | some tb' =>
        rw [hmt] at hw
        obtain ⟨c, hc, hw⟩ := bind_inv hw
        refine keptRoot_lists hr ?_ hw
        have hdef : ∀ id' d u, defs.get k = some (id', .mlist d u) → Tab d tb' := by
          intro id' d' u hd
          obtain ⟨w', hw', _⟩ := hr.mutable hm
          rw [hd] at hw'; cases hw'
          obtain ⟨tb'', ht', h1⟩ := hr.mlist hd
          rw [hm] at h1; cases h1
          rw [metaTables_if] at hmt; cases hmt
          exact ht'
        unfold nRootList at hc
        split at hc
        · rename_i ml hcur
          split at hc
          · rename_i m' df'
            obtain ⟨l, hl, rfl⟩ := map_inv hc
            refine keptRoot_insert hr h hm fun l' id' d u he hd => ?_
            cases he
            exact ((keepSpec n) d tb' (hdef _ _ _ hd)).2 _ _ l (h.items _ _ _ _ _ (AMap.mem_of_get hcur) hd) hl
          · cases hc; exact keptRoot_insert hr h hm fun l' id' d u he hd => by cases he
          · obtain ⟨l, hl, rfl⟩ := map_inv hc
            refine keptRoot_insert hr h hm fun l' id' d u he hd => ?_
            cases he
            exact ((keepSpec n) d tb' (hdef _ _ _ hd)).1 _ l hl
          · cases hc; exact h
        · cases hc

/-- Applying any diff keeps what `KeptRoot` says. -/
theorem keptRoot_apply (hr : RootTable defs table) {n : Nat} {s w : AMap RootSab} {df : RootDiff (DiffT n)} (h : KeptRoot C defs s)
    (hw : nApplyRoot n table s df = .ok w) : KeptRoot C defs w := by
  unfold nApplyRoot at hw
  obtain ⟨v, h1, h2⟩ := bind_inv hw
  exact keptRoot_lists hr (keptRoot_params hr h h1) h2

end
end Verif.Named
