import Verif.Spec.SessionAlike
import Verif.Lemmas.DiffAlike
import Verif.Lemmas.DiffLooseNamed
/-!
# Versions of objects, by names
-/
namespace Verif.Named
open Diff Core Source LinkedMap

section
variable {defs : AMap (Nat × RootValI)} {table : MetaTable}

/-! ## What stays -/

theorem rowHolds_of : ∀ (n : Nat) {d : LDef} {tb : Tables} {f t : Item}, Tab d tb → LevelOk n tb.1 → ItemFits d f → ItemFits d t →
    ItemStays d f t → RowStays (ObjHolds False n) (rowL n tb f) (rowL n tb t) := by
  intro n
  induction n using Nat.strong_induction_on with
  | _ n ih =>
    intro d tb f t ht hl hf hto hst
    obtain ⟨s1, s2, s3, s4⟩ := hst
    constructor
    · intro i
      show CellStays (ObjHolds False n) (entry (valsL n tb.1 f.values) i) (entry (valsL n tb.1 t.values) i)
      cases hm : metaGet tb.1 i with
      | none => rw [entry_valsL, hm]; trivial
      | some e =>
        obtain ⟨k, m⟩ := e
        rw [entry_vals_of hm, entry_vals_of hm]
        obtain ⟨v, hv⟩ := ht.member hm
        cases hfk : f.values.get k with
        | none => trivial
        | some w =>
          cases v with
          | cilDef d' => rw [ht.cil hv] at hm; cases hm
          | param p vt =>
            obtain ⟨q, rfl⟩ := hf.isParam hv hfk
            cases htk : t.values.get k with
            | none => rw [s1 k (fun _ _ he => by rw [hv] at he; cases he) htk] at hfk; cases hfk
            | some w =>
              obtain ⟨q', rfl⟩ := hto.isParam hv htk
              rw [Option.map_some, Option.map_some, cellL_param, cellL_param]
              exact ⟨_, rfl⟩
          | milDef d' u =>
            obtain ⟨tb', mt, ht', h1, hmt⟩ := ht.mil' hv
            rw [hm] at h1; cases h1
            obtain ⟨n', rfl, hl'⟩ := levelOk_get hl hm hmt
            rcases hf.isMil hv hfk with rfl | ⟨l, ln, rfl, hlf⟩
            · cases htk : t.values.get k with
              | none => rw [s1 k (fun _ _ he => by rw [hv] at he; cases he) htk] at hfk; cases hfk
              | some w =>
                rw [Option.map_some, Option.map_some, cellL_milNone hmt]
                rcases hto.isMil hv htk with rfl | ⟨m', mn', rfl, _⟩
                · rw [cellL_milNone hmt]; exact ⟨_, rfl⟩
                · rw [cellL_mil hmt]; exact ⟨_, rfl⟩
            · obtain ⟨m', mn', htk⟩ := s2 k _ d' u l ln hv hfk
              rcases hto.isMil hv htk with he | ⟨_, _, he, hlt⟩
              · cases he
              · cases he
                rw [htk, Option.map_some, Option.map_some, cellL_mil hmt, cellL_mil hmt]
                refine ⟨_, rfl, ?_⟩
                show ListHolds False (ObjHolds False n') _ _
                refine ⟨False.elim, ?_⟩
                · intro x hx y hy hxy
                  obtain ⟨x', hx', rfl⟩ := List.mem_map.mp hx
                  obtain ⟨y', hy', rfl⟩ := List.mem_map.mp hy
                  exact ih n' (Nat.lt_succ_self _) ht' hl' (hlf.2 x' hx') (hlt.2 y' hy') (s3 _ _ _ _ _ _ _ _ hv hfk htk x' hx' y' hy' hxy)
    · intro i hi
      have hi : entry (refValsL tb.2 t.refs) i = none := hi
      show entry (refValsL tb.2 f.refs) i = none
      rw [entry_refValsL] at hi ⊢
      cases hm : metaGet tb.2 i with
      | none => rfl
      | some e => rw [hm] at hi; exact s4 _ hi

theorem rootHolds_of {n : Nat} (hr : RootTable defs table) (hl : LevelOk n table) {f t : AMap RootSab} (hf : RootFits defs f)
    (ht : RootFits defs t) (hst : RootStaysN defs f t) : RootHolds False n (rootValsL n table f) (rootValsL n table t) := by
  intro i
  cases hm : metaGet table i with
  | none => rw [entry_rootVals, hm]; trivial
  | some e =>
    obtain ⟨k, m⟩ := e
    rw [entry_rootVals_of hm, entry_rootVals_of hm]
    obtain ⟨v, hv⟩ := hr.member hm
    cases v with
    | table d x y => rw [hr.const hv] at hm; cases hm
    | clist d x => rw [hr.const' hv] at hm; cases hm
    | param p vt =>
      cases hfk : f.get k with
      | none => trivial
      | some w =>
        obtain ⟨q, rfl⟩ := hf.isParam hv hfk
        cases htk : t.get k with
        | none => rw [hst.stays k htk] at hfk; cases hfk
        | some w =>
          obtain ⟨q', rfl⟩ := ht.isParam hv htk
          rw [Option.map_some, Option.map_some, embR, embR, cellL_param, cellL_param]
          exact ⟨_, rfl⟩
    | mlist d u =>
      obtain ⟨tb', ht', h1⟩ := hr.mlist hv
      rw [hm] at h1; cases h1
      have hmt := metaTables_if u tb'
      obtain ⟨n', rfl, hl'⟩ := levelOk_get hl hm hmt
      obtain ⟨lf, hfk, _, hlf⟩ := hf.isList hv
      obtain ⟨lt, htk, _, hlt⟩ := ht.isList hv
      rw [hfk, htk, Option.map_some, Option.map_some]
      cases lf with
      | none =>
        rw [show embR (.list none) = .milNone from rfl, cellL_milNone hmt]
        cases lt with
        | none => rw [show embR (.list none) = .milNone from rfl, cellL_milNone hmt]; exact ⟨_, rfl⟩
        | some l => rw [embR, cellL_mil hmt]; exact ⟨_, rfl⟩
      | some lf =>
        obtain ⟨lt', htk', g3⟩ := hst.lists k _ d u lf hv hfk
        rw [htk] at htk'; cases htk'
        rw [embR, embR, cellL_mil hmt, cellL_mil hmt]
        refine ⟨_, rfl, ?_⟩
        show ListHolds False (ObjHolds False n') _ _
        refine ⟨False.elim, ?_⟩
        · intro x hx y hy hxy
          obtain ⟨x', hx', rfl⟩ := List.mem_map.mp hx
          obtain ⟨y', hy', rfl⟩ := List.mem_map.mp hy
          exact rowHolds_of n' ht' hl' ((hlf _ rfl).2 x' hx') ((hlt _ rfl).2 y' hy') (g3 x' hx' y' hy' hxy)

/-! ## The same but for order, next ids and signs of zeros -/

theorem alikeItem_of : ∀ (n : Nat) {d : LDef} {tb : Tables} {a b : Item}, Tab d tb → LevelOk n tb.1 → ItemFits d a → ItemFits d b →
    RowLoose (ObjAlike n) (rowL n tb a) (rowL n tb b) → AlikeItem d a b := by
  intro n
  induction n using Nat.strong_induction_on with
  | _ n ih =>
    intro d tb a b ht hl ha hb hlo
    have hv : ∀ {k id v m}, d.members.get k = some (id, v) → metaGet tb.1 id = some (k, m) →
        CellLoose (ObjAlike n) ((a.values.get k).map (cellL n m)) ((b.values.get k).map (cellL n m)) := by
      intro k id v m hk hm
      rw [← entry_vals_of hm, ← entry_vals_of hm]
      exact hlo.1 id
    have hmil : ∀ {k id d' u}, d.members.get k = some (id, .milDef d' u) → ∀ {l ln m mn}, a.values.get k = some (.mil l ln) →
        b.values.get k = some (.mil m mn) → ∃ tb' n', n = n' + 1 ∧ Tab d' tb' ∧ LevelOk n' tb'.1 ∧
          ListAlike (ObjAlike n') (listL n' tb' ⟨l, ln⟩) (listL n' tb' ⟨m, mn⟩) := by
      intro k id d' u hk l ln m mn hak hbk
      obtain ⟨tb', mt, ht', hm, hmt⟩ := ht.mil' hk
      obtain ⟨n', rfl, hl'⟩ := levelOk_get hl hm hmt
      have h := hv hk hm
      rw [hak, hbk, Option.map_some, Option.map_some, cellL_mil hmt, cellL_mil hmt] at h
      exact ⟨tb', n', rfl, ht', hl', h⟩
    refine .mk ?_ ?_ ?_ ?_ ?_
    · intro k id p vt hk
      have h := hv hk (ht.param hk)
      cases hak : a.values.get k with
      | none =>
        cases hbk : b.values.get k with
        | none => exact .none
        | some w => obtain ⟨q, rfl⟩ := hb.isParam hk hbk; rw [hak, hbk, Option.map_some, cellL_param] at h; exact h.elim
      | some v =>
        obtain ⟨q, rfl⟩ := ha.isParam hk hak
        cases hbk : b.values.get k with
        | none => rw [hak, hbk, Option.map_some, cellL_param] at h; exact h.elim
        | some w =>
          obtain ⟨q', rfl⟩ := hb.isParam hk hbk
          rw [hak, hbk, Option.map_some, Option.map_some, cellL_param, cellL_param] at h
          exact .both h
    · intro k id d' u hk
      obtain ⟨tb', mt, ht', hm, hmt⟩ := ht.mil' hk
      obtain ⟨n', rfl, hl'⟩ := levelOk_get hl hm hmt
      have h := hv hk hm
      cases hak : a.values.get k with
      | none =>
        cases hbk : b.values.get k with
        | none => exact .none
        | some w =>
          rw [hak, hbk] at h
          rcases hb.isMil hk hbk with rfl | ⟨l, ln, rfl, _⟩
          · rw [Option.map_some, cellL_milNone hmt] at h; exact h.elim
          · rw [Option.map_some, cellL_mil hmt] at h; exact h.elim
      | some v =>
        rw [hak, Option.map_some] at h
        cases hbk : b.values.get k with
        | none =>
          rw [hbk] at h
          rcases ha.isMil hk hak with rfl | ⟨l, ln, rfl, _⟩
          · rw [cellL_milNone hmt] at h; exact h.elim
          · rw [cellL_mil hmt] at h; exact h.elim
        | some w =>
          rw [hbk, Option.map_some] at h
          rcases ha.isMil hk hak with rfl | ⟨l, ln, rfl, _⟩
          · rcases hb.isMil hk hbk with rfl | ⟨l, ln, rfl, _⟩
            · exact .undef
            · rw [cellL_milNone hmt, cellL_mil hmt] at h; exact h.elim
          · rcases hb.isMil hk hbk with rfl | ⟨l, ln, rfl, _⟩
            · rw [cellL_milNone hmt, cellL_mil hmt] at h; exact h.elim
            · exact .list _ _ _ _
    · intro k id d' u l ln m mn hk hak hbk
      obtain ⟨tb', n', _, _, _, h1, _⟩ := hmil hk hak hbk
      rw [listL_ids, listL_ids] at h1
      exact h1
    · intro k id d' u l ln m mn hk hak hbk x hx y hy he
      obtain ⟨tb', n', rfl, ht', hl', _, h3⟩ := hmil hk hak hbk
      rcases ha.isMil hk hak with hc | ⟨_, _, hc, hlf⟩ <;> cases hc
      rcases hb.isMil hk hbk with hc | ⟨_, _, hc, hlt⟩ <;> cases hc
      exact ih n' (Nat.lt_succ_self _) ht' hl' (hlf.2 x hx) (hlt.2 y hy)
        (h3 (x.1, rowL n' tb' x.2) (List.mem_map.mpr ⟨x, hx, rfl⟩) (y.1, rowL n' tb' y.2) (List.mem_map.mpr ⟨y, hy, rfl⟩) he)
    · intro k x hk
      obtain ⟨id, q, vt⟩ := x
      have hm := ht.refPlace hk
      have h : entry (refValsL tb.2 a.refs) id = entry (refValsL tb.2 b.refs) id := hlo.2 id
      rw [entry_refValsL, entry_refValsL, hm] at h
      exact h

theorem alikeRoot_of {n : Nat} (hr : RootTable defs table) (hl : LevelOk n table) {a b : AMap RootSab} (ha : RootFits defs a)
    (hb : RootFits defs b) (hlo : RootAlike n (rootValsL n table a) (rootValsL n table b)) : AlikeRoot defs a b := by
  have hv : ∀ {k id v m}, defs.get k = some (id, v) → metaGet table id = some (k, m) →
      CellLoose (ObjAlike n) ((a.get k).map fun v => cellL n m (embR v)) ((b.get k).map fun v => cellL n m (embR v)) := by
    intro k id v m hk hm
    rw [← entry_rootVals_of hm, ← entry_rootVals_of hm]
    exact hlo id
  have hlist : ∀ {k id d u}, defs.get k = some (id, .mlist d u) → ∃ l m, a.get k = some (.list l) ∧ b.get k = some (.list m) ∧
      ((l = none ∧ m = none) ∨ ∃ x y, l = some x ∧ m = some y ∧ (x.1.map (·.1)).Perm (y.1.map (·.1)) ∧
        ∀ e ∈ x.1, ∀ e' ∈ y.1, e.1 = e'.1 → AlikeItem d e.2 e'.2) := by
    intro k id d u hk
    obtain ⟨tb', ht', hm⟩ := hr.mlist hk
    have hmt := metaTables_if u tb'
    obtain ⟨n', rfl, hl'⟩ := levelOk_get hl hm hmt
    have h := hv hk hm
    obtain ⟨l, hal, _, hlf⟩ := ha.isList hk
    obtain ⟨m, hbl, _, hlt⟩ := hb.isList hk
    refine ⟨l, m, hal, hbl, ?_⟩
    rw [hal, hbl, Option.map_some, Option.map_some] at h
    cases l with
    | none =>
      cases m with
      | none => exact .inl ⟨rfl, rfl⟩
      | some m => rw [embR, embR, cellL_mil hmt, cellL_milNone hmt] at h; exact h.elim
    | some l =>
      cases m with
      | none => rw [embR, embR, cellL_mil hmt, cellL_milNone hmt] at h; exact h.elim
      | some m =>
        rw [embR, embR, cellL_mil hmt, cellL_mil hmt] at h
        obtain ⟨h1, h3⟩ : ListAlike (ObjAlike n') (listL n' tb' ⟨l.1, l.2⟩) (listL n' tb' ⟨m.1, m.2⟩) := h
        rw [listL_ids, listL_ids] at h1
        refine .inr ⟨l, m, rfl, rfl, h1, fun x hx y hy he => ?_⟩
        exact alikeItem_of n' ht' hl' ((hlf _ rfl).2 x hx) ((hlt _ rfl).2 y hy)
          (h3 (x.1, rowL n' tb' x.2) (List.mem_map.mpr ⟨x, hx, rfl⟩) (y.1, rowL n' tb' y.2) (List.mem_map.mpr ⟨y, hy, rfl⟩) he)
  refine ⟨?_, ?_, ?_, ?_⟩
  · intro k id p vt hk
    have h := hv hk (hr.param hk)
    cases hak : a.get k with
    | none =>
      cases hbk : b.get k with
      | none => exact .none
      | some w => obtain ⟨q, rfl⟩ := hb.isParam hk hbk; rw [hak, hbk, Option.map_some, embR, cellL_param] at h; exact h.elim
    | some v =>
      obtain ⟨q, rfl⟩ := ha.isParam hk hak
      cases hbk : b.get k with
      | none => rw [hak, hbk, Option.map_some, embR, cellL_param] at h; exact h.elim
      | some w =>
        obtain ⟨q', rfl⟩ := hb.isParam hk hbk
        rw [hak, hbk, Option.map_some, Option.map_some, embR, embR, cellL_param, cellL_param] at h
        exact .both h
  · intro k id d u hk
    obtain ⟨l, m, h1, h2, h3⟩ := hlist hk
    rw [h1, h2]
    rcases h3 with ⟨rfl, rfl⟩ | ⟨x, y, rfl, rfl, _⟩
    · simp
    · simp
  · intro k id d u l hk hak
    obtain ⟨l', m, h1, h2, h3⟩ := hlist hk
    rw [hak] at h1; cases h1
    rcases h3 with ⟨h, _⟩ | ⟨x, y, h, rfl, h4⟩
    · cases h
    · cases h; exact ⟨y, h2, h4⟩
  · intro k id d u m hk hbk
    obtain ⟨l, m', h1, h2, h3⟩ := hlist hk
    rw [hbk] at h2; cases h2
    rcases h3 with ⟨_, h⟩ | ⟨x, y, rfl, h, _⟩
    · cases h
    · exact ⟨x, h1⟩

end
end Verif.Named
