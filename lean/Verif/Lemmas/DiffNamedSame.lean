import Verif.Lemmas.DiffNamedRoot
/-! # Objects that are the same by name are the same by id; levels; what is not in the table -/
namespace Verif.Named
open Diff Core Source LinkedMap

theorem rowL_of_same : ∀ (n : Nat) {d : LDef} {tb : Tables} {a b : Item}, Tab d tb → LevelOk n tb.1 → ItemFits d a → ItemFits d b →
    SameItem d a b → rowL n tb a = rowL n tb b := by
  intro n
  induction n using Nat.strong_induction_on with
  | _ n ih =>
    intro d tb a b ht hl ha hb hs
    obtain ⟨s1, s2, s3, s4, s5⟩ := hs
    have hvals : valsL n tb.1 a.values = valsL n tb.1 b.values := by
      refine entry_ext (by rw [valsL_length, valsL_length]) fun i => ?_
      cases hm : metaGet tb.1 i with
      | none => rw [entry_valsL, entry_valsL, hm]; rfl
      | some e =>
        obtain ⟨k, m⟩ := e
        rw [entry_vals_of hm, entry_vals_of hm]
        obtain ⟨v, hv⟩ := ht.member hm
        cases v with
        | param p vt => rw [s1 _ _ _ _ hv]
        | cilDef d' => rw [ht.cil hv] at hm; cases hm
        | milDef d' u =>
          obtain ⟨tb', mt, ht', h1, hmt⟩ := ht.mil' hv
          rw [hm] at h1; cases h1
          obtain ⟨n', rfl, hl'⟩ := levelOk_get hl hm hmt
          have hp := s2 _ _ _ _ hv
          cases hak : a.values.get k with
          | none =>
            rw [hak] at hp
            cases hbk : b.values.get k with
            | none => rfl
            | some w => rw [hbk] at hp; cases hp
          | some v =>
            cases hbk : b.values.get k with
            | none => rw [hak, hbk] at hp; cases hp
            | some w =>
              rw [hak, hbk] at hp
              cases hp with
              | undef => rfl
              | list l ln m mn =>
                rw [Option.map_some, Option.map_some, cellL_mil hmt, cellL_mil hmt]
                obtain ⟨h2, h3⟩ := s3 _ _ _ _ _ _ _ _ hv hak hbk
                subst h2
                have h4 := s4 _ _ _ _ _ _ _ _ hv hak hbk
                obtain ⟨_, _, _, h5, h6⟩ := ha.mil hak
                rw [hv] at h5; cases h5
                obtain ⟨_, _, _, h5, h7⟩ := hb.mil hbk
                rw [hv] at h5; cases h5
                have : l.map (fun e => (e.1, rowL n' tb' e.2)) = m.map (fun e => (e.1, rowL n' tb' e.2)) := by
                  apply List.ext_getElem?
                  intro i
                  rw [List.getElem?_map, List.getElem?_map]
                  have h8 : (l.map (·.1))[i]? = (m.map (·.1))[i]? := by rw [h3]
                  rw [List.getElem?_map, List.getElem?_map] at h8
                  cases hx : l[i]? with
                  | none =>
                    cases hy : m[i]? with
                    | none => rfl
                    | some y => rw [hx, hy] at h8; cases h8
                  | some x =>
                    cases hy : m[i]? with
                    | none => rw [hx, hy] at h8; cases h8
                    | some y =>
                      rw [hx, hy, Option.map_some, Option.map_some] at h8
                      rw [Option.map_some, Option.map_some]
                      have h9 : x.1 = y.1 := by injection h8
                      rw [h9, ih n' (Nat.lt_succ_self _) ht' hl' (h6.2 x (List.mem_of_getElem? hx)) (h7.2 y (List.mem_of_getElem? hy))
                        (h4 i x y hx hy)]
                unfold listL
                simp only [this]
    have hrefs : refValsL tb.2 a.refs = refValsL tb.2 b.refs := by
      refine entry_ext (by rw [refValsL_length, refValsL_length]) fun i => ?_
      rw [entry_refValsL, entry_refValsL]
      cases hm : metaGet tb.2 i with
      | none => rfl
      | some e =>
        obtain ⟨k, m⟩ := e
        obtain ⟨q, vt, h1, _⟩ := ht.refMember hm
        exact s5 _ _ h1
    unfold rowL
    rw [hvals, hrefs]

theorem listL_of_same {n : Nat} {d : LDef} {tb : Tables} {l m : List (Nat × Item)} (ht : Tab d tb) (hl : LevelOk n tb.1)
    (ha : ∀ e ∈ l, ItemFits d e.2) (hb : ∀ e ∈ m, ItemFits d e.2) (hs : SameItems d l m) (next : Nat) :
    listL n tb ⟨l, next⟩ = listL n tb ⟨m, next⟩ := by
  have : l.map (fun e => (e.1, rowL n tb e.2)) = m.map (fun e => (e.1, rowL n tb e.2)) := by
    apply List.ext_getElem?
    intro i
    rw [List.getElem?_map, List.getElem?_map]
    have h8 : (l.map (·.1))[i]? = (m.map (·.1))[i]? := by rw [hs.1]
    rw [List.getElem?_map, List.getElem?_map] at h8
    cases hx : l[i]? with
    | none =>
      cases hy : m[i]? with
      | none => rfl
      | some y => rw [hx, hy] at h8; cases h8
    | some x =>
      cases hy : m[i]? with
      | none => rw [hx, hy] at h8; cases h8
      | some y =>
        rw [hx, hy, Option.map_some, Option.map_some] at h8
        rw [Option.map_some, Option.map_some]
        have h9 : x.1 = y.1 := by injection h8
        rw [h9, rowL_of_same n ht hl (ha x (List.mem_of_getElem? hx)) (hb y (List.mem_of_getElem? hy)) (hs.2 i x y hx hy)]
  unfold listL
  simp only [this]

theorem rootValsL_of_same {defs : AMap (Nat × RootValI)} {table : MetaTable} {n : Nat} (hr : RootTable defs table) (hl : LevelOk n table)
    {a b : AMap RootSab} (ha : RootFits defs a) (hb : RootFits defs b) (hs : SameRoot defs a b) : rootValsL n table a = rootValsL n table b := by
  refine entry_ext (by rw [rootValsL_length, rootValsL_length]) fun i => ?_
  cases hm : metaGet table i with
  | none => rw [entry_rootVals, entry_rootVals, hm]; rfl
  | some e =>
    obtain ⟨k, m⟩ := e
    rw [entry_rootVals_of hm, entry_rootVals_of hm]
    obtain ⟨v, hv⟩ := hr.member hm
    cases v with
    | param p vt => rw [hs.params _ _ _ _ hv]
    | table d x y => rw [hr.const hv] at hm; cases hm
    | clist d x => rw [hr.const' hv] at hm; cases hm
    | mlist d u =>
      obtain ⟨tb', ht', h1⟩ := hr.mlist hv
      rw [hm] at h1; cases h1
      have hmt := metaTables_if u tb'
      obtain ⟨n', rfl, hl'⟩ := levelOk_get hl hm hmt
      obtain ⟨l, hak, _⟩ := ha.there _ _ _ _ hv
      obtain ⟨l', hbk, _⟩ := hb.there _ _ _ _ hv
      cases l with
      | none =>
        have := (hs.undef _ _ _ _ hv).mp hak
        rw [hak, this]
      | some l =>
        obtain ⟨m, h1, h2, h3⟩ := hs.lists _ _ _ _ _ hv hak
        rw [hak, h1, Option.map_some, Option.map_some, embR, embR, cellL_mil hmt, cellL_mil hmt, h2]
        obtain ⟨_, _, _, h5, _, h6⟩ := ha.list' hak
        rw [hv] at h5; cases h5
        obtain ⟨_, _, _, h5, _, h7⟩ := hb.list' h1
        rw [hv] at h5; cases h5
        rw [listL_of_same ht' hl' (h6 _ rfl).2 (h7 _ rfl).2 h3]

/-! ## Levels -/

theorem levelOk_succ : ∀ {n : Nat} {t : MetaTable}, LevelOk n t → LevelOk (n + 1) t
  | 0, t, h => by
    show ∀ k m, some (k, m) ∈ t → ∀ tb, metaTables m = some tb → LevelOk 0 tb.1
    intro k m hm tb ht
    rw [LevelOk] at h
    rw [h k m hm] at ht; cases ht
  | n + 1, t, h => by
    show ∀ k m, some (k, m) ∈ t → ∀ tb, metaTables m = some tb → LevelOk (n + 1) tb.1
    intro k m hm tb ht
    rw [LevelOk] at h
    exact levelOk_succ (h k m hm tb ht)

theorem levelOk_mono {n m : Nat} {t : MetaTable} (h : LevelOk n t) (hm : n ≤ m) : LevelOk m t := by
  induction m with
  | zero => cases Nat.le_zero.mp hm; exact h
  | succ m ih =>
    rcases Nat.lt_or_ge n (m + 1) with hlt | hge
    · exact levelOk_succ (ih (Nat.le_of_lt_succ hlt))
    · cases Nat.le_antisymm hm hge; exact h

theorem levelOk_cons {n : Nat} {t : MetaTable} {x : Option (String × Meta)} (h : LevelOk n t)
    (hx : ∀ k m tb, x = some (k, m) → metaTables m = some tb → ∃ n', n = n' + 1 ∧ LevelOk n' tb.1) : LevelOk n (x :: t) := by
  cases n with
  | zero =>
    rw [LevelOk] at h ⊢
    intro k m hm
    rcases List.mem_cons.mp hm with hm | hm
    · cases hmt : metaTables m with
      | none => rfl
      | some tb => obtain ⟨n', hn, _⟩ := hx k m tb hm.symm hmt; cases hn
    · exact h k m hm
  | succ n =>
    rw [LevelOk] at h ⊢
    intro k m hm tb hmt
    rcases List.mem_cons.mp hm with hm | hm
    · obtain ⟨n', hn, h'⟩ := hx k m tb hm.symm hmt; cases hn; exact h'
    · exact h k m hm tb hmt

theorem levelOk_nil (n : Nat) : LevelOk n [] := by
  cases n <;> (rw [LevelOk]; intro k m hm; cases hm)

/-- Every table has a level. -/
theorem levelOk_exists : ∀ t : MetaTable, ∃ n, LevelOk n t
  | [] => ⟨0, levelOk_nil 0⟩
  | none :: r => by
    obtain ⟨n, h⟩ := levelOk_exists r
    exact ⟨n, levelOk_cons h fun _ _ _ hx => by cases hx⟩
  | some (k, .param pt vt) :: r => by
    obtain ⟨n, h⟩ := levelOk_exists r
    exact ⟨n, levelOk_cons h fun _ _ _ hx ht => by cases hx; cases ht⟩
  | some (k, .mlist i rs) :: r => by
    obtain ⟨n, h⟩ := levelOk_exists r
    obtain ⟨n', h'⟩ := levelOk_exists i
    refine ⟨max n (n' + 1), levelOk_cons (levelOk_mono h (Nat.le_max_left _ _)) fun _ _ _ hx ht => ?_⟩
    cases hx; cases ht
    refine ⟨max n (n' + 1) - 1, by omega, levelOk_mono h' (by omega)⟩
  | some (k, .optMil i rs) :: r => by
    obtain ⟨n, h⟩ := levelOk_exists r
    obtain ⟨n', h'⟩ := levelOk_exists i
    refine ⟨max n (n' + 1), levelOk_cons (levelOk_mono h (Nat.le_max_left _ _)) fun _ _ _ hx ht => ?_⟩
    cases hx; cases ht
    refine ⟨max n (n' + 1) - 1, by omega, levelOk_mono h' (by omega)⟩

/-! ## What is not in the table -/

theorem nRootParams_frame {table : MetaTable} {k : String} (hk : ∀ i m, metaGet table i ≠ some (k, m)) : ∀ {ps : List (Nat × Param)}
    {v w : AMap RootSab}, nRootParams table ps v = .ok w → w.get k = v.get k
  | [], v, w, h => by cases h; rfl
  | (id, p) :: ps, v, w, h => by
    rw [nRootParams] at h
    cases hm : metaGet table id with
    | none => rw [hm] at h; cases h
    | some e =>
      obtain ⟨k', m⟩ := e
      rw [hm] at h
      rw [nRootParams_frame hk h]
      refine AMap.get_insert_ne _ _ ?_
      rintro rfl
      exact hk _ _ hm

theorem nRootLists_frame {D : Type} {ad : Tables → NList → D → Res NList} {dn : Tables → D → Res NList} {table : MetaTable} {k : String}
    (hk : ∀ i m, metaGet table i ≠ some (k, m)) : ∀ {ls : List (Nat × Option D)}
    {v w : AMap RootSab}, nRootLists ad dn table ls v = .ok w → w.get k = v.get k
  | [], v, w, h => by cases h; rfl
  | (id, p) :: ls, v, w, h => by
    rw [nRootLists] at h
    cases hm : metaGet table id with
    | none => rw [hm] at h; cases h
    | some e =>
      obtain ⟨k', m⟩ := e
      rw [hm] at h
      simp only at h
      cases hmt : metaTables m with
      | none => rw [hmt] at h; cases h
      | some tb =>
        rw [hmt] at h
        obtain ⟨c, _, h⟩ := Res.bind_eq_ok.mp h
        rw [nRootLists_frame hk h]
        cases c with
        | none => rfl
        | some c =>
          refine AMap.get_insert_ne _ _ ?_
          rintro rfl
          exact hk _ _ hm

end Verif.Named
