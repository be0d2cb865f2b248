import Verif.Lemmas.Source
/-! # Lemmas about meta tables -/
namespace Verif.Source
open Diff Core

theorem fill_spec : ∀ (l : List (String × Nat × Option Meta)) (v : MetaTable), (l.map (·.2.1)).Nodup → (∀ e ∈ l, e.2.1 < v.length) →
    ∃ v', fill l v = .ok v' ∧ v'.length = v.length ∧ (∀ k id m, (k, id, some m) ∈ l → v'[id]? = some (some (k, m))) ∧
      ∀ id, (∀ e ∈ l, e.2.1 = id → e.2.2 = none) → v'[id]? = v[id]?
  | [], v, _, _ => ⟨v, rfl, rfl, (fun _ _ _ h => (nomatch h)), fun _ _ => rfl⟩
  | (k, id, none) :: r, v, hn, hl => by
    rw [List.map_cons, List.nodup_cons] at hn
    obtain ⟨v', h1, h2, h3, h4⟩ := fill_spec r v hn.2 fun e he => hl e (List.mem_cons_of_mem _ he)
    refine ⟨v', h1, h2, fun k' id' m' hm => ?_, fun id' h => h4 id' fun e he => h e (List.mem_cons_of_mem _ he)⟩
    rcases List.mem_cons.1 hm with hm | hm
    · cases hm
    · exact h3 _ _ _ hm
  | (k, id, some m) :: r, v, hn, hl => by
    rw [List.map_cons, List.nodup_cons] at hn
    have hid : id < v.length := hl _ List.mem_cons_self
    obtain ⟨v', h1, h2, h3, h4⟩ := fill_spec r (v.set id (some (k, m))) hn.2 fun e he => by
      rw [List.length_set]; exact hl e (List.mem_cons_of_mem _ he)
    refine ⟨v', ?_, by rw [h2, List.length_set], fun k' id' m' hm => ?_, fun id' h => ?_⟩
    · simp only [fill, setAt, if_pos hid, Res.bind_ok]; exact h1
    · rcases List.mem_cons.1 hm with hm | hm
      · simp only [Prod.mk.injEq, Option.some.injEq] at hm
        obtain ⟨rfl, rfl, rfl⟩ := hm
        rw [h4 id' fun e he h => absurd (List.mem_map.2 ⟨e, he, h⟩) hn.1]
        simp [hid]
      · exact h3 _ _ _ hm
    · have hne : id ≠ id' := fun h' => by
        have := h _ List.mem_cons_self h'
        cases this
      rw [h4 id' fun e he => h e (List.mem_cons_of_mem _ he)]
      rw [List.getElem?_set_ne hne]

theorem fill_ok : ∀ (l : List (String × Nat × Option Meta)) (v : MetaTable), (∀ e ∈ l, e.2.2 = none ∨ e.2.1 < v.length) →
    ∃ v', fill l v = .ok v' ∧ v'.length = v.length
  | [], v, _ => ⟨v, rfl, rfl⟩
  | (k, id, none) :: r, v, hl => fill_ok r v fun e he => hl e (List.mem_cons_of_mem _ he)
  | (k, id, some m) :: r, v, hl => by
    have hid : id < v.length := (hl _ List.mem_cons_self).resolve_left (by simp)
    obtain ⟨v', h1, h2⟩ := fill_ok r (v.set id (some (k, m))) fun e he => by
      rw [List.length_set]; exact hl e (List.mem_cons_of_mem _ he)
    refine ⟨v', ?_, by rw [h2, List.length_set]⟩
    simp only [fill, setAt, if_pos hid, Res.bind_ok]; exact h1

theorem fill_panic : ∀ (l : List (String × Nat × Option Meta)) (v : MetaTable), (∃ k id m, (k, id, some m) ∈ l ∧ v.length ≤ id) →
    fill l v = .panic
  | [], v, h => by obtain ⟨_, _, _, h, _⟩ := h; cases h
  | (k, id, none) :: r, v, h => by
    obtain ⟨k', id', m', hm, hl⟩ := h
    rcases List.mem_cons.1 hm with hm | hm
    · cases hm
    · exact fill_panic r v ⟨k', id', m', hm, hl⟩
  | (k, id, some m) :: r, v, h => by
    by_cases hid : id < v.length
    · simp only [fill, setAt, if_pos hid, Res.bind_ok]
      obtain ⟨k', id', m', hm, hl⟩ := h
      rcases List.mem_cons.1 hm with hm | hm
      · cases hm; omega
      · exact fill_panic r _ ⟨k', id', m', hm, by rwa [List.length_set]⟩
    · simp only [fill, setAt, if_neg hid, Res.bind_panic]

theorem initVec_length (n : Nat) : (initVec n).length = n := List.length_replicate

theorem initVec_get {n id : Nat} (h : id < n) : (initVec n)[id]? = some none := by
  simp [initVec, h]

theorem idsFill_nodup {ids : List Nat} (h : IdsFill ids) : ids.Nodup := h.nodup_iff.2 List.nodup_range

theorem idsFill_lt {ids : List Nat} (h : IdsFill ids) {i : Nat} (hi : i ∈ ids) : i < ids.length :=
  List.mem_range.1 (h.mem_iff.1 hi)

theorem metaRefs_spec (env : Env) (he : env.Sound) (d : RefDefI) (hd : IdsFill (d.refs.map (·.2.1))) :
    ∃ t, metaRefs env d = .ok t ∧ RefsIn d.refs t := by
  let l : AMap (Nat × Option Meta) := d.refs.map fun e => (e.1, e.2.1, some (Meta.param .string e.2.2.2))
  have hp : (env.order l).Perm l := he l
  have hids : l.map (·.2.1) = d.refs.map (·.2.1) := by simp [l, Function.comp_def]
  obtain ⟨t, h1, h2, h3, _⟩ := fill_spec (env.order l) (initVec d.refs.length)
    ((hp.map _).nodup_iff.2 (by rw [hids]; exact idsFill_nodup hd))
    (fun e he' => by
      rw [initVec_length]
      have : e.2.1 ∈ d.refs.map (·.2.1) := hids ▸ List.mem_map_of_mem (hp.mem_iff.1 he')
      simpa using idsFill_lt hd this)
  refine ⟨t, h1, by rw [h2, initVec_length], fun k id q vt hk => h3 k id _ (hp.mem_iff.2 ?_)⟩
  exact List.mem_map.2 ⟨_, hk, rfl⟩

/-- the values that belong to members, in order -/
def MetaVals {V : Type} (f : V → Res (Option Meta)) : List (String × Nat × V) → List (String × Nat × Option Meta) → Prop :=
  List.Forall₂ fun e e' => e'.1 = e.1 ∧ e'.2.1 = e.2.1 ∧ f e.2.2 = .ok e'.2.2

theorem metaMembers_spec (env : Env) : ∀ l : List (String × Nat × LDefVal), (∀ e ∈ l, ∃ m, metaDefVal env e.2.2 = .ok m) →
    ∃ l', metaMembers env l = .ok l' ∧ MetaVals (metaDefVal env) l l'
  | [], _ => ⟨[], by simp only [metaMembers], .nil⟩
  | (k, id, v) :: r, h => by
    obtain ⟨m, hm⟩ := h _ List.mem_cons_self
    obtain ⟨l', h1, h2⟩ := metaMembers_spec env r fun e he => h e (List.mem_cons_of_mem _ he)
    exact ⟨(k, id, m) :: l', by simp only [metaMembers, hm, h1, Res.bind_ok, Res.map_ok], .cons ⟨rfl, rfl, hm⟩ h2⟩

theorem metaRootVals_spec (env : Env) : ∀ l : AMap (Nat × RootValI), (∀ e ∈ l, ∃ m, metaRootVal env e.2.2 = .ok m) →
    ∃ l', metaRootVals env l = .ok l' ∧ MetaVals (metaRootVal env) l l'
  | [], _ => ⟨[], by simp only [metaRootVals], .nil⟩
  | (k, id, v) :: r, h => by
    obtain ⟨m, hm⟩ := h _ List.mem_cons_self
    obtain ⟨l', h1, h2⟩ := metaRootVals_spec env r fun e he => h e (List.mem_cons_of_mem _ he)
    exact ⟨(k, id, m) :: l', by simp only [metaRootVals, hm, h1, Res.bind_ok, Res.map_ok], .cons ⟨rfl, rfl, hm⟩ h2⟩

theorem metaVals_ids {V : Type} {f : V → Res (Option Meta)} {l : List (String × Nat × V)} {l' : List (String × Nat × Option Meta)}
    (h : MetaVals f l l') : l'.map (·.2.1) = l.map (·.2.1) := by
  induction h with
  | nil => rfl
  | cons h _ ih => rw [List.map_cons, List.map_cons, ih, h.2.1]

theorem metaVals_mem {V : Type} {f : V → Res (Option Meta)} {l : List (String × Nat × V)} {l' : List (String × Nat × Option Meta)}
    (h : MetaVals f l l') {k : String} {id : Nat} {v : V} (hm : (k, id, v) ∈ l) : ∃ m, f v = .ok m ∧ (k, id, m) ∈ l' := by
  induction h with
  | nil => cases hm
  | @cons e e' _ _ h _ ih =>
    rcases List.mem_cons.1 hm with hm | hm
    · subst hm
      obtain ⟨h1, h2, h3⟩ := h
      obtain ⟨a, b, c⟩ := e'
      exact ⟨c, h3, by simp only at h1 h2; subst h1; subst h2; exact List.mem_cons_self⟩
    · obtain ⟨m, h1, h2⟩ := ih hm
      exact ⟨m, h1, List.mem_cons_of_mem _ h2⟩

theorem metaVals_mem' {V : Type} {f : V → Res (Option Meta)} {l : List (String × Nat × V)} {l' : List (String × Nat × Option Meta)}
    (h : MetaVals f l l') {e : String × Nat × Option Meta} (hm : e ∈ l') : ∃ v, f v = .ok e.2.2 ∧ (e.1, e.2.1, v) ∈ l := by
  induction h with
  | nil => cases hm
  | @cons x e' _ _ h _ ih =>
    rcases List.mem_cons.1 hm with hm | hm
    · subst hm
      exact ⟨x.2.2, h.2.2, by rw [h.1, h.2.1]; exact List.mem_cons_self⟩
    · obtain ⟨m, h1, h2⟩ := ih hm
      exact ⟨m, h1, List.mem_cons_of_mem _ h2⟩

/-- A table filled with the values of members that have ids without gaps has each at its place. -/
theorem fill_members {V : Type} (env : Env) (he : env.Sound) (f : V → Res (Option Meta)) {l : List (String × Nat × V)}
    {l' : List (String × Nat × Option Meta)} (h : MetaVals f l l') (hids : (l.map (·.2.1)).Nodup) (hlt : ∀ e ∈ l, e.2.1 < l.length) :
    ∃ t, fill (env.order l') (initVec l.length) = .ok t ∧ t.length = l.length ∧
      ∀ k id v, (k, id, v) ∈ l → ∃ m, f v = .ok m ∧ t[id]? = some (m.map (k, ·)) := by
  have hp : (env.order l').Perm l' := he l'
  have hn' : (l'.map (·.2.1)).Nodup := by rw [metaVals_ids h]; exact hids
  obtain ⟨t, h1, h2, h3, h4⟩ := fill_spec (env.order l') (initVec l.length) ((hp.map _).nodup_iff.2 hn') (fun e he' => by
    rw [initVec_length]
    obtain ⟨v, _, hv⟩ := metaVals_mem' h (hp.mem_iff.1 he')
    exact hlt _ hv)
  refine ⟨t, h1, by rw [h2, initVec_length], fun k id v hv => ?_⟩
  obtain ⟨m, hm, hm'⟩ := metaVals_mem h hv
  refine ⟨m, hm, ?_⟩
  cases m with
  | some m => exact h3 _ _ _ (hp.mem_iff.2 hm')
  | none =>
    rw [h4 id, initVec_get (hlt _ hv)]
    · rfl
    · intro e he' hid
      have he'' := hp.mem_iff.1 he'
      have := List.inj_on_of_nodup_map hn' he'' hm' hid
      rw [this]

theorem membersIn_of : ∀ (l : List (String × Nat × LDefVal)) (t : MetaTable), (∀ k id v, (k, id, v) ∈ l → PlaceOf k v (t[id]?)) →
    MembersIn l t
  | [], _, _ => by simp only [MembersIn]
  | (k, id, v) :: r, t, h => by
    simp only [MembersIn]
    exact ⟨h k id v List.mem_cons_self, membersIn_of r t fun k id v hv => h k id v (List.mem_cons_of_mem _ hv)⟩

theorem metaList_spec (env : Env) (he : env.Sound) {d : LDef} (hd : Numbered d) : ∃ t, metaList env d = .ok t ∧ TableOf d t := by
  induction hd with
  | @mk members refs old hn hids hrn hrids hc hm ihc ihm =>
    have hval : ∀ e ∈ members, ∃ m, metaDefVal env e.2.2 = .ok m := by
      rintro ⟨k, id, v⟩ hv
      cases v with
      | param p vt => exact ⟨_, by simp only [metaDefVal]; rfl⟩
      | cilDef d => exact ⟨_, by simp only [metaDefVal]; rfl⟩
      | milDef d u =>
        obtain ⟨t, ht, _⟩ := ihm k id d u hv
        have hd := hm k id d u hv
        obtain ⟨m, rs, o⟩ := d
        cases hd with
        | mk _ _ _ h4 _ _ =>
          obtain ⟨tr, htr, _⟩ := metaRefs_spec env he rs h4
          exact ⟨_, by simp only [metaDefVal, ht, htr, Res.bind_ok, Res.map_ok]; rfl⟩
    obtain ⟨l', h1, h2⟩ := metaMembers_spec env members hval
    obtain ⟨t, h3, h4, h5⟩ := fill_members env he _ h2 (idsFill_nodup hids) (fun e hv => by
      have : e.2.1 ∈ members.map (·.2.1) := List.mem_map_of_mem hv
      simpa using idsFill_lt hids this)
    refine ⟨t, by simp only [metaList, h1, Res.bind_ok]; exact h3, ?_⟩
    simp only [TableOf]
    refine ⟨h4, membersIn_of _ _ fun k id v hv => ?_⟩
    obtain ⟨m, hm1, hm2⟩ := h5 k id v hv
    rw [hm2]
    cases v with
    | param p vt => simp only [metaDefVal, Res.ok.injEq] at hm1; subst hm1; simp [PlaceOf]
    | cilDef d => simp only [metaDefVal, Res.ok.injEq] at hm1; subst hm1; simp [PlaceOf]
    | milDef d u =>
      obtain ⟨ti, hti, hti'⟩ := ihm k id d u hv
      have hd := hm k id d u hv
      obtain ⟨ms, rs, o⟩ := d
      cases hd with
      | mk _ _ _ h4 _ _ =>
        obtain ⟨tr, htr, htr'⟩ := metaRefs_spec env he rs h4
        simp only [metaDefVal, hti, htr, Res.bind_ok, Res.map_ok, Res.ok.injEq] at hm1
        subst hm1
        simp only [PlaceOf]
        exact ⟨ti, tr, hti', htr', by simp⟩

/-- The definition of a member of the root is numbered. -/
def RootValI.Good (y : RootValI) : Prop := ∀ d, y.ldef = some d → Numbered d

theorem metaRootVal_ok (env : Env) (he : env.Sound) {y : RootValI} (hy : y.Good) : ∃ m, metaRootVal env y = .ok m := by
  cases y with
  | param p vt => exact ⟨_, rfl⟩
  | table d l o => exact ⟨_, rfl⟩
  | clist d l => exact ⟨_, rfl⟩
  | mlist d u =>
    obtain ⟨t, ht, _⟩ := metaList_spec env he (hy d rfl)
    obtain ⟨ms, rs, o⟩ := d
    cases hy _ rfl with
    | mk _ _ _ h4 _ _ =>
      obtain ⟨tr, htr, _⟩ := metaRefs_spec env he rs h4
      exact ⟨_, by simp only [metaRootVal, ht, LDef.refs, htr, Res.bind_ok, Res.map_ok]; rfl⟩

theorem metaRootVal_place (env : Env) (he : env.Sound) {y : RootValI} (hy : y.Good) {m : Option Meta} (hm : metaRootVal env y = .ok m)
    (k : String) : RootPlace k y (some (m.map (k, ·))) := by
  cases y with
  | param p vt => simp only [metaRootVal, Res.ok.injEq] at hm; subst hm; rfl
  | table d l o => simp only [metaRootVal, Res.ok.injEq] at hm; subst hm; rfl
  | clist d l => simp only [metaRootVal, Res.ok.injEq] at hm; subst hm; rfl
  | mlist d u =>
    obtain ⟨t, ht, ht'⟩ := metaList_spec env he (hy d rfl)
    obtain ⟨ms, rs, o⟩ := d
    cases hy _ rfl with
    | mk _ _ _ h4 _ _ =>
      obtain ⟨tr, htr, htr'⟩ := metaRefs_spec env he rs h4
      simp only [metaRootVal, ht, LDef.refs, htr, Res.bind_ok, Res.map_ok, Res.ok.injEq] at hm
      subst hm
      exact ⟨t, tr, ht', htr', rfl⟩

/-- The table of the root, if the ids are distinct and smaller than the number of members. -/
theorem metaRoot_spec (env : Env) (he : env.Sound) {defs : AMap (Nat × RootValI)} (hg : ∀ e ∈ defs, e.2.2.Good)
    (hids : (defs.map (·.2.1)).Nodup) (hlt : ∀ e ∈ defs, e.2.1 < defs.length) :
    ∃ t, metaRoot env defs = .ok t ∧ t.length = defs.length ∧ ∀ k id y, (k, id, y) ∈ defs → RootPlace k y (t[id]?) := by
  obtain ⟨l', h1, h2⟩ := metaRootVals_spec env defs fun e hv => metaRootVal_ok env he (hg e hv)
  obtain ⟨t, h3, h4, h5⟩ := fill_members env he _ h2 hids hlt
  refine ⟨t, by simp only [metaRoot, h1, Res.bind_ok]; exact h3, h4, fun k id y hy => ?_⟩
  obtain ⟨m, hm, ht⟩ := h5 k id y hy
  rw [ht]
  exact metaRootVal_place env he (hg _ hy) hm k

/-- It is made exactly if all ids of members that have a place in it are smaller than the number of members, else there is a panic. -/
theorem metaRoot_ok (env : Env) (he : env.Sound) {defs : AMap (Nat × RootValI)} (hg : ∀ e ∈ defs, e.2.2.Good)
    (hlt : ∀ k id y, (k, id, y) ∈ defs → metaRootVal env y = .ok none ∨ id < defs.length) : ∃ t, metaRoot env defs = .ok t ∧ t.length = defs.length := by
  obtain ⟨l', h1, h2⟩ := metaRootVals_spec env defs fun e hv => metaRootVal_ok env he (hg e hv)
  have hp : (env.order l').Perm l' := he l'
  obtain ⟨t, h3, h4⟩ := fill_ok (env.order l') (initVec defs.length) fun e hv => by
    obtain ⟨v, hv1, hv2⟩ := metaVals_mem' h2 (hp.mem_iff.1 hv)
    rw [initVec_length]
    rcases hlt _ _ _ hv2 with h | h
    · rw [h] at hv1; exact .inl (Res.ok.inj hv1).symm
    · exact .inr h
  exact ⟨t, by simp only [metaRoot, h1, Res.bind_ok]; exact h3, by rw [h4, initVec_length]⟩

theorem metaRoot_panic (env : Env) (he : env.Sound) {defs : AMap (Nat × RootValI)} (hg : ∀ e ∈ defs, e.2.2.Good)
    {k : String} {id : Nat} {y : RootValI} (hk : (k, id, y) ∈ defs) (hy : metaRootVal env y ≠ .ok none) (hid : defs.length ≤ id) :
    metaRoot env defs = .panic := by
  obtain ⟨l', h1, h2⟩ := metaRootVals_spec env defs fun e hv => metaRootVal_ok env he (hg e hv)
  have hp : (env.order l').Perm l' := he l'
  obtain ⟨m, hm1, hm2⟩ := metaVals_mem h2 hk
  cases m with
  | none => exact absurd hm1 hy
  | some m =>
    simp only [metaRoot, h1, Res.bind_ok]
    exact fill_panic _ _ ⟨k, id, m, hp.mem_iff.2 hm2, by rwa [initVec_length]⟩

end Verif.Source
