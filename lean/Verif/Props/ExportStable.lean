import Verif.Props.ExportText
/-!
# C68: the text of an object that was read from its text
-/
namespace Verif.Export
open Diff Core Source
open Number (RustFloat)

section
variable {α β : Type}

theorem perm_of_get {l m : AMap α} {f : String → α → β} (hl : l.Wf) (hm : m.Wf) (h : ∀ k, (l.get k).map (f k) = (m.get k).map (f k)) :
    (l.map fun e => (e.1, f e.1 e.2)).Perm (m.map fun e => (e.1, f e.1 e.2)) := by
  have nd : ∀ {l : AMap α}, l.Wf → (l.map fun e => (e.1, f e.1 e.2)).Nodup := fun {l} hl =>
    List.Nodup.of_map (·.1) (by rw [List.map_map]; exact hl)
  have mem : ∀ {l : AMap α}, l.Wf → ∀ x, x ∈ (l.map fun e => (e.1, f e.1 e.2)) ↔ (l.get x.1).map (f x.1) = some x.2 := by
    intro l hl x
    rw [List.mem_map, Option.map_eq_some_iff]
    constructor
    · rintro ⟨e, he, rfl⟩
      exact ⟨e.2, AMap.get_of_mem hl he, rfl⟩
    · rintro ⟨a, ha, e⟩
      exact ⟨(x.1, a), AMap.mem_of_get ha, by simp [e]⟩
  exact (List.perm_ext_iff_of_nodup (nd hl) (nd hm)).2 fun x => by rw [mem hl, mem hm, h]

end

theorem refs_json {r r' : RefDefI} (hr : PlainRefs r) (hw : (r'.refs.map (·.1)).Nodup) (h : SameRefs r r') :
    refDefJV r = refDefJV r' ∧ (r.refs = [] ↔ r'.refs = []) := by
  have hp := perm_of_get (l := r.refs) (m := r'.refs) (f := fun _ x => x.2) hr.1 hw fun k => (h.1 k).symm
  constructor
  · unfold refDefJV
    have := hp.map fun x : String × Qv String × VType => (withSuffix x.1 x.2.2, refJV x.2.1)
    rw [List.map_map, List.map_map] at this
    refine btree_eq ?_ this
    rw [List.map_map]
    have hn := hr.1
    have hi := hr.2.1
    clear this hp
    generalize r.refs = l at hn hi
    induction l with
    | nil => exact List.nodup_nil
    | cons e l ih =>
      rw [List.map_cons, List.nodup_cons] at hn ⊢
      refine ⟨fun hm => hn.1 ?_, ih hn.2 fun e he => hi e (by simp [he])⟩
      obtain ⟨x, hx, e1⟩ := List.mem_map.1 hm
      have := withSuffix_inj (hi x (by simp [hx])) (hi e (by simp)) e1
      rw [← this]
      exact List.mem_map_of_mem hx
  · have := hp.length_eq
    rw [List.length_map, List.length_map] at this
    rw [← List.length_eq_zero_iff, ← List.length_eq_zero_iff, this]

theorem set_json {l m : List String} (h : ∀ n, n ∈ m ↔ n ∈ l) : setJV l = setJV m ∧ (l.length = 0 ↔ m.length = 0) := by
  constructor
  · unfold setJV
    rw [strings_eq (bset_sorted l) (bset_sorted m) fun x => by rw [mem_bset, mem_bset, h]]
  · rw [List.length_eq_zero_iff, List.length_eq_zero_iff, List.eq_nil_iff_forall_not_mem, List.eq_nil_iff_forall_not_mem]
    simp only [h]

theorem refOld_json {refs refs' : RefDefI} {old old' : List String} {m : List (String × JV)} (hr : PlainRefs refs)
    (hw : (refs'.refs.map (·.1)).Nodup) (h : SameRefs refs refs') (ho : ∀ n, n ∈ old' ↔ n ∈ old) :
    addRefOld refs old m = addRefOld refs' old' m := by
  obtain ⟨h1, h2⟩ := refs_json hr hw h
  obtain ⟨h3, h4⟩ := set_json ho
  unfold addRefOld
  rw [h1, h3]
  by_cases e : refs.refs = []
  · have e' := h2.1 e
    simp only [e, e', ne_eq, h4, List.length_nil, not_true_eq_false, if_false]
  · have e' : refs'.refs ≠ [] := fun x => e (h2.2 x)
    rw [h.2 e]
    simp only [ne_eq, List.length_eq_zero_iff, e, e', not_false_iff, if_true]
    simp only [← List.length_eq_zero_iff, h4]

mutual
/-- a definition that was read again is written as before -/
theorem sameDef_json : ∀ (d d' : LDef), PlainDef d → Numbered d' → SameDef d d' → ldefJV d = ldefJV d'
  | .mk ms refs old, .mk ms' refs' old', hp, hn, h => by
    rw [PlainDef] at hp
    rw [SameDef] at h
    cases hn with
    | mk n1 _ n3 _ n5 n6 =>
    obtain ⟨h1, h2, h3, h4⟩ := h
    have hm := sameMembers_json ms ms' hp.2.1 h1 n5 n6
    change ∀ k, k ∈ ms'.map (·.1) ↔ k ∈ ms.map (·.1) at h2
    change SameRefs refs refs' at h3
    change ∀ n, n ∈ old' ↔ n ∈ old at h4
    rw [ldefJV, ldefJV, refOld_json hp.2.2.1 n3 h3 h4, ldefMembers_map, ldefMembers_map]
    refine congrArg (fun x => JV.map (addRefOld refs' old' x)) (valueMap_eq (by rw [List.map_map]; exact hp.1) ?_)
    refine perm_of_get (l := ms) (m := ms') (f := fun k x => ldefVal k x.2) hp.1 n1 fun k => ?_
    cases hk : AMap.get ms k with
    | none =>
      have : AMap.get ms' k = none := AMap.get_eq_none.2 fun hx => AMap.get_eq_none.1 hk ((h2 k).1 hx)
      rw [this]
    | some x =>
      obtain ⟨i, v', e1, e2⟩ := hm _ (AMap.mem_of_get hk)
      rw [e1, Option.map_some, Option.map_some, e2]
theorem sameMembers_json : ∀ (ms : List (String × Nat × LDefVal)) (ms' : AMap (Nat × LDefVal)), PlainMembers ms → SameMembers ms ms' →
    (∀ k id d, (k, id, LDefVal.cilDef d) ∈ ms' → Numbered d) → (∀ k id d u, (k, id, LDefVal.milDef d u) ∈ ms' → Numbered d) →
    ∀ e ∈ ms, ∃ i v', ms'.get e.1 = some (i, v') ∧ ldefVal e.1 e.2.2 = ldefVal e.1 v'
  | [], _, _, _, _, _ => fun e he => nomatch he
  | (k, i, v) :: ms, ms', hp, h, n1, n2 => by
    rw [PlainMembers] at hp
    rw [SameMembers] at h
    obtain ⟨⟨j, v', e1, e2⟩, h⟩ := h
    intro e he
    rcases List.mem_cons.1 he with rfl | he
    · exact ⟨j, v', e1, sameVal_json k v v' hp.2.1 e2 (fun d hd => n1 k j d (by rw [← hd]; exact AMap.mem_of_get e1))
        fun d u hd => n2 k j d u (by rw [← hd]; exact AMap.mem_of_get e1)⟩
    · exact sameMembers_json ms ms' hp.2.2 h n1 n2 e he
theorem sameVal_json (k : String) : ∀ (v v' : LDefVal), PlainVal v → SameVal v v' → (∀ d, v' = .cilDef d → Numbered d) →
    (∀ d u, v' = .milDef d u → Numbered d) → ldefVal k v = ldefVal k v'
  | .param p vt, v', _, h, _, _ => by
    rw [SameVal] at h
    rw [h]
  | .cilDef d, v', hp, h, n1, _ => by
    rw [SameVal] at h
    rw [PlainVal] at hp
    obtain ⟨d', rfl, h⟩ := h
    rw [ldefVal, ldefVal, sameDef_json d d' hp (n1 d' rfl) h]
  | .milDef d u, v', hp, h, _, n2 => by
    rw [SameVal] at h
    rw [PlainVal] at hp
    obtain ⟨d', rfl, h⟩ := h
    rw [ldefVal, ldefVal, sameDef_json d d' hp (n2 d' u rfl) h]
end

/-- what a member adds to the JSON of an object -/
def part (r : Root) (k : String) : Res (List (String × String × JV)) :=
  match r.defs.get k with
  | some (_, v) => rootMember r.sabun k v
  | none => .ok []

/-- The JSON is determined by what the members add to it. -/
theorem json_of_parts {r r' : Root} (hw : r.defs.Wf) (hw' : r'.defs.Wf) (hp : ∀ k, part r k = part r' k) (ho : ∀ n, n ∈ r'.old ↔ n ∈ r.old)
    {j : JV} (h : rootToJson r = .ok j) : rootToJson r' = .ok j := by
  unfold rootToJson at h ⊢
  obtain ⟨l, h1, rfl⟩ := map_inv h
  obtain ⟨h2, _, h3⟩ := rootMembers_keys h1
  have pe : ∀ {r : Root}, r.defs.Wf → ∀ {e}, e ∈ r.defs → part r e.1 = rootMember r.sabun e.1 e.2.2 := by
    intro r hw e he
    unfold part
    rw [AMap.get_of_mem hw he]
  have pm : ∀ {r : Root} {k x a}, part r k = .ok a → x ∈ a → ∃ e ∈ r.defs, e.1 = k := by
    intro r k x a h hx
    unfold part at h
    split at h
    · rename_i e
      exact ⟨_, AMap.mem_of_get e, rfl⟩
    · cases h
      cases hx
  have okp : ∀ k, ∃ a, part r k = .ok a := by
    intro k
    cases hk : r.defs.get k with
    | none => exact ⟨[], by unfold part; rw [hk]⟩
    | some x =>
      obtain ⟨a, ha, _⟩ := h3 k x.1 x.2 (AMap.mem_of_get hk)
      exact ⟨a, by unfold part; rw [hk]; exact ha⟩
  obtain ⟨l', h4, _⟩ := rootMembers_ok (sab := r'.sabun) r'.defs fun e he => by
    obtain ⟨a, ha⟩ := okp e.1
    rw [hp, pe hw' he] at ha
    exact ⟨a, ha⟩
  obtain ⟨h5, _, h6⟩ := rootMembers_keys h4
  have n1 : (l.map (·.1)).Nodup := h2.nodup hw
  have n2 : (l'.map (·.1)).Nodup := h5.nodup hw'
  have one : ∀ {a b : Root} {la lb : List (String × String × JV)}, a.defs.Wf → b.defs.Wf → (∀ k, part a k = part b k) → rootMembers a.sabun a.defs = .ok la →
      (∀ k id v, (k, id, v) ∈ b.defs → ∃ x, rootMember b.sabun k v = .ok x ∧ ∀ y ∈ x, y ∈ lb) → ∀ x ∈ la, x ∈ lb := by
    intro a b la lb ha hb hab hl h x hx
    obtain ⟨k, id, v, y, e1, e2, e3⟩ := rootMembers_mem hl x hx
    have e4 : part b k = .ok y := by rw [← hab, pe ha e1]; exact e2
    obtain ⟨e, he, rfl⟩ := pm e4 e3
    obtain ⟨z, hz, hzl⟩ := h e.1 e.2.1 e.2.2 he
    rw [pe hb he, hz] at e4
    cases e4
    exact hzl x e3
  have hperm : l.Perm l' := (List.perm_ext_iff_of_nodup (List.Nodup.of_map _ n1) (List.Nodup.of_map _ n2)).2 fun x =>
    ⟨one hw hw' hp h1 h6 x, one hw' hw (fun k => (hp k).symm) h4 h3 x⟩
  rw [h4, Res.map_ok, valueMap_eq n1 hperm, (set_json ho).1]

section
variable (env : Env) (u : Json5.Uni) (pf : List Char → Option UInt64) (fromU32 : Nat → UInt64) (disp : BitVec 64 → List Char)

/-- the mutable lists have given out no ids -/
def Unused (r : Root) : Prop := ∀ k l next, r.sabun.get k = some (.list (some (l, next))) → next = 0

/-- the next ids of the lists of the root forgotten -/
def forgetSab : RootSab → RootSab
  | .list (some (l, _)) => .list (some (l, 0))
  | s => s
/-- the same for the object -/
def forget (r : Root) : Root := { r with sabun := r.sabun.map fun e => (e.1, forgetSab e.2) }

theorem forget_get (r : Root) (k : String) : (forget r).sabun.get k = (r.sabun.get k).map forgetSab := by
  show AMap.get (r.sabun.map _) k = _
  induction r.sabun with
  | nil => rfl
  | cons e m ih =>
    obtain ⟨x, v⟩ := e
    rw [List.map_cons, AMap.get, AMap.get]
    split
    · rfl
    · exact ih

theorem forget_current (r : Root) (k : String) : current (forget r) k = current r k := by
  unfold current
  rw [forget_get, show (forget r).defs = r.defs from rfl]
  cases r.defs.get k with
  | none => rfl
  | some x =>
    obtain ⟨i, v⟩ := x
    cases v <;> try rfl
    cases r.sabun.get k with
    | none => rfl
    | some s =>
      cases s with
      | param q => rfl
      | list l => cases l <;> rfl

theorem forget_plain {r : Root} (h : Plain r) : Plain (forget r) := by
  refine ⟨h.wf, h.names, h.old, fun k id v hm => ?_, fun k p vt hk => h.values k p vt (by rw [← forget_current]; exact hk)⟩
  have := h.lists k id v hm
  cases v with
  | param _ _ => trivial
  | table _ _ _ => simp only [PlainList, forget_get] at this ⊢; rw [this]; rfl
  | clist _ _ => simp only [PlainList, forget_get] at this ⊢; rw [this]; rfl
  | mlist d un =>
    simp only [PlainList, forget_get] at this ⊢
    obtain ⟨h1, l, h2, h3⟩ := this
    rw [h2]
    cases l with
    | none => exact ⟨h1, none, rfl, fun x hx => nomatch hx⟩
    | some y => exact ⟨h1, some (y.1, 0), rfl, fun x hx => by cases hx; exact ⟨(h3 y rfl).1, Nat.zero_le _⟩⟩

/-- **C68: the second text (partial).** The object that is read from the text of an object is written as the object is, but for the next ids of
the lists of the root, which are 0. Missing: objects that the format cannot express (`Plain`). -/
theorem C68_second_partial (he : env.Sound) (hu : u.Sound) (hpf : ∀ s, (pf s).isSome ↔ RustFloat s) (hp : Printer disp pf) (r : Root)
    (h : Plain r) : ∃ r' j, reload env u pf fromU32 disp r = .ok r' ∧ rootToJson (forget r) = .ok j ∧ rootToJson r' = .ok j := by
  obtain ⟨_, h0, _⟩ := C68_plain_partial env u pf fromU32 disp he hu hpf hp _ (forget_plain h)
  unfold reload at h0
  obtain ⟨j0, h0, _⟩ := bind_inv h0
  obtain ⟨r', h1, h2, h3⟩ := C68_plain_partial env u pf fromU32 disp he hu hpf hp r h
  have h1' := h1
  unfold reload at h1'
  obtain ⟨j, h4, h5⟩ := bind_inv h1'
  unfold loadText at h5
  obtain ⟨v, _, h5⟩ := bind_inv h5
  split at h5
  · obtain ⟨o, h6, h7⟩ := bind_inv h5
    have hg : o.Good := (obj_good env he false _ 0 {} TmpObj.good_empty).of_ok h6
    obtain ⟨hr, _⟩ := intoRoot_spec env he hg h7
    refine ⟨r', j0, h1, h0, json_of_parts (r := forget r) h.wf hr.wf (fun k => ?_) h3 h0⟩
    have hb := h2 k
    unfold part
    show (match r.defs.get k with | some (_, v) => rootMember (forget r).sabun k v | none => .ok []) = _
    generalize hs' : r'.sabun.get k = s' at hb
    cases hd' : r'.defs.get k with
    | none =>
      rw [hd'] at hb
      simp only [Option.map_none] at hb
      cases hb with
      | gone e1 e2 =>
        cases hd : r.defs.get k with
        | none => rfl
        | some x =>
          obtain ⟨i, v⟩ := x
          have hl := h.lists k i v (AMap.mem_of_get hd)
          cases v with
          | param p vt =>
            unfold current at e1
            rw [hd] at e1
            simp only at e1
            split at e1 <;> cases e1
          | table _ _ _ => simp only [PlainList] at hl; simp only [rootMember, forget_get, hl, Option.map_none]
          | clist _ _ => simp only [PlainList] at hl; simp only [rootMember, forget_get, hl, Option.map_none]
          | mlist d un => exact absurd hd (e2 i d un)
    | some x =>
      obtain ⟨i', v'⟩ := x
      rw [hd'] at hb
      simp only [Option.map_some] at hb
      cases hb with
      | @param p vt e1 =>
        unfold current at e1
        split at e1
        · rename_i i p0 vt0 hd
          rw [hd]
          simp only [rootMember, forget_get, hs']
          split at e1
          · rename_i q hq
            cases e1
            rw [hq]
            rfl
          · rename_i hq
            cases e1
            split
            · rename_i q hq'
              obtain ⟨s, e1, e2⟩ := Option.map_eq_some_iff.1 hq'
              cases s with
              | param q' => exact absurd e1 (hq q')
              | list l => cases l <;> cases e2
            · rfl
        · cases e1
      | @mlist i d un d' e1 e2 =>
        have hl := h.lists k i _ (AMap.mem_of_get e1)
        simp only [PlainList] at hl
        obtain ⟨hpd, l, hl, hx⟩ := hl
        have hn : Numbered d' := hr.good _ (AMap.mem_of_get hd') d' rfl
        rw [e1]
        simp only [rootMember, forget_get, hs', hl, Option.map_some]
        cases l with
        | none => simp only [forgetSab, rootListJV, mutItemsJV, sameDef_json d d' hpd hn e2]; rfl
        | some x =>
          obtain ⟨items, next⟩ := x
          obtain ⟨e3, _⟩ := hx _ rfl
          simp only at e3
          subst e3
          simp only [forgetSab, rootListJV, mutItemsJV, sameDef_json d d' hpd hn e2]
  · cases h5

theorem forget_unused {r : Root} (hw : r.sabun.Wf) (h : Unused r) : forget r = r := by
  obtain ⟨defs, sabun, old, table⟩ := r
  simp only [forget, Root.mk.injEq, true_and, and_true]
  refine (List.map_congr_left fun e he => ?_).trans (List.map_id _)
  obtain ⟨k, s⟩ := e
  cases s with
  | param q => rfl
  | list l =>
    cases l with
    | none => rfl
    | some x =>
      obtain ⟨l, next⟩ := x
      have := h k l next (AMap.get_of_mem hw he)
      subst this
      rfl

/-- **C68: the text is stable (partial).** The object that is read from the text of an object is written as the same text
(json_to_rust_and_json.rs:25-66 tests it for one object), and it is read from it again. Missing: objects that the format cannot express
(`Plain`), and lists from which all items were removed, whose next ids are lost (`C68_unstable`). -/
theorem C68_stable_partial (he : env.Sound) (hu : u.Sound) (hpf : ∀ s, (pf s).isSome ↔ RustFloat s) (hp : Printer disp pf) (r : Root)
    (h : Plain r) (hw : r.sabun.Wf) (hz : Unused r) : ∃ r' j, reload env u pf fromU32 disp r = .ok r' ∧ rootToJson r = .ok j ∧
      rootToJson r' = .ok j ∧ reload env u pf fromU32 disp r' = .ok r' := by
  obtain ⟨r', j, h1, h2, h3⟩ := C68_second_partial env u pf fromU32 disp he hu hpf hp r h
  rw [forget_unused hw hz] at h2
  exact ⟨r', j, h1, h2, h3, by unfold reload at h1 ⊢; rw [h3, ← h2]; exact h1⟩

/-- the hypotheses of C68_stable_partial hold together -/
example : ∃ (disp : BitVec 64 → List Char) (pf : List Char → Option UInt64) (r : Root), Printer disp pf ∧ (∀ s, (pf s).isSome ↔ RustFloat s) ∧
    idEnv.Sound ∧ Json5.asciiUni.Sound ∧ Plain r ∧ r.sabun.Wf ∧ Unused r ∧ current r "a" = some (.int (.val 7), .normal) ∧
    r.sabun.get "m" = some (.list (some ([], 0))) := by
  obtain ⟨disp, pf, h1, h2⟩ := printer_exists
  obtain ⟨r, h3, _, h4, _, _, _, h5⟩ := withLists_loads
  have h : isWithLists (loadValid idEnv withLists) = true := by decide +kernel
  rw [h3] at h
  have hs : r.sabun = [("m", .list (some ([], 0)))] := by
    simp only [isWithLists] at h
    split at h
    · assumption
    · cases h
  refine ⟨disp, pf, r, h1, h2, idEnv_sound, Json5.asciiUni_sound, h5, by rw [hs]; simp [AMap.Wf], fun k l next hk => ?_, h4, by rw [hs]; rfl⟩
  rw [hs] at hk
  have := AMap.mem_of_get hk
  simp only [List.mem_cons, List.not_mem_nil, or_false, Prod.mk.injEq, RootSab.list.injEq, Option.some.injEq] at this
  exact this.2.2

end

/-- an object with an empty list whose next id is `n` -/
def usedList (n : Nat) : Root := ⟨[("m", 0, .mlist (.mk [] ⟨[], false, []⟩ []) true)], [("m", .list (some ([], n)))], [], []⟩

theorem usedList_json : rootToJson (usedList 1) ≠ rootToJson (usedList 0) := by
  intro h
  have : i64ToF64 1 = i64ToF64 0 := by
    simpa [usedList, rootToJson, rootMembers, rootMember, AMap.get, rootListJV, mutItemsJV, valueMap, btree, bInsert, setJV, intJV] using h
  revert this
  decide +kernel

theorem usedList_plain : Plain (usedList 1) := by
  refine ⟨by simp [usedList], fun e he => ?_, fun n hn => (nomatch hn), fun k id v hm => ?_, fun k p vt hk => ?_⟩
  · simp only [usedList, List.mem_cons, List.not_mem_nil, or_false] at he
    subst he
    exact ⟨_, [], rfl, .inl (by unfold Names.Lower; decide), fun _ h => nomatch h⟩
  · simp only [usedList, List.mem_cons, List.not_mem_nil, or_false] at hm
    cases hm
    refine ⟨?_, _, rfl, fun x hx => by cases hx; exact ⟨rfl, by decide⟩⟩
    rw [PlainDef]
    exact ⟨List.nodup_nil, by rw [PlainMembers]; trivial, ⟨List.nodup_nil, fun e he => (nomatch he), fun e he => nomatch he⟩, fun n hn => nomatch hn⟩
  · have hm := current_mem hk
    simp only [usedList, List.map_cons, List.map_nil, List.mem_cons, List.not_mem_nil, or_false] at hm
    subst hm
    cases hk

/-- C68: the text shows the next id of an empty list of the root, and the reader makes it 0: the text of what is read is not the text that was
read. -/
theorem C68_unstable (env : Env) (u : Json5.Uni) (pf : List Char → Option UInt64) (fromU32 : Nat → UInt64) (disp : BitVec 64 → List Char)
    (he : env.Sound) (hu : u.Sound) (hpf : ∀ s, (pf s).isSome ↔ RustFloat s) (hp : Printer disp pf) :
    ∃ r r', Plain r ∧ reload env u pf fromU32 disp r = .ok r' ∧ rootToJson r' ≠ rootToJson r := by
  obtain ⟨r', j, h1, h2, h3⟩ := C68_second_partial env u pf fromU32 disp he hu hpf hp _ usedList_plain
  refine ⟨_, r', usedList_plain, h1, fun h => usedList_json ?_⟩
  rw [← h, h3, ← h2]
  rfl

end Verif.Export
