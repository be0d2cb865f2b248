import Verif.Lemmas.GrammarMain
/-! # Reading values against the language of sources: values -/
namespace Verif.Source
open Diff Core

/-- the list has these attributes, in the order of `TmpList.attrs`, and these items -/
def ListIs (env : Env) (as : List (List JVal)) (ms : List (List (String × JVal))) (t : TmpList) : Prop :=
  ∃ as', as.Perm as' ∧ AttrsOf env as' t.attrs ∧ ObjsOf env ms t.vec

theorem list_is {env : Env} {r : List JVal} {t : TmpList} (h : list env {} r = .ok t) :
    ∃ as ms, r = as.map .array ++ ms.map .map ∧ ListIs env as ms t := by
  obtain ⟨as, ms, xs, t1, h1, h2, h3, h4, h5⟩ := list_run env r {} rfl h
  obtain ⟨as', h6, h7⟩ := attrs_sorted h2 h3
  refine ⟨as, ms, h1, as', h6, ?_, h4⟩
  rw [h5]
  exact h7

theorem list_of_is {env : Env} {as : List (List JVal)} {ms : List (List (String × JVal))} {t : TmpList} (h : ListIs env as ms t) :
    list env {} (as.map .array ++ ms.map .map) = .ok t := by
  obtain ⟨as', h1, h2, h3⟩ := h
  obtain ⟨xs, h4, h5⟩ := attrs_unsorted (t := { t with vec := [] }) h1 h2 rfl
  exact list_of_run h3 h4 {} rfl h5 (t1 := { t with vec := [] })

/-! ## Sizes -/

theorem size_map {m : List (String × JVal)} {e : String × JVal} (h : e ∈ m) : sizeOf e.2 < sizeOf (JVal.map m) := by
  have := List.sizeOf_lt_of_mem h
  obtain ⟨k, v⟩ := e
  simp only [Prod.mk.sizeOf_spec] at this
  simp only [JVal.map.sizeOf_spec]
  omega

theorem size_array {l : List JVal} {v : JVal} (h : v ∈ l) : sizeOf v < sizeOf (JVal.array l) := by
  have := List.sizeOf_lt_of_mem h
  simp only [JVal.array.sizeOf_spec]
  omega

theorem size_item {k : String} {as : List (List JVal)} {ms : List (List (String × JVal))} {m : List (String × JVal)} (hm : m ∈ ms) {e : String × JVal}
    (he : e ∈ m) : sizeOf e.2 < sizeOf (written k as ms) := by
  refine Nat.lt_trans (size_map he) (size_array ?_)
  exact List.mem_cons_of_mem _ (List.mem_append_right _ (List.mem_map_of_mem hm))

theorem size_def {k : String} {as : List (List JVal)} {ms : List (List (String × JVal))} {a : List JVal} (ha : a ∈ as) {m : List (String × JVal)}
    (hm : IsDefault a m) {e : String × JVal} (he : e ∈ m) : sizeOf e.2 < sizeOf (written k as ms) := by
  have h1 : JVal.map m ∈ a := by rcases hm with rfl | rfl <;> simp
  refine Nat.lt_trans (size_map he) (Nat.lt_trans (size_array h1) (size_array ?_))
  exact List.mem_cons_of_mem _ (List.mem_append_left _ (List.mem_map_of_mem ha))

/-! ## From what is read -/

theorem item_cases {env : Env} {vt : VType} {v : JVal} {x : RustVal} (h : item env vt v = .ok x) :
    (∃ p, x = .param p vt ∧ Means v p) ∨ (∃ r, v = .array (.string "__InnerMutUndefined" :: r) ∧ x = .mil none) ∨
    ∃ s tag r t, v = .array (.string s :: r) ∧ tagOf s = some tag ∧ list env {} r = .ok t ∧ intoList env tag vt t = .ok x := by
  have par : ∀ p vt', x = .param p vt' → ∃ p, x = .param p vt ∧ Means v p := by
    rintro p vt' rfl
    obtain ⟨rfl, hp⟩ := (C62_value env vt vt' v p).1 h
    exact ⟨p, rfl, hp⟩
  cases v with
  | bool b => simp only [item, Res.ok.injEq] at h; exact .inl (par _ _ h.symm)
  | int b => simp only [item, Res.ok.injEq] at h; exact .inl (par _ _ h.symm)
  | double b => simp only [item, Res.ok.injEq] at h; exact .inl (par _ _ h.symm)
  | string b => simp only [item, Res.ok.injEq] at h; exact .inl (par _ _ h.symm)
  | map _ => simp only [item] at h; cases h
  | null => simp only [item] at h; cases h
  | undef => simp only [item] at h; cases h
  | array a =>
    simp only [item] at h
    cases a with
    | nil => simp only [arrayVal] at h; cases h
    | cons y r =>
      cases y with
      | string s =>
        simp only [arrayVal] at h
        have nul : ∀ {tag}, arrayNull tag vt r = .ok x → ∃ p vt', x = .param p vt' := by
          intro tag h
          unfold arrayNull at h
          split at h
          · split at h <;> cases h <;> exact ⟨_, _, rfl⟩
          · split at h <;> cases h <;> exact ⟨_, _, rfl⟩
          · split at h <;> cases h; exact ⟨_, _, rfl⟩
          · split at h <;> cases h; exact ⟨_, _, rfl⟩
          · cases h
        cases ht : tagOf s with
        | none => rw [ht] at h; cases h
        | some tag =>
          rw [ht] at h
          have fin : (if vt = .normal ∨ vt = .undefiable then (list env {} r).bind fun t => intoList env tag vt t else .err) = .ok x →
              ∃ s' tag r' t, JVal.array (.string s :: r) = .array (.string s' :: r') ∧ tagOf s' = some tag ∧ list env {} r' = .ok t ∧ intoList env tag vt t = .ok x := by
            intro h
            split at h
            · obtain ⟨t, h1, h2⟩ := bind_inv h
              exact ⟨s, tag, r, t, rfl, ht, h1, h2⟩
            · cases h
          cases tag with
          | «at» t =>
            obtain ⟨q, _, h⟩ := bind_inv h
            split at h
            · cases h; exact .inl (par _ _ rfl)
            · cases h
          | int => obtain ⟨p, vt', e⟩ := nul h; exact .inl (par p vt' e)
          | float => obtain ⟨p, vt', e⟩ := nul h; exact .inl (par p vt' e)
          | str => obtain ⟨p, vt', e⟩ := nul h; exact .inl (par p vt' e)
          | bool => obtain ⟨p, vt', e⟩ := nul h; exact .inl (par p vt' e)
          | milUndef =>
            have hs := tagOf_name ht
            cases h
            exact .inr (.inl ⟨r, by rw [hs]; rfl, rfl⟩)
          | clist => exact .inr (.inr (fin h))
          | table => exact .inr (.inr (fin h))
          | mlist => exact .inr (.inr (fin h))
          | cil => exact .inr (.inr (fin h))
          | mil => exact .inr (.inr (fin h))
          | cilDef => exact .inr (.inr (fin h))
          | milDef => exact .inr (.inr (fin h))
      | int i =>
        simp only [arrayVal] at h
        obtain ⟨q, _, h⟩ := bind_inv h
        split at h
        · cases h; exact .inl (par _ _ rfl)
        · cases h
      | bool _ => simp only [arrayVal] at h; cases h
      | double _ => simp only [arrayVal] at h; cases h
      | map _ => simp only [arrayVal] at h; cases h
      | array _ => simp only [arrayVal] at h; cases h
      | null => simp only [arrayVal] at h; cases h
      | undef => simp only [arrayVal] at h; cases h

section
variable {env : Env} (he : env.Sound) {k : String} {as : List (List JVal)} {ms : List (List (String × JVal))}
  (hg : ∀ w, sizeOf w < sizeOf (written k as ms) → Good env w)
include he hg

theorem def_of {a : List JVal} (ha : a ∈ as) {d : LDef} (h : listAttr env a = .ok (.default d)) : ∃ m, IsDefault a m ∧ ReadsDef m d := by
  obtain ⟨m, o, h1, h2, h3⟩ := attr_default h
  exact ⟨m, h1, readsDef_of he (fun e he' => hg _ (size_def ha h1 he')) h2 h3⟩

theorem def_run {a : List JVal} (ha : a ∈ as) {m : List (String × JVal)} (h1 : IsDefault a m) {d : LDef} (h : ReadsDef m d) :
    ∃ d', listAttr env a = .ok (.default d') := by
  obtain ⟨o, d', h2, h3⟩ := h.run he (fun e he' => hg _ (size_def ha h1 he'))
  exact ⟨d', listAttr_default h1 h2 h3⟩

omit he in
theorem items_good : ∀ m ∈ ms, ∀ e ∈ m, Good env e.2 := fun _ hm _ he' => hg _ (size_item hm he')

theorem mutList_of {t : TmpList} (h : ObjsOf env ms t.vec) {l : MutList} (hl : mutList env t = .ok l) : ∃ items, l = (items, if ms.length = 0 then 0 else t.nextId.getD ms.length) ∧
    items.length = ms.length ∧ (∀ i m e, ms[i]? = some m → items[i]? = some e → NumId m i e.1) ∧ ∀ e ∈ ms.zip items, ReadsItem e.1 e.2.2 := by
  unfold mutList at hl
  obtain ⟨items, h1, rfl⟩ := map_inv hl
  obtain ⟨h2, h3, h4⟩ := mutItems_of he h (items_good hg) 0 h1
  refine ⟨items, ?_, h2, fun i m e hm he' => by simpa using h3 i m e hm he', h4⟩
  rw [← h2, ← h.length_eq, ← h2]
  cases items <;> simp

theorem mutList_run {items : List (Nat × Item)} (h1 : items.length = ms.length)
    (h2 : ∀ i m e, ms[i]? = some m → items[i]? = some e → NumId m i e.1) (h3 : ∀ e ∈ ms.zip items, ReadsItem e.1 e.2.2) :
    ∃ os, ObjsOf env ms os ∧ ∀ t : TmpList, t.vec = os → ∃ l, mutList env t = .ok l := by
  obtain ⟨os, l, h4, h5⟩ := mutItems_run he ms items 0 (items_good hg) h1 (fun i m e hm he' => by simpa using h2 i m e hm he') h3
  refine ⟨os, h4, fun t ht => ?_⟩
  unfold mutList
  rw [ht, h5]
  exact ⟨_, rfl⟩
end

theorem nextAttr_of {env : Env} {as : List (List JVal)} {n : Option Nat} (h : AttrsOf env as (n.toList.map .nextId)) :
    ∃ k, as = nextAttr k ∧ ∀ len, (if len = 0 then 0 else n.getD len) = nextOf k len := by
  cases n with
  | none =>
    cases h
    exact ⟨none, rfl, fun len => rfl⟩
  | some n =>
    cases h with
    | cons h h' =>
      cases h'
      obtain ⟨k, rfl, rfl⟩ := attr_nextId h
      exact ⟨some k, rfl, fun len => rfl⟩

theorem nextAttr_run (env : Env) (k : Option Int) : AttrsOf env (nextAttr k) ((k.map i64ToU64).toList.map .nextId) := by
  cases k with
  | none => exact .nil
  | some k => exact .cons (listAttr_nextId env k) .nil

theorem oldAttr_of {env : Env} {as : List (List JVal)} {o : Option (List String)} (h : AttrsOf env as (o.toList.map .old)) : OldAttr as (o.getD []) := by
  cases o with
  | none => cases h; exact .none
  | some o =>
    cases h with
    | cons h h' =>
      cases h'
      obtain ⟨b, rfl, hb⟩ := attr_old h
      exact .some (namesAre_of hb)

theorem oldAttr_run {env : Env} {as : List (List JVal)} {old : List String} (h : OldAttr as old) : ∃ o : Option (List String), AttrsOf env as (o.toList.map .old) := by
  cases h with
  | none => exact ⟨none, .nil⟩
  | some h =>
    obtain ⟨o, ho, _⟩ := h.getOld
    exact ⟨some o, .cons (listAttr_old ho) .nil⟩

theorem item_reads {env : Env} (he : env.Sound) (v : JVal) (hg : ∀ w, sizeOf w < sizeOf v → Good env w) (vt : VType) (x : RustVal)
    (h : item env vt v = .ok x) : Reads vt v x := by
  rcases item_cases h with ⟨p, rfl, hp⟩ | ⟨r, rfl, rfl⟩ | ⟨s, tag, r, t, rfl, ht, hl, hi⟩
  · exact .value hp
  · exact .milUndef vt r
  obtain ⟨as, ms, rfl, as', h1, h2, h3⟩ := list_is hl
  have hs := tagOf_name ht
  subst hs
  have hg' : ∀ w, sizeOf w < sizeOf (written (tagName tag) as ms) → Good env w := hg
  clear hg h hl ht
  have eq0 : as'.Perm as := h1.symm
  have con : tag = .clist → vt = .normal → intoConstList env t = .ok x → Reads vt (written (tagName tag) as ms) x := by
    rintro rfl rfl hi
    unfold intoConstList at hi
    split at hi
    · rename_i d ho hd hn
      obtain ⟨l, hl, rfl⟩ := map_inv hi
      rw [TmpList.attrs, ho, hd, hn] at h2
      cases h2 with
      | @cons a _ _ _ ha h' =>
        cases h'
        have := List.perm_singleton.1 h1
        subst this
        obtain ⟨m, hm, hd⟩ := def_of he hg' List.mem_cons_self ha
        obtain ⟨h4, h5, h6⟩ := listItems_of he h3 (items_good hg') hl
        exact .clist hm hd h4 h5 h6
    · cases hi
  have tab : tag = .table → vt = .normal → intoConstData env t = .ok x → Reads vt (written (tagName tag) as ms) x := by
    rintro rfl rfl hi
    unfold intoConstData at hi
    split at hi
    · rename_i d hd hn
      obtain ⟨l, hl, rfl⟩ := map_inv hi
      rw [TmpList.attrs, hd, hn] at h2
      cases h2 with
      | @cons a _ os _ ha h' =>
        simp only [Option.toList_none, List.map_nil, List.append_nil, List.nil_append] at h'
        obtain ⟨m, hm, hd⟩ := def_of he hg' (h1.mem_iff.2 List.mem_cons_self) ha
        obtain ⟨rows, rfl, h4, h5, h6⟩ := dataItems_of he h3 (items_good hg') [] hl
        refine .table hm hd h1 (oldAttr_of h') h4 h5 h6 (insRows_wf _ _ (by simp [AMap.Wf])) (fun n => by rw [insRows_keys]; simp) ?_
        rintro p n it s rfl hs
        exact insRows_last hs p []
    · cases hi
  have mutl : ∀ u, tag = .mlist → Undefiable vt u → intoMutList env t u = .ok x → Reads vt (written (tagName tag) as ms) x := by
    rintro u rfl hu hi
    unfold intoMutList at hi
    split at hi
    · rename_i d ho hd
      obtain ⟨l, hl, rfl⟩ := map_inv hi
      rw [TmpList.attrs, hd, ho] at h2
      cases h2 with
      | @cons a _ os _ ha h' =>
        simp only [Option.toList_none, List.map_nil, List.nil_append] at h'
        obtain ⟨m, hm, hd⟩ := def_of he hg' (h1.mem_iff.2 List.mem_cons_self) ha
        obtain ⟨items, rfl, h4, h5, h6⟩ := mutList_of he hg' h3 hl
        obtain ⟨k, rfl, hk⟩ := nextAttr_of h'
        rw [hk]
        exact .mlist hu hm hd h1 h4 h5 h6
    · cases hi
  have mild : ∀ u, tag = .milDef → Undefiable vt u → intoInnerMutDef t u = .ok x → Reads vt (written (tagName tag) as ms) x := by
    rintro u rfl hu hi
    unfold intoInnerMutDef at hi
    split at hi
    · rename_i d ho hd hn hv
      cases hi
      rw [hv] at h3
      cases h3
      rw [TmpList.attrs, ho, hd, hn] at h2
      cases h2 with
      | @cons a _ _ _ ha h' =>
        cases h'
        have := List.perm_singleton.1 h1
        subst this
        obtain ⟨m, hm, hd⟩ := def_of he hg' List.mem_cons_self ha
        exact .milDef hu hm hd
    · cases hi
  unfold intoList at hi
  cases vt with
  | normal =>
    cases tag with
    | clist => exact con rfl rfl hi
    | table => exact tab rfl rfl hi
    | mlist => exact mutl false rfl rfl hi
    | milDef => exact mild false rfl rfl hi
    | cil =>
      simp only [intoInnerList] at hi
      split at hi
      · rename_i ho hd hn
        obtain ⟨l, hl, rfl⟩ := map_inv hi
        rw [TmpList.attrs, ho, hd, hn] at h2
        cases h2
        have := List.perm_nil.1 h1
        subst this
        obtain ⟨h4, h5, h6⟩ := listItems_of he h3 (items_good hg') hl
        exact .cil h4 h5 h6
      · cases hi
    | mil =>
      simp only [intoMutInnerList] at hi
      split at hi
      · rename_i ho hd
        obtain ⟨l, hl, rfl⟩ := map_inv hi
        rw [TmpList.attrs, ho, hd] at h2
        simp only [Option.toList_none, List.map_nil, List.nil_append] at h2
        obtain ⟨k, rfl, hk⟩ := nextAttr_of h2
        obtain ⟨items, rfl, h4, h5, h6⟩ := mutList_of he hg' h3 hl
        rw [hk]
        have has : as = nextAttr k := by
          cases k with
          | none => exact List.perm_nil.1 h1
          | some k => exact List.perm_singleton.1 h1
        subst has
        exact .mil h4 h5 h6
      · cases hi
    | cilDef =>
      simp only [intoInnerDef] at hi
      split at hi
      · rename_i d ho hd hn hv
        cases hi
        rw [hv] at h3
        cases h3
        rw [TmpList.attrs, ho, hd, hn] at h2
        cases h2 with
        | @cons a _ _ _ ha h' =>
          cases h'
          have := List.perm_singleton.1 h1
          subst this
          obtain ⟨m, hm, hd⟩ := def_of he hg' List.mem_cons_self ha
          exact .cilDef hm hd
      · cases hi
    | «at» _ => cases hi
    | int => cases hi
    | float => cases hi
    | str => cases hi
    | bool => cases hi
    | milUndef => cases hi
  | undefiable =>
    cases tag with
    | mlist => exact mutl true rfl rfl hi
    | milDef => exact mild true rfl rfl hi
    | _ => cases hi
  | _ => cases hi

/-! ## From the language -/

theorem item_list {env : Env} {tag : Tag} {s : String} (ht : tagOf s = some tag) (hn : tag ∈ [Tag.clist, .table, .mlist, .cil, .mil, .cilDef, .milDef])
    {vt : VType} (hvt : vt = .normal ∨ vt = .undefiable) {as : List (List JVal)} {ms : List (List (String × JVal))} {t : TmpList} (h : ListIs env as ms t) :
    item env vt (written s as ms) = intoList env tag vt t := by
  simp only [written, item, arrayVal, ht]
  have := list_of_is h
  simp only [List.mem_cons, List.not_mem_nil, or_false] at hn
  rcases hn with rfl | rfl | rfl | rfl | rfl | rfl | rfl <;> simp only [hvt, if_true, this, Res.bind_ok]

theorem undefiable_vt {vt : VType} {u : Bool} (h : Undefiable vt u) : (vt = .normal ∧ u = false) ∨ (vt = .undefiable ∧ u = true) := by
  cases vt <;> simp only [Undefiable] at h <;> simp [h]

theorem reads_item {env : Env} (he : env.Sound) (v : JVal) (hg : ∀ w, sizeOf w < sizeOf v → Good env w) (vt : VType) (x : RustVal)
    (h : Reads vt v x) : ∃ x', item env vt v = .ok x' ∧ kind x' = kind x := by
  cases h with
  | value h => exact ⟨_, (C62_value env vt vt v _).2 ⟨rfl, h⟩, rfl⟩
  | milUndef _ r => exact ⟨.mil none, by simp [item, arrayVal, show tagOf "__InnerMutUndefined" = some .milUndef by decide], rfl⟩
  | @clist a m d ms items h1 h2 h3 h4 h5 =>
    obtain ⟨d', hd⟩ := def_run he hg List.mem_cons_self h1 h2
    obtain ⟨os, l, h6, h7⟩ := listItems_run he ms items (items_good hg) h3 h4 h5
    refine ⟨.clist d' l, ?_, rfl⟩
    rw [item_list (t := { default := some d', vec := os }) (show tagOf "CList" = some .clist by decide) (by simp) (.inl rfl)
      ⟨[a], List.Perm.refl _, .cons hd .nil, h6⟩]
    simp only [intoList, intoConstList, h7, Res.map_ok]
  | @table a m d as os old ms rows t h1 h2 h3 h4 h5 h6 h7 h8 h9 h10 =>
    obtain ⟨d', hd⟩ := def_run he hg (h3.mem_iff.2 List.mem_cons_self) h1 h2
    obtain ⟨o, ho⟩ := oldAttr_run (env := env) h4
    obtain ⟨obs, h11, h12⟩ := dataItems_run he ms rows [] (items_good hg) h5 h6 h7
    obtain ⟨t', ht⟩ := h12 []
    refine ⟨.table d' t' (o.getD []), ?_, rfl⟩
    rw [item_list (t := { default := some d', old := o, vec := obs }) (show tagOf "Table" = some .table by decide) (by simp) (.inl rfl)
      ⟨a :: os, h3, .cons hd (by simp only [Option.toList_none, List.map_nil, List.append_nil, List.nil_append]; exact ho), h11⟩]
    simp only [intoList, intoConstData, ht, Res.map_ok]
  | @mlist vt u a m d as n ms items hu h1 h2 h3 h4 h5 h6 =>
    obtain ⟨d', hd⟩ := def_run he hg (h3.mem_iff.2 List.mem_cons_self) h1 h2
    obtain ⟨obs, h7, h8⟩ := mutList_run he hg h4 h5 h6
    obtain ⟨l, hl⟩ := h8 { default := some d', nextId := n.map i64ToU64, vec := obs } rfl
    refine ⟨.mlist d' u (some l), ?_, rfl⟩
    have hi : ListIs env as ms { default := some d', nextId := n.map i64ToU64, vec := obs } :=
      ⟨a :: nextAttr n, h3, .cons hd (nextAttr_run env n), h7⟩
    rcases undefiable_vt hu with ⟨rfl, rfl⟩ | ⟨rfl, rfl⟩
    · rw [item_list (show tagOf "MList" = some .mlist by decide) (by simp) (.inl rfl) hi]
      simp only [intoList, intoMutList, hl, Res.map_ok]
    · rw [item_list (show tagOf "MList" = some .mlist by decide) (by simp) (.inr rfl) hi]
      simp only [intoList, intoMutList, hl, Res.map_ok]
  | @cil ms items h1 h2 h3 =>
    obtain ⟨os, l, h6, h7⟩ := listItems_run he ms items (items_good hg) h1 h2 h3
    refine ⟨.cil l, ?_, rfl⟩
    rw [item_list (t := { vec := os }) (show tagOf "Cil" = some .cil by decide) (by simp) (.inl rfl) ⟨[], List.Perm.refl _, .nil, h6⟩]
    simp only [intoList, intoInnerList, h7, Res.map_ok]
  | @mil n ms items h1 h2 h3 =>
    obtain ⟨obs, h7, h8⟩ := mutList_run he hg h1 h2 h3
    obtain ⟨l, hl⟩ := h8 { nextId := n.map i64ToU64, vec := obs } rfl
    refine ⟨.mil (some l), ?_, rfl⟩
    rw [item_list (t := { nextId := n.map i64ToU64, vec := obs }) (show tagOf "Mil" = some .mil by decide) (by simp) (.inl rfl)
      ⟨nextAttr n, List.Perm.refl _, nextAttr_run env n, h7⟩]
    simp only [intoList, intoMutInnerList, hl, Res.map_ok]
  | @cilDef a m d h1 h2 =>
    obtain ⟨d', hd⟩ := def_run he hg List.mem_cons_self h1 h2
    refine ⟨.cilDef d', ?_, rfl⟩
    rw [item_list (t := { default := some d' }) (show tagOf "CilDef" = some .cilDef by decide) (by simp) (.inl rfl)
      ⟨[a], List.Perm.refl _, .cons hd .nil, .nil⟩]
    simp only [intoList, intoInnerDef]
  | @milDef vt u a m d hu h1 h2 =>
    obtain ⟨d', hd⟩ := def_run he hg List.mem_cons_self h1 h2
    refine ⟨.milDef d' u, ?_, rfl⟩
    have hi : ListIs env [a] [] { default := some d' } := ⟨[a], List.Perm.refl _, .cons hd .nil, .nil⟩
    rcases undefiable_vt hu with ⟨rfl, rfl⟩ | ⟨rfl, rfl⟩
    · rw [item_list (show tagOf "MilDef" = some .milDef by decide) (by simp) (.inl rfl) hi]
      simp only [intoList, intoInnerMutDef]
    · rw [item_list (show tagOf "MilDef" = some .milDef by decide) (by simp) (.inr rfl) hi]
      simp only [intoList, intoInnerMutDef]

theorem good {env : Env} (he : env.Sound) : ∀ v, Good env v
  | v => fun vt => ⟨item_reads he v (fun w _ => good he w) vt, reads_item he v (fun w _ => good he w) vt⟩
termination_by v => sizeOf v

end Verif.Source
