import Verif.Lemmas.GrammarRead
import Mathlib.Data.List.Perm.Basic
/-! # Reading lists against the language of sources -/
namespace Verif.Source
open Diff Core

/-! ## Kinds of values -/

/-- the kind of a value -/
def kind : RustVal → Nat
  | .param _ _ => 0
  | .table _ _ _ => 1
  | .clist _ _ => 2
  | .mlist _ _ _ => 3
  | .cil _ => 4
  | .mil _ => 5
  | .cilDef _ => 6
  | .milDef _ _ => 7

theorem sabOf_iff (x : RustVal) (y : SabVal) : SabOf x y ↔ intoSabVal x = .ok y := by
  constructor
  · intro h; cases h <;> rfl
  · intro h
    cases x with
    | param => cases h; exact .param _ _
    | cil => cases h; exact .cil _
    | mil l =>
      cases l with
      | none => cases h; exact .milNone
      | some l => cases h; exact .mil _
    | _ => cases h

theorem defOf_iff (x : RustVal) (y : LDefVal) : DefOf x y ↔ intoDefVal x = .ok y := by
  constructor
  · intro h; cases h <;> rfl
  · intro h
    cases x with
    | param => cases h; exact .param _ _
    | cilDef => cases h; exact .cilDef _
    | milDef => cases h; exact .milDef _ _
    | _ => cases h

theorem rootValOf_iff (x : RustVal) (y : RootValI) (s : Option RootSab) : RootValOf x y s ↔ intoRootVal x = .ok (y, s) := by
  constructor
  · intro h; cases h <;> rfl
  · intro h
    cases x with
    | param => cases h; exact .param _ _
    | table => cases h; exact .table _ _ _
    | clist => cases h; exact .clist _ _
    | mlist => cases h; exact .mlist _ _ _
    | _ => cases h

theorem sab_kind {x x' : RustVal} (hk : kind x' = kind x) {y : SabVal} (h : SabOf x y) : ∃ y', intoSabVal x' = .ok y' := by
  cases h <;> cases x' <;> simp only [kind] at hk <;> try (exact absurd hk (by decide))
  · exact ⟨_, rfl⟩
  · exact ⟨_, rfl⟩
  · rename_i l; cases l <;> exact ⟨_, rfl⟩
  · rename_i l; cases l <;> exact ⟨_, rfl⟩

theorem def_kind {x x' : RustVal} (hk : kind x' = kind x) {y : LDefVal} (h : DefOf x y) : ∃ y', intoDefVal x' = .ok y' := by
  cases h <;> cases x' <;> simp only [kind] at hk <;> first | exact absurd hk (by decide) | exact ⟨_, rfl⟩

theorem root_kind {x x' : RustVal} (hk : kind x' = kind x) {y : RootValI} {s : Option RootSab} (h : RootValOf x y s) : ∃ y', intoRootVal x' = .ok y' := by
  cases h <;> cases x' <;> simp only [kind] at hk <;> first | exact absurd hk (by decide) | exact ⟨_, rfl⟩

/-- a value is read as the language says -/
def Good (env : Env) (v : JVal) : Prop := ∀ vt, (∀ x, item env vt v = .ok x → Reads vt v x) ∧
  ∀ x, Reads vt v x → ∃ x', item env vt v = .ok x' ∧ kind x' = kind x

/-! ## Objects -/

/-- the value that the model reads -/
def valOf (env : Env) (d : Decl) : RustVal := match item env d.vt d.val with | .ok x => x | _ => .mil none

theorem valOf_eq {env : Env} {d : Decl} {x : RustVal} (h : item env d.vt d.val = .ok x) : valOf env d = x := by simp [valOf, h]

theorem mapDecls_mem {m : List (String × JVal)} {l : List Decl} (h : MapDecls m l) : ∀ d ∈ l, ∃ k, (k, d.val) ∈ m := by
  induction h with
  | nil => exact fun _ h => nomatch h
  | @member k n vt v r l _ _ ih =>
    intro d hd
    rcases List.mem_cons.1 hd with rfl | hd
    · exact ⟨k, List.mem_cons_self⟩
    · obtain ⟨k', h⟩ := ih d hd
      exact ⟨k', List.mem_cons_of_mem _ h⟩
  | special _ _ ih =>
    intro d hd
    obtain ⟨k', h⟩ := ih d hd
    exact ⟨k', List.mem_cons_of_mem _ h⟩

theorem refSabMap_eq : ∀ (l : List (String × Nat × Qv String × VType)) (m : AMap (Qv String)), (m.map (·.1) ++ l.map (·.1)).Nodup →
    refSabMap l m = m ++ l.map fun e => (e.1, e.2.2.1)
  | [], m, _ => by simp [refSabMap]
  | (k, i, q, vt) :: r, m, h => by
    have hk : k ∉ m.map (·.1) := by
      rw [List.map_cons, List.nodup_append] at h
      exact fun hm => h.2.2 _ hm k List.mem_cons_self rfl
    simp only [refSabMap, insert_fresh _ _ _ hk, List.map_cons]
    rw [refSabMap_eq r _ (by simpa [List.append_assoc] using h)]
    simp

theorem sabMap_ok : ∀ (l : List (String × Nat × RustVal)) (m : AMap SabVal), (∀ e ∈ l, ∃ y, intoSabVal e.2.2 = .ok y) → ∃ m', sabMap l m = .ok m'
  | [], m, _ => ⟨m, by simp only [sabMap]⟩
  | (k, i, x) :: r, m, h => by
    obtain ⟨y, hy⟩ := h _ List.mem_cons_self
    obtain ⟨m', hm⟩ := sabMap_ok r (m.insert k y) fun e he => h e (List.mem_cons_of_mem _ he)
    refine ⟨m', ?_⟩
    simp only at hy
    simp only [sabMap, hy, Res.bind_ok, hm]

theorem defMap_ok : ∀ (l : List (String × Nat × RustVal)) (c : Nat) (m : AMap (Nat × LDefVal)), (∀ e ∈ l, ∃ y, intoDefVal e.2.2 = .ok y) →
    ∃ m', defMap l c m = .ok m'
  | [], c, m, _ => ⟨m, by simp only [defMap]⟩
  | (k, i, x) :: r, c, m, h => by
    obtain ⟨y, hy⟩ := h _ List.mem_cons_self
    obtain ⟨m', hm⟩ := defMap_ok r (c + 1) (m.insert k (c, y)) fun e he => h e (List.mem_cons_of_mem _ he)
    refine ⟨m', ?_⟩
    simp only at hy
    simp only [defMap, hy, Res.bind_ok, hm]

theorem hasOld_iff (o : TmpObj) : o.hasOld = false ↔ o.old = [] ∧ o.refs.old = [] := by
  simp only [TmpObj.hasOld, Bool.or_eq_false_iff, decide_eq_false_iff_not, ne_eq, not_not, List.length_eq_zero_iff]

theorem refs_nodup {L : List (Bool × JVal)} {r : RefDefI} (h : RefsAre L r) : (r.refs.map (·.1)).Nodup := by
  cases h with
  | none => exact List.nodup_nil
  | some _ _ _ _ h => cases h with | mk _ _ _ _ _ _ h => exact h

section
variable {env : Env} (he : env.Sound) {m : List (String × JVal)} (hg : ∀ e ∈ m, Good env e.2)
include he hg

theorem readsItem_of {o : TmpObj} (ho : obj env false m 0 {} = .ok o) (hold : o.hasOld = false) {it : Item} (hi : toItem env o = .ok it) : ReadsItem m it := by
  obtain ⟨l, hl⟩ := obj_run env false m 0 {} ho
  have hm := hl.members he
  obtain ⟨ho1, ho2⟩ := (hasOld_iff o).1 hold
  unfold toItem at hi
  obtain ⟨v, hv, rfl⟩ := map_inv hi
  have hrefs : RefsAre (refEntries m) o.refs.def := refsAre_of (fun _ _ _ _ => refsGood env he _) hl.refs
  have hrn : (o.refs.map.map (·.1)).Nodup := refs_nodup hrefs
  have hrp : (env.order o.refs.map).Perm o.refs.map := he _
  have hrn' : ((env.order o.refs.map).map (·.1)).Nodup := (hrp.map _).nodup_iff.2 hrn
  obtain ⟨h1, h2, h3⟩ := sabMap_members _ _ hm.nodup hv
  have hkeys := fun n => (hm.keys n)
  refine .mk (valOf env) hl.decls (ho1 ▸ oldIs_of hl.old) hrefs ho2 ?_ ?_ ?_ ?_ ?_ ?_
  · intro d hd
    obtain ⟨e, he', rfl⟩ := List.mem_map.1 hd
    obtain ⟨k, hk⟩ := mapDecls_mem hl.decls _ hd
    have hx : item env e.1.vt e.1.val = .ok e.2 := hl.vals e he'
    rw [valOf_eq hx]
    exact (hg _ hk _).1 _ hx
  · exact h3 (by simp [AMap.Wf])
  · intro n
    rw [← hkeys]
    constructor
    · intro hn
      by_contra hc
      have : AMap.get v n = none := by rw [h2 n hc]; rfl
      exact (AMap.get_eq_none.1 this) hn
    · intro hn
      obtain ⟨e, he', rfl⟩ := List.mem_map.1 hn
      obtain ⟨s, _, hs⟩ := h1 _ _ _ he'
      exact List.mem_map_of_mem (AMap.mem_of_get hs)
  · intro d hd
    obtain ⟨i, x, h4, h5⟩ := hm.last d hd
    obtain ⟨y, h6, h7⟩ := h1 _ _ _ h4
    refine ⟨y, AMap.mem_of_get h7, ?_⟩
    rw [valOf_eq h5, sabOf_iff]
    exact h6
  · rw [refSabMap_eq _ _ (by simpa using hrn')]
    simpa [Function.comp_def] using hrn'
  · intro n q
    rw [refSabMap_eq _ _ (by simpa using hrn')]
    simp only [List.nil_append, List.mem_map, Prod.mk.injEq, Prod.exists]
    constructor
    · rintro ⟨k, i, q', vt, hh, rfl, rfl⟩
      exact ⟨i, vt, hrp.mem_iff.1 hh⟩
    · rintro ⟨i, vt, hh⟩
      exact ⟨n, i, q, vt, hrp.mem_iff.2 hh, rfl, rfl⟩

theorem readsDef_of {o : TmpObj} (ho : obj env false m 0 {} = .ok o) {d : LDef} (hi : intoListDef env o = .ok d) : ReadsDef m d := by
  obtain ⟨l, hl⟩ := obj_run env false m 0 {} ho
  have hm := hl.members he
  unfold intoListDef at hi
  split at hi
  · cases hi
  rename_i hid
  obtain ⟨v, hv, rfl⟩ := map_inv hi
  have hrefs : RefsAre (refEntries m) o.refs.def := refsAre_of (fun _ _ _ _ => refsGood env he _) hl.refs
  have hs := (defMap_spec (env.order o.default) 0 [] (by simpa using hm.nodup)).of_ok hv
  obtain ⟨h1, h2⟩ := defMap_members _ _ _ hm.nodup hv
  refine .mk (valOf env) hl.decls ?_ (oldIs_of hl.old) hrefs ?_ ?_ ?_ ?_ ?_
  · rcases (idRun_iff _ _).1 hl.id with ⟨h, _⟩ | ⟨s, _, h⟩ | ⟨f, _, h⟩
    · exact h
    · rw [h] at hid; simp at hid
    · rw [h] at hid; simp at hid
  · intro d hd
    obtain ⟨e, he', rfl⟩ := List.mem_map.1 hd
    obtain ⟨k, hk⟩ := mapDecls_mem hl.decls _ hd
    have hx : item env e.1.vt e.1.val = .ok e.2 := hl.vals e he'
    rw [valOf_eq hx]
    exact (hg _ hk _).1 _ hx
  · rw [hs.1]; simpa using hm.nodup
  · rw [hs.2.1]; simpa [← List.range_eq_range'] using idsFill_range _
  · intro n; rw [hs.1]; simpa using hm.keys n
  · intro d hd
    obtain ⟨i, x, h4, h5⟩ := hm.last d hd
    obtain ⟨i', y, h6, h7⟩ := h1 _ _ _ h4
    refine ⟨i', y, AMap.mem_of_get h7, ?_⟩
    rw [valOf_eq h5, defOf_iff]
    exact h6

/-- An object that the language accepts is read. -/
theorem obj_ok {l : List Decl} {old : List String} {r : RefDefI} {f : Decl → RustVal} (h1 : MapDecls m l) (h2 : OldIs m old) (h3 : RefsAre (refEntries m) r)
    (h4 : ∀ d ∈ l, Reads d.vt d.val (f d)) {i : Option IdVal} (hi : idRun (under "ID" m) none = .ok i) :
    ∃ o, obj env false m 0 {} = .ok o ∧ o.id = i ∧ (o.old = [] ↔ old = []) ∧ (o.refs.old = [] ↔ r.old = []) ∧ (o.refs.map = [] ↔ r.refs = []) ∧
      MembersOf env false l (env.order o.default) ∧ ∀ d ∈ l, item env d.vt d.val = .ok (valOf env d) ∧ kind (valOf env d) = kind (f d) := by
  obtain ⟨old', ho1, ho2⟩ := h2.run
  obtain ⟨t, ht1, ht2, ht3⟩ := h3.run (env := env) fun _ _ _ _ => refsGood env he _
  have hf : ∀ d ∈ l, item env d.vt d.val = .ok (valOf env d) ∧ kind (valOf env d) = kind (f d) := by
    intro d hd
    obtain ⟨k, hk⟩ := mapDecls_mem h1 _ hd
    obtain ⟨x', hx, hx'⟩ := (hg _ hk d.vt).2 _ (h4 d hd)
    rw [valOf_eq hx]
    exact ⟨hx, hx'⟩
  let o : TmpObj := { default := insAll 0 ((l.map fun d => (d, valOf env d)).map fun e => (e.1.name, e.2)) [], id := i, refs := t, old := old' }
  have hrun : ObjRun env false m 0 {} o (l.map fun d => (d, valOf env d)) := by
    refine ⟨by simpa [Function.comp_def] using h1, ?_, rfl, hi, ht1, ho1⟩
    intro e he'
    obtain ⟨d, hd, rfl⟩ := List.mem_map.1 he'
    exact (hf d hd).1
  have hm := hrun.members he
  rw [List.map_map, show ((fun e : Decl × RustVal => e.1) ∘ fun d => (d, valOf env d)) = id from rfl, List.map_id] at hm
  exact ⟨o, obj_of_run env false m 0 {} _ hrun, rfl, ho2, ht3, ht2, hm, hf⟩

theorem ReadsItem.run {it : Item} (h : ReadsItem m it) {i : Option IdVal} (hi : idRun (under "ID" m) none = .ok i) :
    ∃ o it', obj env false m 0 {} = .ok o ∧ o.id = i ∧ o.hasOld = false ∧ toItem env o = .ok it' := by
  cases h with
  | mk f h1 h2 h3 h4 h5 h6 h7 h8 h9 h10 =>
    obtain ⟨o, ho, h11, h12, h13, _, h14, h15⟩ := obj_ok he hg h1 h2 h3 h5 hi
    obtain ⟨v, hv⟩ := sabMap_ok (env.order o.default) [] (by
      rintro ⟨k, j, x⟩ hx
      obtain ⟨d, hd, rfl, hx'⟩ := h14.from_ k j x hx
      obtain ⟨y, _, hy⟩ := h8 d hd
      have hx' : item env d.vt d.val = .ok x := hx'
      refine sab_kind ?_ hy
      rw [← valOf_eq hx']
      exact (h15 d hd.mem).2)
    refine ⟨o, .mk v (refSabMap (env.order o.refs.map) []), ho, h11, (hasOld_iff o).2 ⟨h12.2 rfl, h13.2 h4⟩, ?_⟩
    unfold toItem
    rw [hv]
    rfl

theorem ReadsDef.run {d : LDef} (h : ReadsDef m d) : ∃ o d', obj env false m 0 {} = .ok o ∧ intoListDef env o = .ok d' := by
  cases h with
  | mk f h1 h2 h3 h4 h5 h6 h7 h8 h9 =>
    obtain ⟨o, ho, h11, h12, h13, _, h14, h15⟩ := obj_ok he hg h1 h3 h4 h5 (i := none) (by rw [show under "ID" m = [] from h2]; rfl)
    obtain ⟨v, hv⟩ := defMap_ok (env.order o.default) 0 [] (by
      rintro ⟨k, j, x⟩ hx
      obtain ⟨d, hd, rfl, hx'⟩ := h14.from_ k j x hx
      obtain ⟨_, y, _, hy⟩ := h9 d hd
      have hx' : item env d.vt d.val = .ok x := hx'
      refine def_kind ?_ hy
      rw [← valOf_eq hx']
      exact (h15 d hd.mem).2)
    refine ⟨o, .mk v { refs := o.refs.map, isEnum := o.refs.isEnum, old := o.refs.old } o.old, ho, ?_⟩
    unfold intoListDef
    rw [h11, hv]
    rfl
end

end Verif.Source
