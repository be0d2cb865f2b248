import Verif.Lemmas.GrammarList
import Mathlib.Data.List.Perm.Basic
/-! # Reading values against the language of sources -/
namespace Verif.Source
open Diff Core

/-! ## Attributes -/

/-- one attribute after the other -/
def attrRun : List Attr → TmpList → Res TmpList
  | [], t => .ok t
  | x :: r, t => (addAttr t x).bind (attrRun r)

/-- the attributes of a list -/
def TmpList.attrs (t : TmpList) : List Attr := t.default.toList.map .default ++ (t.old.toList.map .old ++ t.nextId.toList.map .nextId)

theorem addAttr_perm {t t' : TmpList} {x : Attr} (h : addAttr t x = .ok t') : (t.attrs ++ [x]).Perm t'.attrs ∧ t'.vec = t.vec := by
  cases x with
  | default d =>
    simp only [addAttr] at h
    split at h
    · rename_i hd
      cases h
      rw [Option.isNone_iff_eq_none] at hd
      refine ⟨?_, rfl⟩
      simp only [TmpList.attrs, hd, Option.toList_none, List.map_nil, List.nil_append, Option.toList_some, List.map_cons]
      exact List.perm_append_comm
    · cases h
  | old o =>
    simp only [addAttr] at h
    split at h
    · rename_i hd
      cases h
      rw [Option.isNone_iff_eq_none] at hd
      refine ⟨?_, rfl⟩
      simp only [TmpList.attrs, hd, Option.toList_none, List.map_nil, List.nil_append, Option.toList_some, List.map_cons, List.append_assoc]
      exact List.Perm.append_left _ List.perm_append_comm
    · cases h
  | nextId n =>
    simp only [addAttr] at h
    split at h
    · rename_i hd
      cases h
      rw [Option.isNone_iff_eq_none] at hd
      refine ⟨?_, rfl⟩
      simp only [TmpList.attrs, hd, Option.toList_none, List.map_nil, List.append_nil, Option.toList_some, List.map_cons, List.append_assoc]
      exact List.Perm.refl _
    · cases h

theorem attrRun_perm : ∀ (xs : List Attr) (t : TmpList) {t' : TmpList}, attrRun xs t = .ok t' → (t.attrs ++ xs).Perm t'.attrs ∧ t'.vec = t.vec
  | [], t, t', h => by simp only [attrRun, Res.ok.injEq] at h; subst h; simp
  | x :: r, t, t', h => by
    simp only [attrRun] at h
    obtain ⟨t1, h1, h⟩ := bind_inv h
    obtain ⟨h2, h3⟩ := addAttr_perm h1
    obtain ⟨h4, h5⟩ := attrRun_perm r t1 h
    refine ⟨?_, by rw [h5, h3]⟩
    rw [show t.attrs ++ x :: r = (t.attrs ++ [x]) ++ r by simp]
    exact (h2.append_right r).trans h4

def Attr.default? : Attr → Option LDef
  | .default d => some d
  | _ => none
def Attr.old? : Attr → Option (List String)
  | .old d => some d
  | _ => none
def Attr.nextId? : Attr → Option Nat
  | .nextId d => some d
  | _ => none

theorem attrs_default (t : TmpList) : t.attrs.filterMap Attr.default? = t.default.toList := by
  cases h1 : t.default <;> cases h2 : t.old <;> cases h3 : t.nextId <;> simp [TmpList.attrs, h1, h2, h3, List.filterMap, Attr.default?]
theorem attrs_old (t : TmpList) : t.attrs.filterMap Attr.old? = t.old.toList := by
  cases h1 : t.default <;> cases h2 : t.old <;> cases h3 : t.nextId <;> simp [TmpList.attrs, h1, h2, h3, List.filterMap, Attr.old?]
theorem attrs_nextId (t : TmpList) : t.attrs.filterMap Attr.nextId? = t.nextId.toList := by
  cases h1 : t.default <;> cases h2 : t.old <;> cases h3 : t.nextId <;> simp [TmpList.attrs, h1, h2, h3, List.filterMap, Attr.nextId?]

theorem toList_perm {α : Type} {a b : Option α} (h : a.toList.Perm b.toList) : a = b := by
  cases a with
  | none => cases b with
    | none => rfl
    | some b => simp at h
  | some a => cases b with
    | none => simp at h
    | some b => simpa using h

theorem attrs_inj {t t' : TmpList} (h : t.attrs.Perm t'.attrs) (hv : t'.vec = t.vec) : t = t' := by
  have h1 := toList_perm (by simpa only [attrs_default] using h.filterMap Attr.default?)
  have h2 := toList_perm (by simpa only [attrs_old] using h.filterMap Attr.old?)
  have h3 := toList_perm (by simpa only [attrs_nextId] using h.filterMap Attr.nextId?)
  cases t; cases t'
  simp only at h1 h2 h3 hv
  subst h1 h2 h3 hv
  rfl

theorem none_of_perm {α β : Type} {f : α → Option β} {l r : List α} {x : α} {t t' : Option β} (h : (l ++ x :: r).filterMap f |>.Perm t'.toList)
    (hl : l.filterMap f = t.toList) (hx : (f x).isSome) : t = none := by
  have hlen := h.length_eq
  obtain ⟨b, hb⟩ := Option.isSome_iff_exists.1 hx
  rw [List.filterMap_append, List.filterMap_cons, hb, hl, List.length_append, List.length_cons] at hlen
  cases t with
  | none => rfl
  | some a => cases t' <;> simp at hlen <;> omega

theorem attrRun_ok : ∀ (xs : List Attr) (t : TmpList) {t' : TmpList}, (t.attrs ++ xs).Perm t'.attrs → t'.vec = t.vec → attrRun xs t = .ok t'
  | [], t, t', h, hv => by rw [List.append_nil] at h; rw [attrs_inj h hv]; rfl
  | x :: r, t, t', h, hv => by
    have hok : ∃ t1, addAttr t x = .ok t1 := by
      cases x with
      | default d =>
        have := h.filterMap Attr.default?
        rw [attrs_default] at this
        have := none_of_perm this (attrs_default t) rfl
        exact ⟨_, by simp only [addAttr]; rw [if_pos (by simp [this])]⟩
      | old d =>
        have := h.filterMap Attr.old?
        rw [attrs_old] at this
        have := none_of_perm this (attrs_old t) rfl
        exact ⟨_, by simp only [addAttr]; rw [if_pos (by simp [this])]⟩
      | nextId d =>
        have := h.filterMap Attr.nextId?
        rw [attrs_nextId] at this
        have := none_of_perm this (attrs_nextId t) rfl
        exact ⟨_, by simp only [addAttr]; rw [if_pos (by simp [this])]⟩
    obtain ⟨t1, h1⟩ := hok
    obtain ⟨h2, h3⟩ := addAttr_perm h1
    simp only [attrRun, h1, Res.bind_ok]
    refine attrRun_ok r t1 ?_ (by rw [hv, h3])
    refine (h2.symm.append_right r).trans ?_
    simpa using h

theorem listAttr_cases {env : Env} {a : List JVal} {x : Attr} (h : listAttr env a = .ok x) :
    (∃ m o d, IsDefault a m ∧ obj env false m 0 {} = .ok o ∧ intoListDef env o = .ok d ∧ x = .default d) ∨
    (∃ b o, a = .string "Old" :: b ∧ getOld [] b = .ok o ∧ x = .old o) ∨ ∃ n, a = [.string "NextID", .int n] ∧ x = .nextId (i64ToU64 n) := by
  have fin : ∀ {m}, IsDefault a m → ((obj env false m 0 {}).bind fun o => (intoListDef env o).map .default) = .ok x →
      ∃ m o d, IsDefault a m ∧ obj env false m 0 {} = .ok o ∧ intoListDef env o = .ok d ∧ x = .default d := by
    intro m hm h
    obtain ⟨o, ho, h⟩ := bind_inv h
    obtain ⟨d, hd, rfl⟩ := map_inv h
    exact ⟨m, o, d, hm, ho, hd, rfl⟩
  match a, h, @fin with
  | [], h, _ => simp [listAttr] at h
  | [.map m], h, fin => simp only [listAttr] at h; exact .inl (fin (.inl rfl) h)
  | .map _ :: _ :: _, h, _ => simp [listAttr] at h
  | .string s :: r, h, fin =>
    by_cases hs : s = "Default" ∧ ∃ m, r = [.map m]
    · obtain ⟨rfl, m, rfl⟩ := hs
      rw [listAttr_def] at h
      exact .inl (fin (.inr rfl) h)
    · rw [listAttr_rest env s r fun e m hm => hs ⟨e, m, hm⟩, attrRest] at h
      split at h
      · cases h
      split at h
      · rename_i e
        subst e
        obtain ⟨o, ho, rfl⟩ := map_inv h
        exact .inr (.inl ⟨r, o, rfl, ho, rfl⟩)
      split at h
      · rename_i e
        subst e
        unfold nextIdAttr at h
        split at h
        · cases h; exact .inr (.inr ⟨_, rfl, rfl⟩)
        · cases h
      · cases h
  | .array _ :: _, h, _ => simp [listAttr] at h
  | .bool _ :: _, h, _ => simp [listAttr] at h
  | .int _ :: _, h, _ => simp [listAttr] at h
  | .double _ :: _, h, _ => simp [listAttr] at h
  | .null :: _, h, _ => simp [listAttr] at h
  | .undef :: _, h, _ => simp [listAttr] at h

theorem listAttr_default {env : Env} {a : List JVal} {m : List (String × JVal)} (ha : IsDefault a m) {o : TmpObj} {d : LDef}
    (ho : obj env false m 0 {} = .ok o) (hd : intoListDef env o = .ok d) : listAttr env a = .ok (.default d) := by
  rcases ha with rfl | rfl
  · simp only [listAttr, ho, Res.bind_ok, hd, Res.map_ok]
  · rw [listAttr_def]; simp only [ho, Res.bind_ok, hd, Res.map_ok]

theorem listAttr_old {env : Env} {b : List JVal} {o : List String} (h : getOld [] b = .ok o) : listAttr env (.string "Old" :: b) = .ok (.old o) := by
  rw [listAttr_rest env _ _ (fun e => absurd e (by decide)), attrRest, if_neg (by decide), if_pos rfl, h]; rfl

theorem listAttr_nextId (env : Env) (n : Int) : listAttr env [.string "NextID", .int n] = .ok (.nextId (i64ToU64 n)) := by
  rw [listAttr_rest env _ _ (fun e => absurd e (by decide)), attrRest, if_neg (by decide), if_neg (by decide), if_pos rfl]; rfl

/-! ## Lists -/

/-- attributes and what they are -/
def AttrsOf (env : Env) : List (List JVal) → List Attr → Prop := List.Forall₂ fun a x => listAttr env a = .ok x

theorem list_run (env : Env) : ∀ (r : List JVal) (t : TmpList) {t' : TmpList}, t.vec = [] → list env t r = .ok t' →
    ∃ as ms xs t1, r = as.map .array ++ ms.map .map ∧ AttrsOf env as xs ∧ attrRun xs t = .ok t1 ∧ ObjsOf env ms t'.vec ∧ t' = { t1 with vec := t'.vec }
  | [], t, t', ht, h => by
    simp only [list, Res.ok.injEq] at h
    subst h
    exact ⟨[], [], [], t, rfl, .nil, rfl, by rw [ht]; exact .nil, rfl⟩
  | .map m :: r, t, t', ht, h => by
    simp only [list] at h
    obtain ⟨o, ho, h⟩ := bind_inv h
    obtain ⟨l, hl, rfl⟩ := map_inv h
    obtain ⟨ms, h1, h2⟩ := objs_shape env r hl
    exact ⟨[], m :: ms, [], t, by rw [h1]; rfl, .nil, rfl, .cons ho h2, rfl⟩
  | .array a :: r, t, t', ht, h => by
    simp only [list] at h
    obtain ⟨x, hx, h⟩ := bind_inv h
    obtain ⟨t1, ht1, h⟩ := bind_inv h
    obtain ⟨as, ms, xs, t2, h1, h2, h3, h4, h5⟩ := list_run env r t1 (by rw [(addAttr_perm ht1).2, ht]) h
    exact ⟨a :: as, ms, x :: xs, t2, by rw [h1]; rfl, .cons hx h2, by simp only [attrRun, ht1, Res.bind_ok, h3], h4, h5⟩
  | .string _ :: _, t, t', _, h => by simp only [list] at h; cases h
  | .bool _ :: _, t, t', _, h => by simp only [list] at h; cases h
  | .int _ :: _, t, t', _, h => by simp only [list] at h; cases h
  | .double _ :: _, t, t', _, h => by simp only [list] at h; cases h
  | .null :: _, t, t', _, h => by simp only [list] at h; cases h
  | .undef :: _, t, t', _, h => by simp only [list] at h; cases h

theorem objs_of {env : Env} {ms : List (List (String × JVal))} {os : List TmpObj} (h : ObjsOf env ms os) : objs env (ms.map .map) = .ok os := by
  induction h with
  | nil => simp [objs]
  | cons h _ ih => simp only [List.map_cons, objs, h, Res.bind_ok, ih, Res.map_ok]

theorem list_of_run {env : Env} {ms : List (List (String × JVal))} {os : List TmpObj} (ho : ObjsOf env ms os) {as : List (List JVal)} {xs : List Attr}
    (ha : AttrsOf env as xs) : ∀ (t : TmpList) {t1 : TmpList}, t.vec = [] → attrRun xs t = .ok t1 →
    list env t (as.map .array ++ ms.map .map) = .ok { t1 with vec := os } := by
  induction ha with
  | nil =>
    intro t t1 ht h
    simp only [attrRun, Res.ok.injEq] at h
    subst h
    cases ho with
    | nil => simp only [List.map_nil, List.append_nil, list]; rw [← ht]
    | cons h1 h2 => simp only [List.map_nil, List.nil_append, List.map_cons, list, h1, Res.bind_ok, objs_of h2, Res.map_ok]
  | cons hx _ ih =>
    intro t t1 ht h
    simp only [attrRun] at h
    obtain ⟨t2, h2, h⟩ := bind_inv h
    simp only [List.map_cons, List.cons_append, list, hx, Res.bind_ok, h2]
    exact ih t2 (by rw [(addAttr_perm h2).2, ht]) h

/-- The attributes of a list that was read, in the order of `TmpList.attrs`. -/
theorem attrs_sorted {env : Env} {as : List (List JVal)} {xs : List Attr} (h : AttrsOf env as xs) {t : TmpList} (ht : attrRun xs {} = .ok t) :
    ∃ as', as.Perm as' ∧ AttrsOf env as' t.attrs := by
  have hp := (attrRun_perm xs {} ht).1
  rw [show TmpList.attrs {} ++ xs = xs from rfl] at hp
  obtain ⟨as', h1, h2⟩ := List.perm_comp_forall₂ hp.symm (List.Forall₂.flip h)
  exact ⟨as', h2.symm, h1.flip⟩

theorem attrs_unsorted {env : Env} {as as' : List (List JVal)} (hp : as.Perm as') {t : TmpList} (h : AttrsOf env as' t.attrs) (hv : t.vec = []) :
    ∃ xs, AttrsOf env as xs ∧ attrRun xs {} = .ok t := by
  obtain ⟨xs, h1, h2⟩ := List.perm_comp_forall₂ hp h
  exact ⟨xs, h1, attrRun_ok xs {} (by rw [show TmpList.attrs {} ++ xs = xs from rfl]; exact h2) hv⟩

theorem attr_default {env : Env} {a : List JVal} {d : LDef} (h : listAttr env a = .ok (.default d)) :
    ∃ m o, IsDefault a m ∧ obj env false m 0 {} = .ok o ∧ intoListDef env o = .ok d := by
  rcases listAttr_cases h with ⟨m, o, d', h1, h2, h3, e⟩ | ⟨b, o, _, _, e⟩ | ⟨n, _, e⟩
  · cases e; exact ⟨m, o, h1, h2, h3⟩
  · cases e
  · cases e

theorem attr_old {env : Env} {a : List JVal} {o : List String} (h : listAttr env a = .ok (.old o)) : ∃ b, a = .string "Old" :: b ∧ getOld [] b = .ok o := by
  rcases listAttr_cases h with ⟨m, o, d', h1, h2, h3, e⟩ | ⟨b, o, h1, h2, e⟩ | ⟨n, _, e⟩
  · cases e
  · cases e; exact ⟨b, h1, h2⟩
  · cases e

theorem attr_nextId {env : Env} {a : List JVal} {k : Nat} (h : listAttr env a = .ok (.nextId k)) : ∃ n, a = [.string "NextID", .int n] ∧ k = i64ToU64 n := by
  rcases listAttr_cases h with ⟨m, o, d', h1, h2, h3, e⟩ | ⟨b, o, h1, h2, e⟩ | ⟨n, h1, e⟩
  · cases e
  · cases e
  · cases e; exact ⟨n, h1, rfl⟩

/-! ## Items -/

theorem obj_id_of {env : Env} {m : List (String × JVal)} {o : TmpObj} (h : obj env false m 0 {} = .ok o) :
    (NoId m ∧ o.id = none) ∨ (∃ s, StrId m s ∧ o.id = some (.str s)) ∨ ∃ f, under "ID" m = [.double f] ∧ o.id = some (.num (f64ToU64 f)) := by
  obtain ⟨l, hl⟩ := obj_run env false m 0 {} h
  exact (idRun_iff _ _).1 hl.id

section
variable {env : Env} (he : env.Sound)
include he

theorem listItems_of {ms : List (List (String × JVal))} {os : List TmpObj} (h : ObjsOf env ms os) (hg : ∀ m ∈ ms, ∀ e ∈ m, Good env e.2) :
    ∀ {items : List Item}, listItems env os = .ok items → items.length = ms.length ∧ (∀ m ∈ ms, NoId m) ∧ ∀ e ∈ ms.zip items, ReadsItem e.1 e.2 := by
  induction h with
  | nil =>
    intro items hi
    simp only [listItems, Res.ok.injEq] at hi
    subst hi
    exact ⟨rfl, (fun _ h => (nomatch h)), (fun _ h => (nomatch h))⟩
  | @cons m o ms os ho _ ih =>
    intro items hi
    simp only [listItems] at hi
    obtain ⟨i, h1, hi⟩ := bind_inv hi
    obtain ⟨l, hl, rfl⟩ := map_inv hi
    obtain ⟨h2, h3, h4⟩ := ih (fun m hm => hg m (List.mem_cons_of_mem _ hm)) hl
    unfold intoItem at h1
    split at h1
    · cases h1
    rename_i hid
    split at h1
    · cases h1
    rename_i hold
    rw [Bool.not_eq_true] at hold
    refine ⟨by simp [h2], fun x hx => ?_, fun e he' => ?_⟩
    · rcases List.mem_cons.1 hx with rfl | hx
      · rcases obj_id_of ho with ⟨h, _⟩ | ⟨s, _, h⟩ | ⟨f, _, h⟩
        · exact h
        · rw [h] at hid; simp at hid
        · rw [h] at hid; simp at hid
      · exact h3 x hx
    · rw [List.zip_cons_cons] at he'
      rcases List.mem_cons.1 he' with rfl | he'
      · exact readsItem_of he (hg m List.mem_cons_self) ho hold h1
      · exact h4 e he'

theorem listItems_run : ∀ (ms : List (List (String × JVal))) (items : List Item), (∀ m ∈ ms, ∀ e ∈ m, Good env e.2) → items.length = ms.length →
    (∀ m ∈ ms, NoId m) → (∀ e ∈ ms.zip items, ReadsItem e.1 e.2) → ∃ os l, ObjsOf env ms os ∧ listItems env os = .ok l
  | [], items, _, _, _, _ => ⟨[], [], .nil, rfl⟩
  | m :: ms, [], _, h, _, _ => by simp at h
  | m :: ms, i :: items, hg, hlen, hid, hr => by
    obtain ⟨os, l, h1, h2⟩ := listItems_run ms items (fun m hm => hg m (List.mem_cons_of_mem _ hm)) (by simpa using hlen)
      (fun m hm => hid m (List.mem_cons_of_mem _ hm)) (fun e he' => hr e (by rw [List.zip_cons_cons]; exact List.mem_cons_of_mem _ he'))
    obtain ⟨o, it, h3, h4, h5, h6⟩ := (hr (m, i) (by rw [List.zip_cons_cons]; exact List.mem_cons_self)).run he (hg m List.mem_cons_self) (i := none)
      (by rw [show under "ID" m = [] from hid m List.mem_cons_self]; rfl)
    refine ⟨o :: os, it :: l, .cons h3 h1, ?_⟩
    simp only [listItems, intoItem, h4, Option.isSome_none, Bool.false_eq_true, if_false, h5, h6, Res.bind_ok, h2, Res.map_ok]

theorem dataItems_of {ms : List (List (String × JVal))} {os : List TmpObj} (h : ObjsOf env ms os) (hg : ∀ m ∈ ms, ∀ e ∈ m, Good env e.2) :
    ∀ (a : AMap Item) {t : AMap Item}, dataItems env os a = .ok t → ∃ rows : List (String × Item), t = insRows rows a ∧ rows.length = ms.length ∧
      (∀ e ∈ ms.zip rows, StrId e.1 e.2.1) ∧ ∀ e ∈ ms.zip rows, ReadsItem e.1 e.2.2 := by
  induction h with
  | nil =>
    intro a t hi
    simp only [dataItems, Res.ok.injEq] at hi
    exact ⟨[], hi.symm, rfl, (fun _ h => (nomatch h)), (fun _ h => (nomatch h))⟩
  | @cons m o ms os ho _ ih =>
    intro a t hi
    simp only [dataItems] at hi
    obtain ⟨p, h1, hi⟩ := bind_inv hi
    obtain ⟨rows, h2, h3, h4, h5⟩ := ih (fun m hm => hg m (List.mem_cons_of_mem _ hm)) _ hi
    unfold intoItemWithId at h1
    split at h1
    · cases h1
    rename_i hold
    rw [Bool.not_eq_true] at hold
    split at h1
    · rename_i s hid
      obtain ⟨it, hit, rfl⟩ := map_inv h1
      refine ⟨(s, it) :: rows, h2, by simp [h3], fun e he' => ?_, fun e he' => ?_⟩
      · rw [List.zip_cons_cons] at he'
        rcases List.mem_cons.1 he' with rfl | he'
        · rcases obj_id_of ho with ⟨_, h⟩ | ⟨s', h, h'⟩ | ⟨f, _, h⟩
          · rw [h] at hid; cases hid
          · rw [h'] at hid; cases hid; exact h
          · rw [h] at hid; cases hid
        · exact h4 e he'
      · rw [List.zip_cons_cons] at he'
        rcases List.mem_cons.1 he' with rfl | he'
        · exact readsItem_of he (hg m List.mem_cons_self) ho hold hit
        · exact h5 e he'
    · cases h1

theorem dataItems_run : ∀ (ms : List (List (String × JVal))) (rows : List (String × Item)) (a : AMap Item), (∀ m ∈ ms, ∀ e ∈ m, Good env e.2) →
    rows.length = ms.length → (∀ e ∈ ms.zip rows, StrId e.1 e.2.1) → (∀ e ∈ ms.zip rows, ReadsItem e.1 e.2.2) →
    ∃ os, ObjsOf env ms os ∧ ∀ a, ∃ t, dataItems env os a = .ok t
  | [], rows, a, _, _, _, _ => ⟨[], .nil, fun a => ⟨a, rfl⟩⟩
  | m :: ms, [], a, _, h, _, _ => by simp at h
  | m :: ms, i :: rows, a, hg, hlen, hid, hr => by
    obtain ⟨os, h1, h2⟩ := dataItems_run ms rows a (fun m hm => hg m (List.mem_cons_of_mem _ hm)) (by simpa using hlen)
      (fun e he' => hid e (by rw [List.zip_cons_cons]; exact List.mem_cons_of_mem _ he')) (fun e he' => hr e (by rw [List.zip_cons_cons]; exact List.mem_cons_of_mem _ he'))
    have h0 : StrId m i.1 := hid (m, i) (by rw [List.zip_cons_cons]; exact List.mem_cons_self)
    obtain ⟨o, it, h3, h4, h5, h6⟩ := (hr (m, i) (by rw [List.zip_cons_cons]; exact List.mem_cons_self)).run he (hg m List.mem_cons_self) (i := some (.str i.1))
      (by rw [show under "ID" m = [.string i.1] from h0]; rfl)
    refine ⟨o :: os, .cons h3 h1, fun a => ?_⟩
    obtain ⟨t, ht⟩ := h2 (a.insert i.1 it)
    refine ⟨t, ?_⟩
    simp only [dataItems, intoItemWithId, h4, h5, Bool.false_eq_true, if_false, h6, Res.map_ok, Res.bind_ok, ht]

theorem mutItems_of {ms : List (List (String × JVal))} {os : List TmpObj} (h : ObjsOf env ms os) (hg : ∀ m ∈ ms, ∀ e ∈ m, Good env e.2) :
    ∀ (idx : Nat) {items : List (Nat × Item)}, mutItems env idx os = .ok items → items.length = ms.length ∧
      (∀ i m e, ms[i]? = some m → items[i]? = some e → NumId m (idx + i) e.1) ∧ ∀ e ∈ ms.zip items, ReadsItem e.1 e.2.2 := by
  induction h with
  | nil =>
    intro idx items hi
    simp only [mutItems, Res.ok.injEq] at hi
    subst hi
    exact ⟨rfl, fun i m e h => by simp at h, (fun _ h => (nomatch h))⟩
  | @cons m o ms os ho _ ih =>
    intro idx items hi
    simp only [mutItems] at hi
    obtain ⟨p, h1, hi⟩ := bind_inv hi
    obtain ⟨l, hl, rfl⟩ := map_inv hi
    obtain ⟨h2, h3, h4⟩ := ih (fun m hm => hg m (List.mem_cons_of_mem _ hm)) _ hl
    have hp : NumId m idx p.1 ∧ o.hasOld = false ∧ toItem env o = .ok p.2 := by
      unfold intoMutItem at h1
      split at h1
      · cases h1
      · rename_i n hid
        split at h1
        · cases h1
        rename_i hold
        rw [Bool.not_eq_true] at hold
        obtain ⟨it, hit, rfl⟩ := map_inv h1
        refine ⟨?_, hold, hit⟩
        rcases obj_id_of ho with ⟨_, h⟩ | ⟨s', _, h⟩ | ⟨f, h, h'⟩
        · rw [h] at hid; cases hid
        · rw [h] at hid; cases hid
        · rw [h'] at hid; cases hid; exact .inl ⟨f, h, rfl⟩
      · rename_i hid
        split at h1
        · cases h1
        rename_i hold
        rw [Bool.not_eq_true] at hold
        obtain ⟨it, hit, rfl⟩ := map_inv h1
        refine ⟨?_, hold, hit⟩
        rcases obj_id_of ho with ⟨h, _⟩ | ⟨s', _, h⟩ | ⟨f, _, h⟩
        · exact .inr ⟨h, rfl⟩
        · rw [h] at hid; cases hid
        · rw [h] at hid; cases hid
    refine ⟨by simp [h2], fun i x e hx hxe => ?_, fun e he' => ?_⟩
    · cases i with
      | zero =>
        simp only [List.getElem?_cons_zero, Option.some.injEq] at hx hxe
        subst hx hxe
        exact hp.1
      | succ i =>
        simp only [List.getElem?_cons_succ] at hx hxe
        have := h3 i x e hx hxe
        rwa [show idx + 1 + i = idx + (i + 1) by omega] at this
    · rw [List.zip_cons_cons] at he'
      rcases List.mem_cons.1 he' with rfl | he'
      · exact readsItem_of he (hg m List.mem_cons_self) ho hp.2.1 hp.2.2
      · exact h4 e he'

theorem mutItems_run : ∀ (ms : List (List (String × JVal))) (items : List (Nat × Item)) (idx : Nat), (∀ m ∈ ms, ∀ e ∈ m, Good env e.2) →
    items.length = ms.length → (∀ i m e, ms[i]? = some m → items[i]? = some e → NumId m (idx + i) e.1) → (∀ e ∈ ms.zip items, ReadsItem e.1 e.2.2) →
    ∃ os l, ObjsOf env ms os ∧ mutItems env idx os = .ok l
  | [], items, idx, _, _, _, _ => ⟨[], [], .nil, rfl⟩
  | m :: ms, [], idx, _, h, _, _ => by simp at h
  | m :: ms, i :: items, idx, hg, hlen, hid, hr => by
    obtain ⟨os, l, h1, h2⟩ := mutItems_run ms items (idx + 1) (fun m hm => hg m (List.mem_cons_of_mem _ hm)) (by simpa using hlen)
      (fun j x e hx hxe => by
        have := hid (j + 1) x e (by simpa using hx) (by simpa using hxe)
        rwa [show idx + (j + 1) = idx + 1 + j by omega] at this)
      (fun e he' => hr e (by rw [List.zip_cons_cons]; exact List.mem_cons_of_mem _ he'))
    have h0 : NumId m (idx + 0) i.1 := hid 0 m i rfl rfl
    have hrun : ∃ j, idRun (under "ID" m) none = .ok j ∧ ∀ s, j ≠ some (.str s) := by
      rcases h0 with ⟨f, h, _⟩ | ⟨h, _⟩
      · exact ⟨some (.num (f64ToU64 f)), by rw [h]; rfl, by simp⟩
      · exact ⟨none, by rw [h]; rfl, by simp⟩
    obtain ⟨j, hj, hjs⟩ := hrun
    obtain ⟨o, it, h3, h4, h5, h6⟩ := (hr (m, i) (by rw [List.zip_cons_cons]; exact List.mem_cons_self)).run he (hg m List.mem_cons_self) hj
    have hp : ∃ p, intoMutItem env idx o = .ok p := by
      unfold intoMutItem
      split
      · rename_i s hs; rw [h4] at hs; exact absurd hs (hjs s)
      · rename_i n _; exact ⟨(n, it), by rw [h5, h6]; rfl⟩
      · exact ⟨(idx, it), by rw [h5, h6]; rfl⟩
    obtain ⟨p, hp⟩ := hp
    exact ⟨o :: os, p :: l, .cons h3 h1, by simp only [mutItems, hp, Res.bind_ok, h2, Res.map_ok]⟩
end

end Verif.Source
