import Verif.Lemmas.Grammar
import Verif.Props.SourceLists
/-! # Reading an object against the language of sources -/
namespace Verif.Source
open Diff Core

/-! ## Members -/

theorem last_of {l : List Decl} {n : String} (h : n ∈ names l) : ∃ d, Last l d ∧ d.name = n := by
  obtain ⟨p, d, s, h1, h2, h3⟩ := last_split h
  exact ⟨d, ⟨p, s, h1, by rw [h2]; exact h3⟩, h2⟩

theorem Last.mem {l : List Decl} {d : Decl} (h : Last l d) : d ∈ l := by
  obtain ⟨p, s, rfl, _⟩ := h; simp

theorem Last.name_mem {l : List Decl} {d : Decl} (h : Last l d) : d.name ∈ names l := List.mem_map_of_mem h.mem

/-- the members of an object that was read -/
structure MembersOf (env : Env) (isRef : Bool) (l : List Decl) (q : List (String × Nat × RustVal)) : Prop where
  nodup : (q.map (·.1)).Nodup
  keys : ∀ n, n ∈ q.map (·.1) ↔ n ∈ names l
  last : ∀ d, Last l d → ∃ i x, (d.name, i, x) ∈ q ∧ rd env isRef d.vt d.val = .ok x
  from_ : ∀ k i x, (k, i, x) ∈ q → ∃ d, Last l d ∧ d.name = k ∧ rd env isRef d.vt d.val = .ok x

theorem ObjRun.members {env : Env} (he : env.Sound) {isRef : Bool} {m : List (String × JVal)} {o : TmpObj} {l : List (Decl × RustVal)}
    (h : ObjRun env isRef m 0 {} o l) : MembersOf env isRef (l.map (·.1)) (env.order o.default) := by
  have hw : o.default.Wf := by rw [h.default]; exact insAll_wf _ _ _ (by simp [AMap.Wf])
  have hp : (env.order o.default).Perm o.default := he _
  have hnd : ((env.order o.default).map (·.1)).Nodup := (hp.map _).nodup_iff.2 hw
  have hkeys : ∀ n, n ∈ (env.order o.default).map (·.1) ↔ n ∈ names (l.map (·.1)) := by
    intro n
    rw [(hp.map _).mem_iff, h.default, insAll_keys]
    simp [names, Function.comp_def]
  have hlast : ∀ d, Last (l.map (·.1)) d → ∃ i x, (d.name, i, x) ∈ env.order o.default ∧ rd env isRef d.vt d.val = .ok x := by
    rintro d ⟨p, s, hl, hd⟩
    obtain ⟨p', q, hl1, hp', hq⟩ := List.map_eq_append_iff.1 hl
    obtain ⟨e, s', rfl, rfl, hs'⟩ := List.map_eq_cons_iff.1 hq
    refine ⟨p'.length, e.2, hp.mem_iff.2 (AMap.mem_of_get ?_), h.vals e (by rw [hl1]; simp)⟩
    rw [h.default, hl1, List.map_append, List.map_cons, insAll_get_last]
    · simp
    · rw [← hs'] at hd
      simpa [names, Function.comp_def] using hd
  refine ⟨hnd, hkeys, hlast, fun k i x hm => ?_⟩
  obtain ⟨d, hd, rfl⟩ := last_of ((hkeys k).1 (List.mem_map_of_mem hm))
  obtain ⟨i', x', h1, h2⟩ := hlast d hd
  refine ⟨d, hd, rfl, ?_⟩
  have e1 := AMap.get_of_mem (m := env.order o.default) hnd hm
  rw [AMap.get_of_mem (m := env.order o.default) hnd h1, Option.some.injEq, Prod.mk.injEq] at e1
  rw [h2, e1.2]

/-! ## References -/

theorem simpleName_iff (s : String) : (Names.jsonSimpleName s.toList).isSome ↔ Names.Ident s.toList := by
  unfold Names.jsonSimpleName
  split
  · rename_i n hn
    have := nameOf_normal (s := s) (n := n)
    unfold nameOf at this
    obtain ⟨rfl, hi⟩ := this.1 hn
    simpa using hi
  · rename_i hh
    simp only [Option.isSome_none, Bool.false_eq_true, false_iff]
    intro hi
    refine hh s.toList ?_
    exact (nameOf_normal (s := s)).2 ⟨rfl, hi⟩

theorem refLoop_ok : ∀ (l : List (String × Nat × RustVal)) (idx : Nat) (m : AMap (Nat × Qv String × VType)),
    (∀ k i x, (k, i, x) ∈ l → ∃ q vt, x = .param (.string q) vt ∧ ∀ s, q = .val s → s = "" ∨ Names.Ident s.toList) → ∃ m', refLoop l idx m = .ok m'
  | [], idx, m, _ => ⟨m, by simp only [refLoop]⟩
  | (k, i, x) :: r, idx, m, h => by
    obtain ⟨q, vt, rfl, hq⟩ := h k i x List.mem_cons_self
    have ih := fun m => refLoop_ok r (idx + 1) m fun k i x hx => h k i x (List.mem_cons_of_mem _ hx)
    cases q with
    | val s =>
      simp only [refLoop]
      rw [if_neg]
      · exact ih _
      · rintro ⟨h1, h2⟩
        rcases hq s rfl with h3 | h3
        · exact h2 h3
        · have := (simpleName_iff s).2 h3
          cases hh : Names.jsonSimpleName s.toList <;> rw [hh] at h1 this <;> simp at h1 this
    | undef => simp only [refLoop]; exact ih _
    | null => simp only [refLoop]; exact ih _

theorem refLoop_members : ∀ (l : List (String × Nat × RustVal)) (idx : Nat) (m : AMap (Nat × Qv String × VType)) {m' : AMap (Nat × Qv String × VType)},
    (l.map (·.1)).Nodup → refLoop l idx m = .ok m' →
    (∀ k i x, (k, i, x) ∈ l → ∃ id q vt, x = .param (.string q) vt ∧ (∀ s, q = .val s → s = "" ∨ Names.Ident s.toList) ∧ m'.get k = some (id, q, vt)) ∧
    ∀ k, k ∉ l.map (·.1) → m'.get k = m.get k
  | [], idx, m, m', _, h => by
    simp only [refLoop, Res.ok.injEq] at h
    subst h
    exact ⟨(fun _ _ _ h => (nomatch h)), fun _ _ => rfl⟩
  | (k, i, x) :: r, idx, m, m', hn, h => by
    simp only [List.map_cons, List.nodup_cons] at hn
    have step : ∀ q vt, x = .param (.string q) vt → (∀ s, q = .val s → s = "" ∨ Names.Ident s.toList) → refLoop r (idx + 1) (m.insert k (idx, q, vt)) = .ok m' →
        (∀ k' i' x', (k', i', x') ∈ (k, i, x) :: r → ∃ id q vt, x' = .param (.string q) vt ∧ (∀ s, q = .val s → s = "" ∨ Names.Ident s.toList) ∧
          m'.get k' = some (id, q, vt)) ∧ ∀ k', k' ∉ ((k, i, x) :: r).map (·.1) → m'.get k' = m.get k' := by
      intro q vt hx hq hr
      obtain ⟨h1, h2⟩ := refLoop_members r _ _ hn.2 hr
      refine ⟨fun k' i' x' hm => ?_, fun k' hk' => ?_⟩
      · rcases List.mem_cons.1 hm with e | hm
        · cases e
          exact ⟨idx, q, vt, hx, hq, by rw [h2 k hn.1, AMap.get_insert_self]⟩
        · exact h1 k' i' x' hm
      · simp only [List.map_cons, List.mem_cons, not_or] at hk'
        rw [h2 k' hk'.2, AMap.get_insert_ne _ _ hk'.1]
    cases x with
    | param p vt =>
      cases p with
      | string q =>
        cases q with
        | val s =>
          simp only [refLoop] at h
          split at h
          · cases h
          · rename_i hs
            refine step _ _ rfl ?_ h
            rintro s' e
            cases e
            by_contra hc
            rw [not_or] at hc
            refine hs ⟨?_, hc.1⟩
            rw [← Option.not_isSome, Bool.not_eq_true', ← Bool.not_eq_true, simpleName_iff]
            exact hc.2
        | undef => simp only [refLoop] at h; exact step _ _ rfl (fun _ e => (nomatch e)) h
        | null => simp only [refLoop] at h; exact step _ _ rfl (fun _ e => (nomatch e)) h
      | _ => simp only [refLoop] at h; cases h
    | _ => simp only [refLoop] at h; cases h

theorem itemRef_inv {vt : VType} {v : JVal} {x : RustVal} (h : itemRef vt v = .ok x) :
    ∃ q, x = .param (.string q) vt ∧ (v = .null ∧ q = .null ∨ v = .undef ∧ q = .undef ∨ ∃ s, v = .string s ∧ q = .val s) := by
  cases v <;> simp only [itemRef, Res.ok.injEq] at h <;> try cases h
  · exact ⟨_, rfl, .inl ⟨rfl, rfl⟩⟩
  · exact ⟨_, rfl, .inr (.inl ⟨rfl, rfl⟩)⟩
  · exact ⟨_, rfl, .inr (.inr ⟨_, rfl, rfl⟩)⟩

/-- an object of references is read as the language says -/
def RefGood (env : Env) (m : List (String × JVal)) : Prop :=
  (∀ t, refObj env m = .ok t → RefObj m t.map t.old) ∧
  ∀ refs old, RefObj m refs old → ∃ t, refObj env m = .ok t ∧ (t.map = [] ↔ refs = []) ∧ (t.old = [] ↔ old = [])

def TmpRefs.def (t : TmpRefs) : RefDefI := ⟨t.map, t.isEnum, t.old⟩

theorem refRun_spec (env : Env) : ∀ (L : List (Bool × JVal)) (t : TmpRefs) {t' : TmpRefs}, (∀ e ∈ L, ∀ m, e.2 = .map m → RefGood env m) →
    refRun env L t = .ok t' → (L = [] ∧ t' = t) ∨ (L ≠ [] ∧ t.map = [] ∧ RefsAre L t'.def)
  | [], t, t', _, h => by simp only [refRun, Res.ok.injEq] at h; exact .inl ⟨rfl, h.symm⟩
  | (b, v) :: r, t, t', hg, h => by
    simp only [refRun] at h
    obtain ⟨t1, h1, h⟩ := bind_inv h
    cases v with
    | map m =>
      simp only [refStep] at h1
      split at h1
      · rename_i ht
        obtain ⟨t2, h2, rfl⟩ := map_inv h1
        have hm := (hg _ List.mem_cons_self m rfl).1 t2 h2
        refine .inr ⟨by simp, List.length_eq_zero_iff.1 ht, ?_⟩
        rcases refRun_spec env r _ (fun e he => hg e (List.mem_cons_of_mem _ he)) h with ⟨rfl, rfl⟩ | ⟨hr, hmap, hrefs⟩
        · exact .some (p := []) (fun _ => []) (fun _ => []) (fun _ h => (nomatch h)) (fun _ h => (nomatch h)) hm
        · simp only at hmap
          generalize t'.def = T at hrefs
          cases hrefs with
          | none => exact absurd rfl hr
          | @some p b' m' refs' old' f o h3 h4 h5 =>
            rw [hmap] at hm
            classical
            refine .some (p := (b, .map m) :: p) (fun e => if e = (b, .map m) then m else f e) (fun e => if e = (b, .map m) then t2.old else o e) ?_ ?_ h5
            · intro e he
              by_cases hc : e = (b, .map m)
              · rw [if_pos hc, hc]
              · rw [if_neg hc]; exact h3 e ((List.mem_cons.1 he).resolve_left hc)
            · intro e he
              by_cases hc : e = (b, .map m)
              · rw [if_pos hc, if_pos hc]; exact hm
              · rw [if_neg hc, if_neg hc]; exact h4 e ((List.mem_cons.1 he).resolve_left hc)
      · cases h1
    | _ => cases h1

theorem refRun_ok (env : Env) : ∀ (p : List (Bool × JVal)) (t : TmpRefs) (b : Bool) (m : List (String × JVal)) (t' : TmpRefs), t.map = [] →
    (∀ e ∈ p, ∃ m x, e.2 = .map m ∧ refObj env m = .ok x ∧ x.map = []) → refObj env m = .ok t' →
    refRun env (p ++ [(b, .map m)]) t = .ok { t' with isEnum := b }
  | [], t, b, m, t', ht, _, h => by simp [refRun, refStep, ht, h, Res.bind_ok, Res.map_ok]
  | (b', v) :: r, t, b, m, t', ht, hp, h => by
    obtain ⟨m1, x, e, h1, h2⟩ := hp _ List.mem_cons_self
    simp only at e
    subst e
    simp only [List.cons_append, refRun, refStep, ht, List.length_nil, if_pos, h1, Res.map_ok, Res.bind_ok]
    exact refRun_ok env r _ b m t' h2 (fun e he => hp e (List.mem_cons_of_mem _ he)) h

theorem RefsAre.run {env : Env} {L : List (Bool × JVal)} {r : RefDefI} (h : RefsAre L r) (hg : ∀ e ∈ L, ∀ m, e.2 = .map m → RefGood env m) :
    ∃ t, refRun env L {} = .ok t ∧ (t.map = [] ↔ r.refs = []) ∧ (t.old = [] ↔ r.old = []) := by
  cases h with
  | none => exact ⟨{}, rfl, by simp, by simp⟩
  | @some p b m refs old f o h1 h2 h3 =>
    obtain ⟨t, ht, h4, h5⟩ := (hg (b, .map m) (by simp) m rfl).2 _ _ h3
    refine ⟨_, refRun_ok env p {} b m t rfl (fun e he => ?_) ht, h4, h5⟩
    obtain ⟨x, hx, h6, _⟩ := (hg e (by simp [he]) _ (h1 e he)).2 _ _ (h2 e he)
    exact ⟨_, x, h1 e he, hx, h6.2 rfl⟩

theorem refsAre_of {env : Env} {L : List (Bool × JVal)} {t : TmpRefs} (hg : ∀ e ∈ L, ∀ m, e.2 = .map m → RefGood env m)
    (h : refRun env L {} = .ok t) : RefsAre L t.def := by
  rcases refRun_spec env L {} hg h with ⟨rfl, rfl⟩ | ⟨_, _, h⟩
  · exact .none
  · exact h

theorem mem_refEntries {m : List (String × JVal)} {e : Bool × JVal} (h : e ∈ refEntries m) : ∃ k, (k, e.2) ∈ m := by
  obtain ⟨x, hx, rfl⟩ := List.mem_map.1 h
  exact ⟨x.1, (List.mem_filter.1 hx).1⟩

/-- the value of a reference that the model finds -/
theorem refValue_of {vt : VType} {v : JVal} {q : Qv String} (h : itemRef vt v = .ok (.param (.string q) vt))
    (hq : ∀ s, q = .val s → s = "" ∨ Names.Ident s.toList) : RefValue v q := by
  obtain ⟨q', e, h⟩ := itemRef_inv h
  cases e
  rcases h with ⟨rfl, rfl⟩ | ⟨rfl, rfl⟩ | ⟨s, rfl, rfl⟩
  · exact .null
  · exact .undef
  · exact .string (hq s rfl)

theorem nil_of_names {α : Type} {q : List (String × α)} {l : List Decl} (h : ∀ n, n ∈ q.map (·.1) ↔ n ∈ names l) : q = [] ↔ l = [] := by
  constructor
  · rintro rfl
    cases l with
    | nil => rfl
    | cons d r => exact absurd ((h d.name).2 (by simp [names])) (by simp)
  · rintro rfl
    cases q with
    | nil => rfl
    | cons e r => exact absurd ((h e.1).1 (by simp)) (by simp [names])

theorem refGood (env : Env) (he : env.Sound) : ∀ (n : Nat) (m : List (String × JVal)), sizeOf m < n → RefGood env m
  | 0, m, h => absurd h (Nat.not_lt_zero _)
  | n + 1, m, hs => by
    have hg : ∀ e ∈ refEntries m, ∀ m', e.2 = .map m' → RefGood env m' := by
      intro e he' m' hm'
      obtain ⟨k, hk⟩ := mem_refEntries he'
      refine refGood env he n m' ?_
      have := List.sizeOf_lt_of_mem hk
      rw [hm'] at this
      simp only [Prod.mk.sizeOf_spec, JVal.map.sizeOf_spec] at this
      omega
    constructor
    · intro t h
      unfold refObj at h
      obtain ⟨o, ho, h⟩ := bind_inv h
      obtain ⟨l, hl⟩ := obj_run env true m 0 {} ho
      have hm := hl.members he
      unfold getRef at h
      split at h
      · cases h
      rename_i hrl
      rw [ne_eq, not_not, List.length_eq_zero_iff] at hrl
      split at h
      · cases h
      rename_i hid
      obtain ⟨q, hq, rfl⟩ := map_inv h
      have hids := (refLoop_spec (env.order o.default) 0 [] (by simpa using hm.nodup)).of_ok hq
      obtain ⟨h1, h2⟩ := refLoop_members _ _ _ hm.nodup hq
      have hwq : AMap.Wf q := by unfold AMap.Wf; rw [hids.1]; simpa using hm.nodup
      refine .mk hl.decls ?_ (oldIs_of hl.old) (refsAre_of hg hl.refs) hrl ?_ hwq ?_ ?_ ?_
      · rcases (idRun_iff _ _).1 hl.id with ⟨h, _⟩ | ⟨s, _, h⟩ | ⟨f, _, h⟩
        · exact h
        · rw [h] at hid; simp at hid
        · rw [h] at hid; simp at hid
      · intro d hd
        obtain ⟨e, he', rfl⟩ := List.mem_map.1 hd
        obtain ⟨q', _, hh⟩ := itemRef_inv (hl.vals e he')
        rcases hh with ⟨hh, _⟩ | ⟨hh, _⟩ | ⟨s, hh, _⟩
        · exact .inl hh
        · exact .inr (.inl hh)
        · exact .inr (.inr ⟨s, hh⟩)
      · rw [hids.2]; simpa [← List.range_eq_range'] using idsFill_range _
      · intro n; rw [hids.1]; simpa using hm.keys n
      · intro d hd
        obtain ⟨i, x, h3, h4⟩ := hm.last d hd
        obtain ⟨id, q', vt, rfl, h6, h7⟩ := h1 _ _ _ h3
        have h4 : itemRef d.vt d.val = .ok (.param (.string q') vt) := h4
        obtain ⟨q'', e, _⟩ := itemRef_inv h4
        cases e
        exact ⟨id, q', AMap.mem_of_get h7, refValue_of h4 h6⟩
    · rintro refs old ⟨h1, h2, h3, h4, h5, h6, h7, h8, h9, h10⟩
      rename_i l r
      obtain ⟨old', ho1, ho2⟩ := h3.run
      obtain ⟨t, ht1, ht2, ht3⟩ := h4.run hg
      let f : Decl → RustVal := fun d => match itemRef d.vt d.val with | .ok x => x | _ => .mil none
      have hf : ∀ d ∈ l, itemRef d.vt d.val = .ok (f d) := by
        intro d hd
        rcases h6 d hd with h | h | ⟨s, h⟩ <;> simp only [f, h, itemRef]
      let o : TmpObj := { default := insAll 0 ((l.map fun d => (d, f d)).map fun e => (e.1.name, e.2)) [], id := none, refs := t, old := old' }
      have hrun : ObjRun env true m 0 {} o (l.map fun d => (d, f d)) := by
        refine ⟨by simpa [Function.comp_def] using h1, ?_, rfl, ?_, ht1, ho1⟩
        · intro e he'
          obtain ⟨d, hd, rfl⟩ := List.mem_map.1 he'
          exact hf d hd
        · rw [show under "ID" m = [] from h2]; rfl
      have hm := hrun.members he
      rw [List.map_map, show ((fun e : Decl × RustVal => e.1) ∘ fun d => (d, f d)) = id from rfl, List.map_id] at hm
      have hok : ∀ k i x, (k, i, x) ∈ env.order o.default → ∃ q vt, x = .param (.string q) vt ∧ ∀ s, q = .val s → s = "" ∨ Names.Ident s.toList := by
        intro k i x hx
        obtain ⟨d, hd, rfl, hx'⟩ := hm.from_ k i x hx
        obtain ⟨q, rfl, hv⟩ := itemRef_inv (show itemRef d.vt d.val = .ok x from hx')
        refine ⟨q, d.vt, rfl, ?_⟩
        rintro s rfl
        obtain ⟨id, q, _, hq⟩ := h10 d hd
        rcases hv with ⟨_, e⟩ | ⟨_, e⟩ | ⟨s', hs, e⟩
        · cases e
        · cases e
        · cases e
          rw [hs] at hq
          cases hq with
          | string hh => exact hh
      obtain ⟨q, hq⟩ := refLoop_ok _ 0 [] hok
      refine ⟨{ map := q, old := old' }, ?_, ?_, ho2⟩
      · unfold refObj
        rw [obj_of_run env true m 0 {} _ hrun, Res.bind_ok]
        unfold getRef
        rw [if_neg (by simp only [o, ht2.2 h5]; simp), if_neg (by simp [o]), hq]
        rfl
      · have hids := (refLoop_spec (env.order o.default) 0 [] (by simpa using hm.nodup)).of_ok hq
        have : ∀ n, n ∈ q.map (·.1) ↔ n ∈ names l := fun n => by rw [hids.1]; simpa using hm.keys n
        rw [nil_of_names this, nil_of_names h9]

theorem refsGood (env : Env) (he : env.Sound) (m : List (String × JVal)) : RefGood env m := refGood env he _ m (Nat.lt_succ_self _)

end Verif.Source
