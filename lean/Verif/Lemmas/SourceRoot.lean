import Verif.Lemmas.SourceMeta
import Verif.Props.Names
import Mathlib.Data.List.Dedup
import Mathlib.Data.Finset.Card
/-! # Lemmas about the root of a source -/
namespace Verif.Source
open Diff Core

/-! ## Names -/

theorem nameOf_name {k : String} {n : List Char} {vt : VType} : nameOf k = some (.name n vt) ↔ Written k (String.ofList n) vt := by
  unfold nameOf Written
  rw [Names.C23_accepts, String.toList_ofList]

theorem written_iff {k n : String} {vt : VType} : Written k n vt ↔ nameOf k = some (.name n.toList vt) := by
  rw [nameOf_name, String.ofList_toList]

theorem nameOf_system {k : String} {s : Names.System} (h : nameOf k = some (.system s)) : Names.Special k.toList := by
  by_contra hs
  unfold nameOf at h
  rw [Names.jsonName_not_special hs] at h
  cases hv : Names.valueTypeAndName k.toList <;> rw [hv] at h <;> cases h

theorem written_unique {k n n' : String} {vt vt' : VType} (h : Written k n vt) (h' : Written k n' vt') : n = n' ∧ vt = vt' := by
  rw [written_iff] at h h'
  rw [h] at h'
  simp only [Option.some.injEq, Names.NameType.name.injEq] at h'
  exact ⟨String.toList_inj.1 h'.1, h'.2⟩

theorem written_not_special {k n : String} {vt : VType} (h : Written k n vt) : ¬ Names.Special k.toList := by
  intro hs
  obtain ⟨suf, h1, h2, h3⟩ := h
  exact (Names.C23_special k.toList).2.2.2.2 hs ⟨suf, vt, n.toList, h1, h2, h3⟩

/-! ## Declarations are determined -/

theorem mapDecls_unique {m : List (String × JVal)} {l l' : List Decl} (h : MapDecls m l) (h' : MapDecls m l') : l = l' := by
  induction h generalizing l' with
  | nil => cases h'; rfl
  | member hw _ ih =>
    cases h' with
    | member hw' h'' =>
      obtain ⟨rfl, rfl⟩ := written_unique hw hw'
      rw [ih h'']
    | special hs _ => exact absurd hs (written_not_special hw)
  | special hs _ ih =>
    cases h' with
    | member hw' _ => exact absurd hs (written_not_special hw')
    | special _ h'' => exact ih h''

theorem fileDecls_unique {m : List (String × JVal)} {l l' : List Decl} (h : FileDecls m l) (h' : FileDecls m l') : l = l' := by
  induction h generalizing l' with
  | nil => cases h'; rfl
  | root _ ih =>
    cases h' with
    | root h'' => exact ih h''
    | member hs _ _ => exact absurd rfl hs
  | member hs hw _ ih =>
    cases h' with
    | root _ => exact absurd rfl hs
    | member _ hw' h'' =>
      obtain ⟨rfl, rfl⟩ := written_unique hw hw'
      rw [ih h'']

theorem sortedFrom_unique {l a b : List Decl} (ha : SortedFrom l a) (hb : SortedFrom l b) : a = b := by
  obtain ⟨ha1, ha2⟩ := ha
  obtain ⟨hb1, hb2⟩ := hb
  have h : ∀ n, a.filter (fun d => d.name = n) = b.filter (fun d => d.name = n) := fun n => by rw [ha2, hb2]
  clear ha2 hb2
  induction a generalizing b with
  | nil =>
    cases b with
    | nil => rfl
    | cons y r => have := h y.name; simp at this
  | cons x r ih =>
    cases b with
    | nil => have := h x.name; simp at this
    | cons y s =>
      rw [List.pairwise_cons] at ha1 hb1
      have hxy : x.name = y.name := by
        by_contra hne
        have hx : x ∈ s := by
          have hm : x ∈ (y :: s).filter (fun d => d.name = x.name) := by rw [← h]; simp
          rw [List.mem_filter] at hm
          rcases List.mem_cons.1 hm.1 with e | e
          · exact absurd (by rw [e]) hne
          · exact e
        have hy : y ∈ r := by
          have hm : y ∈ (x :: r).filter (fun d => d.name = y.name) := by rw [h]; simp
          rw [List.mem_filter] at hm
          rcases List.mem_cons.1 hm.1 with e | e
          · exact absurd (by rw [e]) hne
          · exact e
        exact hne (String.le_antisymm (String.not_lt.1 (ha1.1 y hy)) (String.not_lt.1 (hb1.1 x hx)))
      have hh := h x.name
      rw [List.filter_cons_of_pos (by simp), List.filter_cons_of_pos (by simp [hxy]), List.cons.injEq] at hh
      obtain ⟨rfl, hh⟩ := hh
      rw [ih ha1.2 hb1.2 fun n => ?_]
      by_cases hn : x.name = n
      · subst hn; exact hh
      · have := h n
        rwa [List.filter_cons_of_neg (by simp [hn]), List.filter_cons_of_neg (by simp [hn])] at this

/-! ## Members of an object -/

/-- members put into a map one after the other, with a counter -/
def insAll : Nat → List (String × RustVal) → AMap (Nat × RustVal) → AMap (Nat × RustVal)
  | _, [], m => m
  | c, (n, x) :: r, m => insAll (c + 1) r (m.insert n (c, x))

theorem addId_default {o o' : TmpObj} {v : JVal} (h : addId o v = .ok o') : o'.default = o.default := by
  unfold addId at h
  split at h
  · cases h; rfl
  · cases h

theorem addOld_default {o o' : TmpObj} {v : JVal} (h : addOld o v = .ok o') : o'.default = o.default := by
  cases v with
  | array a =>
    simp only [addOld] at h
    cases hg : getOld [] a with
    | ok l => rw [hg] at h; cases h; rfl
    | err => rw [hg] at h; cases h
    | panic => rw [hg] at h; cases h
  | _ => cases h

theorem refsOf_default {env : Env} {o o' : TmpObj} {b : Bool} {v : JVal} (h : refsOf env o b v = .ok o') : o'.default = o.default := by
  cases v with
  | map m =>
    simp only [refsOf, addRefs] at h
    split at h
    · cases hg : obj env true m 0 {} with
      | ok x =>
        rw [hg, Res.bind_ok] at h
        cases hr : getRef env x with
        | ok l => rw [hr] at h; cases h; rfl
        | err => rw [hr] at h; cases h
        | panic => rw [hr] at h; cases h
      | err => rw [hg] at h; cases h
      | panic => rw [hg] at h; cases h
    · cases h
  | _ => cases h

theorem obj_decls (env : Env) : ∀ (m : List (String × JVal)) (c : Nat) (o : TmpObj) {o' : TmpObj}, obj env false m c o = .ok o' →
    ∃ l : List (Decl × RustVal), MapDecls m (l.map (·.1)) ∧ (∀ e ∈ l, item env e.1.vt e.1.val = .ok e.2) ∧
      o'.default = insAll c (l.map fun e => (e.1.name, e.2)) o.default
  | [], c, o, o', h => by
    simp only [obj, Res.ok.injEq] at h
    subst h
    exact ⟨[], .nil, (fun _ h => (nomatch h)), rfl⟩
  | (k, v) :: r, c, o, o', h => by
    cases hk : nameOf k with
    | none => rw [obj_none hk] at h; cases h
    | some nt =>
      cases nt with
      | name n vt =>
        rw [obj_name hk] at h
        simp only [Bool.false_eq_true, if_false] at h
        cases hx : item env vt v with
        | ok x =>
          rw [hx, Res.bind_ok] at h
          obtain ⟨l, h1, h2, h3⟩ := obj_decls env r (c + 1) _ h
          refine ⟨(⟨String.ofList n, vt, v⟩, x) :: l, .member (nameOf_name.1 hk) h1, ?_, h3⟩
          intro e he
          rcases List.mem_cons.1 he with rfl | he
          · exact hx
          · exact h2 e he
        | err => rw [hx] at h; cases h
        | panic => rw [hx] at h; cases h
      | system s =>
        have step : ∀ q : Res TmpObj, (∀ o'', q = .ok o'' → o''.default = o.default) → (q.bind fun o => obj env false r c o) = .ok o' →
            ∃ l : List (Decl × RustVal), MapDecls ((k, v) :: r) (l.map (·.1)) ∧ (∀ e ∈ l, item env e.1.vt e.1.val = .ok e.2) ∧
              o'.default = insAll c (l.map fun e => (e.1.name, e.2)) o.default := by
          intro q hq h
          cases q with
          | ok o'' =>
            obtain ⟨l, h1, h2, h3⟩ := obj_decls env r c o'' h
            exact ⟨l, .special (nameOf_system hk) h1, h2, by rw [h3, hq o'' rfl]⟩
          | err => cases h
          | panic => cases h
        cases s with
        | id => rw [obj_id hk] at h; exact step _ (fun _ => addId_default) h
        | ref => rw [obj_ref hk] at h; exact step _ (fun _ => refsOf_default) h
        | enum => rw [obj_enum hk] at h; exact step _ (fun _ => refsOf_default) h
        | old => rw [obj_old hk] at h; exact step _ (fun _ => addOld_default) h

theorem insAll_get_ne (n : String) : ∀ (l : List (String × RustVal)) (c : Nat) (m : AMap (Nat × RustVal)), n ∉ l.map (·.1) →
    (insAll c l m).get n = m.get n
  | [], _, _, _ => rfl
  | (k, x) :: r, c, m, h => by
    simp only [List.map_cons, List.mem_cons, not_or] at h
    simp only [insAll]
    rw [insAll_get_ne n r _ _ h.2, AMap.get_insert_ne _ _ h.1]

theorem insAll_get_last {n : String} {x : RustVal} {s : List (String × RustVal)} (hs : n ∉ s.map (·.1)) :
    ∀ (p : List (String × RustVal)) (c : Nat) (m : AMap (Nat × RustVal)), (insAll c (p ++ (n, x) :: s) m).get n = some (c + p.length, x)
  | [], c, m => by
    simp only [List.nil_append, insAll]
    rw [insAll_get_ne n s _ _ hs, AMap.get_insert_self]; rfl
  | (k, y) :: r, c, m => by
    simp only [List.cons_append, insAll]
    rw [insAll_get_last hs r]
    simp only [List.length_cons]
    congr 2; omega

theorem mem_keys_insert {α : Type} (m : AMap α) (k : String) (v : α) (n : String) :
    n ∈ (m.insert k v).map (·.1) ↔ n ∈ m.map (·.1) ∨ n = k := by
  rw [AMap.keys_insert]
  split
  · rename_i h
    constructor
    · exact .inl
    · rintro (h' | rfl)
      · exact h'
      · exact h
  · simp

theorem insAll_keys (n : String) : ∀ (l : List (String × RustVal)) (c : Nat) (m : AMap (Nat × RustVal)),
    n ∈ (insAll c l m).map (·.1) ↔ n ∈ m.map (·.1) ∨ n ∈ l.map (·.1)
  | [], _, _ => by simp [insAll]
  | (k, x) :: r, c, m => by
    simp only [insAll]
    rw [insAll_keys n r, mem_keys_insert]
    simp only [List.map_cons, List.mem_cons, or_assoc]

theorem insAll_wf : ∀ (l : List (String × RustVal)) (c : Nat) (m : AMap (Nat × RustVal)), m.Wf → (insAll c l m).Wf
  | [], _, _, h => h
  | (_, _) :: r, c, _, h => insAll_wf r (c + 1) _ (h.insert _ _)

/-! ## The root object -/

theorem intoRootVal_all (v : RustVal) : All (fun _ => True) (intoRootVal v) := by cases v <;> trivial

theorem rootHash_all : ∀ (l : List (String × Nat × RustVal)) (d : AMap (Nat × RootValI)) (s : AMap RootSab), All (fun _ => True) (rootHash l d s)
  | [], _, _ => trivial
  | (_, _, v) :: r, _, _ => (intoRootVal_all v).bind fun _ _ _ => rootHash_all r _ _

theorem rootHash_spec : ∀ (l : List (String × Nat × RustVal)) (d : AMap (Nat × RootValI)) (s : AMap RootSab)
    {d' : AMap (Nat × RootValI)} {s' : AMap RootSab}, (l.map (·.1)).Nodup → rootHash l d s = .ok (d', s') →
    (∀ k id v, (k, id, v) ∈ l → ∃ y sab, intoRootVal v = .ok (y, sab) ∧ d'.get k = some (id, y) ∧
      s'.get k = (match sab with | some l => some l | none => s.get k)) ∧
    (∀ k, k ∉ l.map (·.1) → d'.get k = d.get k ∧ s'.get k = s.get k) ∧ (d.Wf → d'.Wf) ∧
    (∀ k, k ∈ d'.map (·.1) ↔ k ∈ d.map (·.1) ∨ k ∈ l.map (·.1)) ∧
    ∀ e ∈ d', e ∈ d ∨ ∃ v sab, (e.1, e.2.1, v) ∈ l ∧ intoRootVal v = .ok (e.2.2, sab)
  | [], d, s, d', s', _, h => by
    simp only [rootHash, Res.ok.injEq, Prod.mk.injEq] at h
    obtain ⟨rfl, rfl⟩ := h
    exact ⟨(fun _ _ _ h => (nomatch h)), fun _ _ => ⟨rfl, rfl⟩, id, fun _ => by simp, fun e he => .inl he⟩
  | (k, id, v) :: r, d, s, d', s', hn, h => by
    simp only [rootHash] at h
    cases hv : intoRootVal v with
    | err => rw [hv] at h; cases h
    | panic => rw [hv] at h; cases h
    | ok x =>
      rw [hv, Res.bind_ok] at h
      rw [List.map_cons, List.nodup_cons] at hn
      obtain ⟨h1, h2, h3, h4, h5⟩ := rootHash_spec r _ _ hn.2 h
      refine ⟨fun k' id' v' hm => ?_, fun k' hk' => ?_, fun hd => h3 (hd.insert _ _), fun k' => ?_, fun e he => ?_⟩
      · rcases List.mem_cons.1 hm with hm | hm'
        · simp only [Prod.mk.injEq] at hm
          obtain ⟨rfl, rfl, rfl⟩ := hm
          refine ⟨x.1, x.2, hv, ?_, ?_⟩
          · rw [(h2 k' hn.1).1, AMap.get_insert_self]
          · rw [(h2 k' hn.1).2]
            cases x.2 with
            | none => rfl
            | some l => simp only [putSab, AMap.get_insert_self]
        · obtain ⟨y, sab, ha, hb, hc⟩ := h1 _ _ _ hm'
          refine ⟨y, sab, ha, hb, ?_⟩
          rw [hc]
          have hne : k' ≠ k := by
            rintro rfl
            exact hn.1 (List.mem_map.2 ⟨(k', id', v'), hm', rfl⟩)
          cases sab with
          | some l => rfl
          | none =>
            cases x.2 with
            | none => rfl
            | some l => simp only [putSab, AMap.get_insert_ne _ _ hne]
      · simp only [List.map_cons, List.mem_cons, not_or] at hk'
        obtain ⟨ha, hb⟩ := h2 k' hk'.2
        rw [ha, hb, AMap.get_insert_ne _ _ hk'.1]
        refine ⟨rfl, ?_⟩
        cases x.2 with
        | none => rfl
        | some l => simp only [putSab, AMap.get_insert_ne _ _ hk'.1]
      · rw [h4 k', mem_keys_insert]
        simp only [List.map_cons, List.mem_cons, or_assoc]
      · rcases h5 e he with he | ⟨v', sab, hm, hi⟩
        · rcases mem_insert he with he | he
          · exact .inl he
          · subst he
            exact .inr ⟨v, x.2, List.mem_cons_self, hv⟩
        · exact .inr ⟨v', sab, List.mem_cons_of_mem _ hm, hi⟩

theorem rootVal_good {v : RustVal} (hv : v.Good) {y : RootValI} {sab : Option RootSab} (h : intoRootVal v = .ok (y, sab)) : y.Good := by
  cases v <;> simp only [intoRootVal, Res.ok.injEq, Prod.mk.injEq] at h
  · obtain ⟨rfl, rfl⟩ := h; intro d hd; cases hd
  · obtain ⟨rfl, rfl⟩ := h; intro d hd; cases hd; exact hv
  · obtain ⟨rfl, rfl⟩ := h; intro d hd; cases hd; exact hv
  · obtain ⟨rfl, rfl⟩ := h; intro d hd; cases hd; exact hv
  all_goals cases h

/-- what a root object has, made of what was read -/
structure RootOf (o : TmpObj) (r : Root) : Prop where
  member : ∀ k id v, o.default.get k = some (id, v) → ∃ y sab, intoRootVal v = .ok (y, sab) ∧ r.defs.get k = some (id, y) ∧ r.sabun.get k = sab
  none : ∀ k, o.default.get k = none → r.defs.get k = none ∧ r.sabun.get k = none
  wf : r.defs.Wf
  keys : ∀ k, k ∈ r.defs.map (·.1) ↔ k ∈ o.default.map (·.1)
  good : ∀ e ∈ r.defs, e.2.2.Good
  sabWf : r.sabun.Wf

theorem putSab_wf {s : AMap RootSab} (h : s.Wf) (k : String) (x : Option RootSab) : (putSab s k x).Wf := by
  cases x with
  | none => exact h
  | some l => exact h.insert _ _

theorem rootHash_sabWf : ∀ (l : List (String × Nat × RustVal)) (d : AMap (Nat × RootValI)) (s : AMap RootSab) {x : AMap (Nat × RootValI) × AMap RootSab},
    s.Wf → rootHash l d s = .ok x → x.2.Wf
  | [], _, _, _, hs, h => by cases h; exact hs
  | (k, id, v) :: r, d, s, x, hs, h => by
    simp only [rootHash] at h
    obtain ⟨_, _, h⟩ := Res.bind_eq_ok.mp h
    exact rootHash_sabWf r _ _ (putSab_wf hs _ _) h

theorem rootHash_rootOf (env : Env) (he : env.Sound) {o : TmpObj} (ho : o.Good) {x : AMap (Nat × RootValI) × AMap RootSab}
    (hr : rootHash (env.order o.default) [] [] = .ok x) {r : Root} (hd : r.defs = x.1) (hs : r.sabun = x.2) : RootOf o r := by
  have hp : (env.order o.default).Perm o.default := he _
  have hw : (env.order o.default).Wf := wf_of_perm hp ho.wf
  obtain ⟨h1, h2, h3, h4, h5⟩ := rootHash_spec _ _ _ (d' := x.1) (s' := x.2) hw hr
  refine ⟨fun k id v hk => ?_, fun k hk => ?_, hd ▸ h3 List.nodup_nil, fun k => ?_, fun e hm => ?_,
    hs ▸ rootHash_sabWf _ _ [] List.nodup_nil hr⟩
  · obtain ⟨y, sab, ha, hb, hc⟩ := h1 k id v (hp.mem_iff.2 (AMap.mem_of_get hk))
    refine ⟨y, sab, ha, hd ▸ hb, ?_⟩
    rw [hs, hc]; cases sab <;> rfl
  · rw [AMap.get_eq_none, ← (hp.map _).mem_iff] at hk
    rw [hd, hs]; exact h2 k hk
  · rw [hd, h4 k, (hp.map _).mem_iff]; simp
  · rw [hd] at hm
    rcases h5 e hm with hm | ⟨v, sab, hm, hi⟩
    · cases hm
    · exact rootVal_good (ho.vals _ (hp.mem_iff.1 hm)) hi

theorem intoRoot_spec (env : Env) (he : env.Sound) {o : TmpObj} (ho : o.Good) {r : Root} (h : intoRoot env o = .ok r) :
    RootOf o r ∧ metaRoot env r.defs = .ok r.table := by
  unfold intoRoot at h
  split at h
  · cases h
  split at h
  · cases h
  cases hr : rootHash (env.order o.default) [] [] with
  | err => rw [hr] at h; cases h
  | panic => rw [hr] at h; cases h
  | ok x =>
    rw [hr, Res.bind_ok] at h
    cases ht : metaRoot env x.1 with
    | err => rw [ht] at h; cases h
    | panic => rw [ht] at h; cases h
    | ok t =>
      rw [ht, Res.map_ok, Res.ok.injEq] at h
      subst h
      exact ⟨rootHash_rootOf env he ho hr rfl rfl, ht⟩

/-! ## Members in files of their own -/

theorem length_eq_card {α : Type} {m : AMap α} (h : m.Wf) : m.length = (m.map (·.1)).toFinset.card := by
  rw [List.toFinset_card_of_nodup h, List.length_map]

theorem addMembers_get_ne (n : String) : ∀ (l : List Member) (d : AMap (Nat × RootValI)) (s : AMap RootSab), n ∉ l.map (·.1) →
    (addMembers l d s).1.get n = d.get n ∧ (addMembers l d s).2.get n = s.get n
  | [], _, _, _ => ⟨rfl, rfl⟩
  | (k, v, sab) :: r, d, s, h => by
    simp only [List.map_cons, List.mem_cons, not_or] at h
    simp only [addMembers]
    obtain ⟨h1, h2⟩ := addMembers_get_ne n r (d.insert k (d.length, v)) (putSab s k sab) h.2
    refine ⟨by rw [h1, AMap.get_insert_ne _ _ h.1], ?_⟩
    rw [h2]
    cases sab with
    | none => rfl
    | some l => simp only [putSab, AMap.get_insert_ne _ _ h.1]

theorem addMembers_wf : ∀ (l : List Member) (d : AMap (Nat × RootValI)) (s : AMap RootSab), d.Wf → (addMembers l d s).1.Wf
  | [], _, _, h => h
  | (_, _, _) :: r, _, _, h => addMembers_wf r _ _ (h.insert _ _)

theorem addMembers_sabWf : ∀ (l : List Member) (d : AMap (Nat × RootValI)) (s : AMap RootSab), s.Wf → (addMembers l d s).2.Wf
  | [], _, _, h => h
  | (_, _, _) :: r, _, _, h => addMembers_sabWf r _ _ (putSab_wf h _ _)

theorem addMembers_keys (n : String) : ∀ (l : List Member) (d : AMap (Nat × RootValI)) (s : AMap RootSab),
    n ∈ (addMembers l d s).1.map (·.1) ↔ n ∈ d.map (·.1) ∨ n ∈ l.map (·.1)
  | [], _, _ => by simp [addMembers]
  | (k, v, sab) :: r, d, s => by
    simp only [addMembers]
    rw [addMembers_keys n r, mem_keys_insert]
    simp only [List.map_cons, List.mem_cons, or_assoc]

theorem addMembers_mem {e : String × Nat × RootValI} : ∀ (l : List Member) (d : AMap (Nat × RootValI)) (s : AMap RootSab),
    e ∈ (addMembers l d s).1 → e ∈ d ∨ ∃ sab, (e.1, e.2.2, sab) ∈ l
  | [], _, _, h => .inl h
  | (k, v, sab) :: r, d, s, h => by
    rcases addMembers_mem r _ _ h with h | ⟨sab', h⟩
    · rcases mem_insert h with h | h
      · exact .inl h
      · subst h; exact .inr ⟨sab, List.mem_cons_self⟩
    · exact .inr ⟨sab', List.mem_cons_of_mem _ h⟩

theorem addMembers_length (l : List Member) (d : AMap (Nat × RootValI)) (s : AMap RootSab) (h : d.Wf) :
    (addMembers l d s).1.length = (d.map (·.1) ++ l.map (·.1)).dedup.length := by
  rw [length_eq_card (addMembers_wf l d s h), ← List.card_toFinset]
  congr 1
  ext n
  rw [List.mem_toFinset, List.mem_toFinset, addMembers_keys, List.mem_append]

theorem addMembers_app : ∀ (p l : List Member) (d : AMap (Nat × RootValI)) (s : AMap RootSab),
    addMembers (p ++ l) d s = addMembers l (addMembers p d s).1 (addMembers p d s).2
  | [], _, _, _ => rfl
  | (k, v, sab) :: r, l, d, s => by simp only [List.cons_append, addMembers]; exact addMembers_app r l _ _

theorem addMembers_last {n : String} {y : RootValI} {sab : Option RootSab} {q : List Member} (hq : n ∉ q.map (·.1))
    (p : List Member) (d : AMap (Nat × RootValI)) (s : AMap RootSab) (hd : d.Wf) :
    (addMembers (p ++ (n, y, sab) :: q) d s).1.get n = some ((d.map (·.1) ++ p.map (·.1)).dedup.length, y) := by
  rw [addMembers_app]
  simp only [addMembers]
  rw [(addMembers_get_ne n q _ _ hq).1, AMap.get_insert_self, addMembers_length _ _ _ hd]

/-- what happens to the items: `sab` of the member if it has one -/
theorem addMembers_sab {n : String} {y : RootValI} {sab : Option RootSab} {q p : List Member} (hq : n ∉ q.map (·.1)) (hp : n ∉ p.map (·.1))
    (d : AMap (Nat × RootValI)) (s : AMap RootSab) :
    (addMembers (p ++ (n, y, sab) :: q) d s).2.get n = (match sab with | some l => some l | none => s.get n) := by
  rw [addMembers_app]
  simp only [addMembers]
  rw [(addMembers_get_ne n q _ _ hq).2]
  cases sab with
  | some l => simp only [putSab, AMap.get_insert_self]
  | none => exact (addMembers_get_ne n p _ _ hp).2

/-! ## Sorting -/

section
variable {α : Type} (f : α → Member)

/-- `insertMember` on things that have a member -/
def insertZ (x : α) : List α → List α
  | [] => [x]
  | y :: r => if (f x).1 < (f y).1 then x :: y :: r else y :: insertZ x r

theorem insertZ_map (x : α) : ∀ l : List α, (insertZ f x l).map f = insertMember (f x) (l.map f)
  | [] => rfl
  | y :: r => by
    simp only [insertZ, List.map_cons, insertMember]
    split
    · rfl
    · rw [List.map_cons, insertZ_map x r]

def sortZ (l : List α) : List α := l.foldl (fun s x => insertZ f x s) []

theorem sortZ_map (l : List α) : (sortZ f l).map f = sortMembers (l.map f) := by
  have : ∀ (l s : List α), (l.foldl (fun s x => insertZ f x s) s).map f = (l.map f).foldl (fun s x => insertMember x s) (s.map f) := by
    intro l
    induction l with
    | nil => intro s; rfl
    | cons x r ih => intro s; simp only [List.foldl_cons, List.map_cons]; rw [ih, insertZ_map]
  exact this l []

theorem insertZ_mem (x y : α) : ∀ l : List α, y ∈ insertZ f x l ↔ y = x ∨ y ∈ l
  | [] => by simp [insertZ]
  | z :: r => by
    simp only [insertZ]
    split
    · simp
    · simp only [List.mem_cons, insertZ_mem x y r]
      constructor
      · rintro (h | h | h) <;> simp [h]
      · rintro (h | h | h) <;> simp [h]

theorem insertZ_sorted (x : α) : ∀ l : List α, l.Pairwise (fun a b => ¬ (f b).1 < (f a).1) →
    (insertZ f x l).Pairwise (fun a b => ¬ (f b).1 < (f a).1)
  | [], _ => by simp [insertZ]
  | y :: r, h => by
    rw [List.pairwise_cons] at h
    simp only [insertZ]
    split
    · rename_i hlt
      refine List.pairwise_cons.2 ⟨fun b hb => ?_, List.pairwise_cons.2 h⟩
      rcases List.mem_cons.1 hb with rfl | hb
      · exact String.lt_asymm hlt
      · intro hbx
        exact h.1 b hb (String.lt_trans hbx hlt)
    · rename_i hlt
      refine List.pairwise_cons.2 ⟨fun b hb => ?_, insertZ_sorted x r h.2⟩
      rcases (insertZ_mem f x b r).1 hb with rfl | hb
      · exact hlt
      · exact h.1 b hb

theorem insertZ_filter (x : α) (n : String) : ∀ l : List α, l.Pairwise (fun a b => ¬ (f b).1 < (f a).1) →
    (insertZ f x l).filter (fun a => (f a).1 = n) = l.filter (fun a => (f a).1 = n) ++ (if (f x).1 = n then [x] else [])
  | [], _ => by simp only [insertZ, List.filter_cons, List.filter_nil, List.nil_append]; simp
  | y :: r, h => by
    simp only [insertZ]
    split
    · rename_i hlt
      by_cases hx : (f x).1 = n
      · have : (y :: r).filter (fun a => (f a).1 = n) = [] := by
          rw [List.filter_eq_nil_iff]
          intro b hb hbn
          simp only [decide_eq_true_eq] at hbn
          rw [List.pairwise_cons] at h
          rcases List.mem_cons.1 hb with rfl | hb
          · rw [hx, ← hbn] at hlt; exact String.lt_irrefl _ hlt
          · rw [hx, ← hbn] at hlt; exact h.1 b hb hlt
        rw [List.filter_cons_of_pos (by simp [hx]), this, if_pos hx]; rfl
      · rw [List.filter_cons_of_neg (by simp [hx]), if_neg hx, List.append_nil]
    · rw [List.filter_cons, insertZ_filter x n r (List.pairwise_cons.1 h).2, List.filter_cons]
      split <;> simp

theorem sortZ_spec (l : List α) : (sortZ f l).Pairwise (fun a b => ¬ (f b).1 < (f a).1) ∧
    ∀ n, (sortZ f l).filter (fun a => (f a).1 = n) = l.filter (fun a => (f a).1 = n) := by
  have : ∀ (l s : List α), s.Pairwise (fun a b => ¬ (f b).1 < (f a).1) →
      (l.foldl (fun s x => insertZ f x s) s).Pairwise (fun a b => ¬ (f b).1 < (f a).1) ∧
      ∀ n, (l.foldl (fun s x => insertZ f x s) s).filter (fun a => (f a).1 = n) = s.filter (fun a => (f a).1 = n) ++ l.filter (fun a => (f a).1 = n) := by
    intro l
    induction l with
    | nil => intro s hs; exact ⟨hs, fun n => by simp⟩
    | cons x r ih =>
      intro s hs
      simp only [List.foldl_cons]
      obtain ⟨h1, h2⟩ := ih _ (insertZ_sorted f x s hs)
      refine ⟨h1, fun n => ?_⟩
      rw [h2, insertZ_filter f x n s hs, List.append_assoc, List.filter_cons]
      split <;> simp_all
  obtain ⟨h1, h2⟩ := this l [] List.Pairwise.nil
  exact ⟨h1, fun n => by have := h2 n; simpa [sortZ] using this⟩

theorem sortZ_mem (l : List α) (x : α) : x ∈ sortZ f l ↔ x ∈ l := by
  have h := (sortZ_spec f l).2 (f x).1
  constructor
  · intro hx
    have : x ∈ (sortZ f l).filter (fun a => (f a).1 = (f x).1) := List.mem_filter.2 ⟨hx, by simp⟩
    rw [h] at this
    exact (List.mem_filter.1 this).1
  · intro hx
    have : x ∈ l.filter (fun a => (f a).1 = (f x).1) := List.mem_filter.2 ⟨hx, by simp⟩
    rw [← h] at this
    exact (List.mem_filter.1 this).1
end

/-! ## Files -/

/-- a declaration and the member of the root made of it -/
structure Loaded (env : Env) (d : Decl) (y : RootValI) (sab : Option RootSab) : Prop where
  ex : ∃ x, item env d.vt d.val = .ok x ∧ intoRootVal x = .ok (y, sab)

theorem Loaded.good {env : Env} (he : env.Sound) {d : Decl} {y : RootValI} {sab : Option RootSab} (h : Loaded env d y sab) : y.Good := by
  obtain ⟨x, hx, hy⟩ := h.ex
  exact rootVal_good ((item_good env he d.vt d.val).of_ok hx) hy

theorem fileItem_root {env : Env} {v : JVal} {x : FileItem} (h : fileItem env "root" v = .ok x) :
    ∃ m o r, v = .map m ∧ obj env false m 0 {} = .ok o ∧ intoRoot env o = .ok r ∧ x = .root r := by
  unfold fileItem at h
  rw [if_pos rfl] at h
  cases v with
  | map m =>
    simp only at h
    cases ho : obj env false m 0 {} with
    | ok o =>
      rw [ho, Res.bind_ok] at h
      cases hr : intoRoot env o with
      | ok r => rw [hr] at h; cases h; exact ⟨m, o, r, rfl, ho, hr, rfl⟩
      | err => rw [hr] at h; cases h
      | panic => rw [hr] at h; cases h
    | err => rw [ho] at h; cases h
    | panic => rw [ho] at h; cases h
  | _ => cases h

theorem fileItem_member {env : Env} {s : String} {v : JVal} {x : FileItem} (hs : s ≠ "root") (h : fileItem env s v = .ok x) :
    ∃ d : Decl, ∃ y sab, d.val = v ∧ Written s d.name d.vt ∧ Loaded env d y sab ∧ x = .member d.name y sab := by
  unfold fileItem at h
  rw [if_neg hs] at h
  cases hn : nameOf s with
  | none => rw [hn] at h; cases h
  | some nt =>
    cases nt with
    | system s => rw [hn] at h; cases h
    | name n vt =>
      rw [hn] at h
      simp only at h
      cases hx : item env vt v with
      | ok a =>
        rw [hx, Res.bind_ok] at h
        cases hr : intoRootVal a with
        | ok b =>
          rw [hr] at h
          cases h
          exact ⟨⟨String.ofList n, vt, v⟩, b.1, b.2, rfl, nameOf_name.1 hn, ⟨a, hx, hr⟩, rfl⟩
        | err => rw [hr] at h; cases h
        | panic => rw [hr] at h; cases h
      | err => rw [hx] at h; cases h
      | panic => rw [hx] at h; cases h

theorem fileItems_cons {env : Env} {s : String} {v : JVal} {r : List (String × JVal)} {items : List FileItem}
    (h : fileItems env ((s, v) :: r) = .ok items) : ∃ x l, fileItem env s v = .ok x ∧ fileItems env r = .ok l ∧ items = x :: l := by
  simp only [fileItems] at h
  cases hx : fileItem env s v with
  | ok x =>
    rw [hx, Res.bind_ok] at h
    cases hl : fileItems env r with
    | ok l => rw [hl] at h; cases h; exact ⟨x, l, rfl, rfl, rfl⟩
    | err => rw [hl] at h; cases h
    | panic => rw [hl] at h; cases h
  | err => rw [hx] at h; cases h
  | panic => rw [hx] at h; cases h

/-- files and the members made of them -/
structure Files (env : Env) (files : List (String × JVal)) (z : List (Decl × Member)) : Prop where
  decls : FileDecls files (z.map (·.1))
  names : ∀ e ∈ z, e.2.1 = e.1.name
  loaded : ∀ e ∈ z, Loaded env e.1 e.2.2.1 e.2.2.2

theorem Files.nil (env : Env) : Files env [] [] := ⟨.nil, (fun _ h => (nomatch h)), (fun _ h => (nomatch h))⟩

theorem Files.cons {env : Env} {s : String} {v : JVal} {r : List (String × JVal)} {z : List (Decl × Member)} (h : Files env r z)
    (hs : s ≠ "root") {d : Decl} {y : RootValI} {sab : Option RootSab} (hv : d.val = v) (hw : Written s d.name d.vt)
    (hl : Loaded env d y sab) : Files env ((s, v) :: r) ((d, d.name, y, sab) :: z) := by
  refine ⟨?_, ?_, ?_⟩
  · subst hv; exact .member hs hw h.decls
  · intro e he
    rcases List.mem_cons.1 he with rfl | he
    · rfl
    · exact h.names e he
  · intro e he
    rcases List.mem_cons.1 he with rfl | he
    · exact hl
    · exact h.loaded e he

theorem members_spec (env : Env) : ∀ (files : List (String × JVal)) {items : List FileItem} {ms : List Member},
    fileItems env files = .ok items → memberItems items = .ok ms →
    (∀ v, ("root", v) ∉ files) ∧ ∃ z, Files env files z ∧ z.map (·.2) = ms
  | [], items, ms, h, h' => by
    cases h
    cases h'
    exact ⟨(fun _ h => (nomatch h)), [], .nil env, rfl⟩
  | (s, v) :: r, items, ms, h, h' => by
    obtain ⟨x, l, hx, hl, rfl⟩ := fileItems_cons h
    by_cases hs : s = "root"
    · subst hs
      obtain ⟨m, o, r, rfl, _, _, rfl⟩ := fileItem_root hx
      cases h'
    · obtain ⟨d, y, sab, hv, hw, hL, rfl⟩ := fileItem_member hs hx
      simp only [memberItems] at h'
      cases hm : memberItems l with
      | ok ms' =>
        rw [hm] at h'
        cases h'
        obtain ⟨h1, z, h2, h3⟩ := members_spec env r hl hm
        refine ⟨fun v' hv' => ?_, _, h2.cons hs hv hw hL, by simp [h3]⟩
        rcases List.mem_cons.1 hv' with e | e
        · cases e; exact hs rfl
        · exact h1 v' e
      | err => rw [hm] at h'; cases h'
      | panic => rw [hm] at h'; cases h'

theorem takeRoot_spec (env : Env) : ∀ (files : List (String × JVal)) {items rest : List FileItem} {root : Root} {ms : List Member},
    fileItems env files = .ok items → takeRoot items = some (root, rest) → memberItems rest = .ok ms →
    ∃ m o, ("root", .map m) ∈ files ∧ (∀ v, ("root", v) ∈ files → v = .map m) ∧ obj env false m 0 {} = .ok o ∧ intoRoot env o = .ok root ∧
      ∃ z, Files env files z ∧ z.map (·.2) = ms
  | [], items, rest, root, ms, h, ht, _ => by cases h; cases ht
  | (s, v) :: r, items, rest, root, ms, h, ht, hm => by
    obtain ⟨x, l, hx, hl, rfl⟩ := fileItems_cons h
    by_cases hs : s = "root"
    · subst hs
      obtain ⟨m, o, rr, rfl, ho, hr, rfl⟩ := fileItem_root hx
      simp only [takeRoot, Option.some.injEq, Prod.mk.injEq] at ht
      obtain ⟨rfl, rfl⟩ := ht
      obtain ⟨h1, z, h2, h3⟩ := members_spec env r hl hm
      refine ⟨m, o, List.mem_cons_self, fun v hv => ?_, ho, hr, z, ⟨.root h2.decls, h2.names, h2.loaded⟩, h3⟩
      rcases List.mem_cons.1 hv with e | e
      · cases e; rfl
      · exact absurd e (h1 v)
    · obtain ⟨d, y, sab, hv, hw, hL, rfl⟩ := fileItem_member hs hx
      simp only [takeRoot] at ht
      cases htr : takeRoot l with
      | none => rw [htr] at ht; cases ht
      | some p =>
        rw [htr] at ht
        simp only [Option.map_some, Option.some.injEq, Prod.mk.injEq] at ht
        obtain ⟨h1, rfl⟩ := ht
        simp only [memberItems] at hm
        cases hm' : memberItems p.2 with
        | ok ms' =>
          rw [hm'] at hm
          cases hm
          obtain ⟨m, o, ha, hb, hc, hd, z, hz, hz'⟩ := takeRoot_spec env r hl (by rw [htr]) hm'
          refine ⟨m, o, List.mem_cons_of_mem _ ha, fun v' hv' => ?_, hc, h1 ▸ hd, _, hz.cons hs hv hw hL, by simp [hz']⟩
          rcases List.mem_cons.1 hv' with e | e
          · cases e; exact absurd rfl hs
          · exact hb v' e
        | err => rw [hm'] at hm; cases hm
        | panic => rw [hm'] at hm; cases hm

/-- everything about a source that was loaded, apart from the table -/
structure Loads (env : Env) (files : List (String × JVal)) (r : Root) where
  m : List (String × JVal)
  mem : ("root", JVal.map m) ∈ files
  only : ∀ v, ("root", v) ∈ files → v = .map m
  o : TmpObj
  root : Root
  rootOf : RootOf o root
  lr : List (Decl × RustVal)
  decls : MapDecls m (lr.map (·.1))
  items : ∀ e ∈ lr, item env e.1.vt e.1.val = .ok e.2
  ins : o.default = insAll 0 (lr.map fun e => (e.1.name, e.2)) []
  z : List (Decl × Member)
  files : Files env files z
  defs : r.defs = (addMembers ((sortZ (·.2) z).map (·.2)) root.defs root.sabun).1
  sabun : r.sabun = (addMembers ((sortZ (·.2) z).map (·.2)) root.defs root.sabun).2

theorem loads_of (env : Env) (he : env.Sound) {files : List (String × JVal)} {items rest : List FileItem} {root : Root} {ms : List Member}
    (h1 : fileItems env files = .ok items) (h2 : takeRoot items = some (root, rest)) (h3 : memberItems rest = .ok ms) {r : Root}
    (hd : r.defs = (addMembers (sortMembers ms) root.defs root.sabun).1) (hs : r.sabun = (addMembers (sortMembers ms) root.defs root.sabun).2) :
    Nonempty (Loads env files r) := by
  obtain ⟨m, o, ha, hb, hc, hd', z, hz, rfl⟩ := takeRoot_spec env files h1 h2 h3
  obtain ⟨lr, hl1, hl2, hl3⟩ := obj_decls env m 0 {} hc
  have ho := (obj_good env he false m 0 {} TmpObj.good_empty).of_ok hc
  obtain ⟨hr, _⟩ := intoRoot_spec env he ho hd'
  rw [← sortZ_map] at hd hs
  exact ⟨⟨m, ha, hb, o, root, hr, lr, hl1, hl2, hl3, z, hz, hd, hs⟩⟩

theorem loadDir_inv {env : Env} {files : List (String × JVal)} {r : Root} (h : loadDir env files = .ok r) :
    ∃ items root rest ms, fileItems env files = .ok items ∧ takeRoot items = some (root, rest) ∧ memberItems rest = .ok ms ∧
      constructRoot env root ms = .ok r := by
  unfold loadDir at h
  cases hi : fileItems env files with
  | ok items =>
    rw [hi, Res.bind_ok] at h
    cases ht : takeRoot items with
    | none => rw [ht] at h; cases h
    | some p =>
      rw [ht] at h
      simp only at h
      cases hm : memberItems p.2 with
      | ok ms => rw [hm] at h; exact ⟨items, p.1, p.2, ms, rfl, ht, hm, h⟩
      | err => rw [hm] at h; cases h
      | panic => rw [hm] at h; cases h
  | err => rw [hi] at h; cases h
  | panic => rw [hi] at h; cases h

theorem loads (env : Env) (he : env.Sound) {files : List (String × JVal)} {r : Root} (h : loadDir env files = .ok r) :
    Nonempty (Loads env files r) ∧ metaRoot env r.defs = .ok r.table := by
  obtain ⟨items, root, rest, ms, h1, h2, h3, h4⟩ := loadDir_inv h
  unfold constructRoot at h4
  simp only at h4
  cases ht : metaRoot env (addMembers (sortMembers ms) root.defs root.sabun).1 with
  | ok t =>
    rw [ht] at h4
    cases h4
    exact ⟨loads_of env he h1 h2 h3 rfl rfl, ht⟩
  | err => rw [ht] at h4; cases h4
  | panic => rw [ht] at h4; cases h4

/-! ## Ids -/

/-- The id of a member of the root object is the number of its last declaration. -/
theorem root_last {o : TmpObj} {root : Root} (hr : RootOf o root) {lr p s : List (Decl × RustVal)} {e : Decl × RustVal}
    (hi : o.default = insAll 0 (lr.map fun e => (e.1.name, e.2)) []) (hl : lr = p ++ e :: s) (hs : e.1.name ∉ s.map (·.1.name)) :
    ∃ y sab, intoRootVal e.2 = .ok (y, sab) ∧ root.defs.get e.1.name = some (p.length, y) ∧ root.sabun.get e.1.name = sab := by
  have := hr.member e.1.name p.length e.2
  refine this ?_
  rw [hi, hl, List.map_append, List.map_cons, insAll_get_last (by simpa [Function.comp_def] using hs)]
  simp

theorem root_keys {o : TmpObj} {root : Root} (hr : RootOf o root) {lr : List (Decl × RustVal)}
    (hi : o.default = insAll 0 (lr.map fun e => (e.1.name, e.2)) []) (n : String) :
    n ∈ root.defs.map (·.1) ↔ n ∈ names (lr.map (·.1)) := by
  rw [hr.keys, hi, insAll_keys]
  simp [names, Function.comp_def]

/-- a name that occurs occurs for the last time somewhere -/
theorem last_split {n : String} : ∀ {l : List Decl}, n ∈ names l → ∃ p d s, l = p ++ d :: s ∧ d.name = n ∧ n ∉ names s
  | [], h => by cases h
  | x :: r, h => by
    by_cases hr : n ∈ names r
    · obtain ⟨p, d, s, h1, h2, h3⟩ := last_split hr
      exact ⟨x :: p, d, s, by rw [h1]; rfl, h2, h3⟩
    · rcases List.mem_cons.1 h with h | h
      · exact ⟨[], x, r, rfl, h.symm, hr⟩
      · exact absurd h hr

theorem map_split {α β : Type} {f : α → β} {l : List α} {p s : List β} {d : β} (h : l.map f = p ++ d :: s) :
    ∃ p' e s', l = p' ++ e :: s' ∧ p'.map f = p ∧ f e = d ∧ s'.map f = s := by
  rw [List.map_eq_append_iff] at h
  obtain ⟨p', q, h1, h2, h3⟩ := h
  rw [List.map_eq_cons_iff] at h3
  obtain ⟨e, s', h4, h5, h6⟩ := h3
  exact ⟨p', e, s', by rw [h1, h4], h2, h5, h6⟩

theorem names_app (a b : List Decl) : names (a ++ b) = names a ++ names b := List.map_append

section
variable {env : Env} {files : List (String × JVal)} {r : Root} (L : Loads env files r)

/-- the declarations of the root object -/
def Loads.rd : List Decl := L.lr.map (·.1)
/-- the declarations in files -/
def Loads.fd : List Decl := (sortZ (·.2) L.z).map (·.1)

theorem Loads.declsOf : DeclsOf files L.rd L.fd := by
  refine ⟨L.m, L.z.map (·.1), L.mem, L.decls, L.files.decls, ?_, ?_⟩
  · have h := (sortZ_spec (fun e : Decl × Member => e.2) L.z).1
    unfold Loads.fd
    rw [List.pairwise_map]
    refine h.imp_of_mem fun {a b} ha hb hab => ?_
    rw [L.files.names a ((sortZ_mem _ _ _).1 ha), L.files.names b ((sortZ_mem _ _ _).1 hb)] at hab
    exact hab
  · intro n
    have h := (sortZ_spec (fun e : Decl × Member => e.2) L.z).2 n
    unfold Loads.fd
    rw [List.filter_map, List.filter_map]
    congr 1
    have cong : ∀ l : List (Decl × Member), (∀ e ∈ l, e.2.1 = e.1.name) →
        l.filter ((fun d : Decl => decide (d.name = n)) ∘ fun e => e.1) = l.filter (fun a => decide (a.2.1 = n)) := by
      intro l hl
      refine List.filter_congr fun e he => ?_
      simp only [Function.comp_def, hl e he]
    rw [cong _ fun e he => L.files.names e ((sortZ_mem _ _ _).1 he), cong _ L.files.names]
    exact h

theorem Loads.memberNames (l : List (Decl × Member)) (h : ∀ e ∈ l, e ∈ sortZ (·.2) L.z) : (l.map (·.2)).map (·.1) = names (l.map (·.1)) := by
  unfold names
  rw [List.map_map, List.map_map]
  exact List.map_congr_left fun e he => L.files.names e ((sortZ_mem _ _ _).1 (h e he))

theorem Loads.keys (n : String) : n ∈ r.defs.map (·.1) ↔ n ∈ names (L.rd ++ L.fd) := by
  rw [L.defs, addMembers_keys, root_keys L.rootOf L.ins, L.memberNames _ fun _ h => h, names_app, List.mem_append]
  rfl

include L in
theorem Loads.wf : r.defs.Wf := by rw [L.defs]; exact addMembers_wf _ _ _ L.rootOf.wf

include L in
theorem Loads.sabWf : r.sabun.Wf := by rw [L.sabun]; exact addMembers_sabWf _ _ _ L.rootOf.sabWf

include L in
theorem Loads.good (he : env.Sound) : ∀ e ∈ r.defs, e.2.2.Good := by
  intro e hm
  rw [L.defs] at hm
  rcases addMembers_mem _ _ _ hm with hm | ⟨sab, hm⟩
  · exact L.rootOf.good e hm
  · obtain ⟨a, ha, hb⟩ := List.mem_map.1 hm
    have := (L.files.loaded a ((sortZ_mem _ _ _).1 ha)).good he
    rw [hb] at this
    exact this

theorem Loads.length : r.defs.length = (names (L.rd ++ L.fd)).dedup.length := by
  rw [length_eq_card L.wf, ← List.card_toFinset]
  congr 1
  ext n
  rw [List.mem_toFinset, List.mem_toFinset, L.keys]

theorem Loads.last {p s : List Decl} {d : Decl} (h : L.rd ++ L.fd = p ++ d :: s) (hd : d.name ∉ names s) :
    ∃ y sab, Loaded env d y sab ∧
      r.defs.get d.name = some (if p.length < L.rd.length then p.length else (names p).dedup.length, y) ∧
      (d.name ∉ names p → r.sabun.get d.name = sab) := by
  by_cases hp : p.length < L.rd.length
  · obtain ⟨s0, h1, h2⟩ : ∃ s0, L.rd = p ++ d :: s0 ∧ s = s0 ++ L.fd := by
      rw [List.append_eq_append_iff] at h
      rcases h with ⟨a, ha, hb⟩ | ⟨a, ha, hb⟩
      · rw [ha, List.length_append] at hp; omega
      · cases a with
        | nil => rw [ha, List.append_nil] at hp; omega
        | cons x a =>
          rw [List.cons_append, List.cons.injEq] at hb
          exact ⟨a, by rw [ha, hb.1], hb.2⟩
    obtain ⟨p', e, s', h3, h4, h5, h6⟩ := map_split h1
    rw [h2, names_app, List.mem_append, not_or] at hd
    obtain ⟨y, sab, ha, hb, hc⟩ := root_last L.rootOf (e := e) L.ins h3 (by rw [h5]; rw [← h6] at hd; simpa [names, Function.comp_def] using hd.1)
    have hne := addMembers_get_ne d.name ((sortZ (·.2) L.z).map (·.2)) L.root.defs L.root.sabun
      (by rw [L.memberNames _ fun _ h => h]; exact hd.2)
    rw [h5] at hb hc
    refine ⟨y, sab, ⟨e.2, by rw [← h5]; exact L.items e (by rw [h3]; simp), ha⟩, ?_, fun _ => ?_⟩
    · rw [if_pos hp, L.defs, hne.1, hb, ← h4, List.length_map]
    · rw [L.sabun, hne.2, hc]
  · obtain ⟨p1, h1, h2⟩ : ∃ p1, p = L.rd ++ p1 ∧ L.fd = p1 ++ d :: s := by
      rw [List.append_eq_append_iff] at h
      rcases h with ⟨a, ha, hb⟩ | ⟨a, ha, hb⟩
      · exact ⟨a, ha, hb⟩
      · cases a with
        | nil => exact ⟨[], by simpa using ha.symm, by simpa using hb.symm⟩
        | cons x a => rw [ha, List.length_append, List.length_cons] at hp; omega
    obtain ⟨p', e, s', h3, h4, h5, h6⟩ := map_split h2
    have hmem : ∀ x ∈ p' ++ e :: s', x ∈ sortZ (fun e : Decl × Member => e.2) L.z := by rw [← h3]; exact fun _ h => h
    have hen : e.2.1 = d.name := by rw [← h5]; exact L.files.names e ((sortZ_mem _ _ _).1 (hmem e (by simp)))
    have hsn : (s'.map (·.2)).map (·.1) = names s := by
      rw [L.memberNames s' fun x hx => hmem x (by simp [hx]), h6]
    have hpn : (p'.map (·.2)).map (·.1) = names p1 := by
      rw [L.memberNames p' fun x hx => hmem x (by simp [hx]), h4]
    have hsplit : (sortZ (fun e : Decl × Member => e.2) L.z).map (·.2) = p'.map (·.2) ++ (d.name, e.2.2.1, e.2.2.2) :: s'.map (·.2) := by
      rw [h3, List.map_append, List.map_cons, ← hen]
    refine ⟨e.2.2.1, e.2.2.2, h5 ▸ L.files.loaded e ((sortZ_mem _ _ _).1 (hmem e (by simp))), ?_, fun hdp => ?_⟩
    · rw [if_neg hp, L.defs, hsplit, addMembers_last (by rw [hsn]; exact hd) _ _ _ L.rootOf.wf, hpn]
      congr 2
      rw [← List.card_toFinset, ← List.card_toFinset]
      congr 1
      ext n
      rw [List.mem_toFinset, List.mem_toFinset, List.mem_append, root_keys L.rootOf L.ins, h1, names_app, List.mem_append]
      rfl
    · rw [h1, names_app, List.mem_append, not_or] at hdp
      rw [L.sabun, hsplit, addMembers_sab (by rw [hsn]; exact hd) (by rw [hpn]; exact hdp.2)]
      cases e.2.2.2 with
      | some l => rfl
      | none =>
        refine (L.rootOf.none d.name ?_).2
        rw [AMap.get_eq_none, ← L.rootOf.keys, root_keys L.rootOf L.ins]
        exact hdp.1

theorem Loads.unique {lr lf : List Decl} (h : DeclsOf files lr lf) : L.rd = lr ∧ L.fd = lf := by
  obtain ⟨m, l, h1, h2, h3, h4⟩ := h
  obtain ⟨m', l', h1', h2', h3', h4'⟩ := L.declsOf
  have e1 := L.only _ h1
  have e2 := L.only _ h1'
  simp only [JVal.map.injEq] at e1 e2
  subst e1
  subst e2
  rw [fileDecls_unique h3' h3] at h4'
  exact ⟨mapDecls_unique h2' h2, sortedFrom_unique h4' h4⟩

/-- If all names are distinct, the ids are the places in the list of declarations. -/
theorem Loads.distinct (hd : Distinct (L.rd ++ L.fd)) :
    r.defs.length = (L.rd ++ L.fd).length ∧
    (∀ i d, (L.rd ++ L.fd)[i]? = some d → ∃ y sab, Loaded env d y sab ∧ r.defs.get d.name = some (i, y) ∧ r.sabun.get d.name = sab) ∧
    (∀ e ∈ r.defs, ∃ d, (L.rd ++ L.fd)[e.2.1]? = some d ∧ d.name = e.1) := by
  have key : ∀ i d, (L.rd ++ L.fd)[i]? = some d → ∃ y sab, Loaded env d y sab ∧ r.defs.get d.name = some (i, y) ∧ r.sabun.get d.name = sab := by
    intro i d hi
    have hlen : i < (L.rd ++ L.fd).length := by
      rw [List.getElem?_eq_some_iff] at hi; exact hi.1
    have hsplit : L.rd ++ L.fd = (L.rd ++ L.fd).take i ++ d :: (L.rd ++ L.fd).drop (i + 1) := by
      have h1 := List.take_append_drop i (L.rd ++ L.fd)
      rw [List.drop_eq_getElem_cons hlen] at h1
      rw [List.getElem?_eq_getElem hlen, Option.some.injEq] at hi
      rw [← hi]
      exact h1.symm
    unfold Distinct at hd
    rw [hsplit, List.map_append, List.map_cons, List.nodup_append, List.nodup_cons] at hd
    obtain ⟨y, sab, h1, h2, h3⟩ := L.last hsplit hd.2.1.1
    refine ⟨y, sab, h1, ?_, h3 fun hm => hd.2.2 _ hm _ List.mem_cons_self rfl⟩
    rw [h2]
    congr 2
    have hl : ((L.rd ++ L.fd).take i).length = i := by rw [List.length_take]; omega
    split
    · exact hl
    · unfold names
      rw [List.dedup_eq_self.2 hd.1]
      simpa using hl
  refine ⟨?_, key, fun e hm => ?_⟩
  · rw [L.length]
    unfold names
    rw [List.dedup_eq_self.2 hd]
    simp
  · have hk : e.1 ∈ names (L.rd ++ L.fd) := (L.keys e.1).1 (List.mem_map_of_mem hm)
    obtain ⟨d, hdm, hdn⟩ := List.mem_map.1 hk
    obtain ⟨i, hi⟩ := List.mem_iff_getElem?.1 hdm
    obtain ⟨y, sab, _, h2, _⟩ := key i d hi
    have := AMap.get_of_mem L.wf (k := e.1) (v := e.2) hm
    rw [← hdn, h2, Option.some.injEq] at this
    exact ⟨d, by rw [← this]; exact hi, hdn⟩

theorem Loads.table (he : env.Sound) (hd : Distinct (L.rd ++ L.fd)) :
    ∃ t, metaRoot env r.defs = .ok t ∧ t.length = r.defs.length ∧ ∀ k id y, (k, id, y) ∈ r.defs → RootPlace k y (t[id]?) := by
  obtain ⟨h1, h2, h3⟩ := L.distinct hd
  refine metaRoot_spec env he (L.good he) ?_ fun e hm => ?_
  · refine List.Nodup.map_on (fun a ha b hb hab => ?_) (List.Nodup.of_map _ L.wf)
    obtain ⟨d, hd1, hd2⟩ := h3 a ha
    obtain ⟨d', hd1', hd2'⟩ := h3 b hb
    rw [hab, hd1', Option.some.injEq] at hd1
    have hk : a.1 = b.1 := by rw [← hd2, ← hd2', hd1]
    exact List.inj_on_of_nodup_map L.wf ha hb hk
  · obtain ⟨d, hd1, _⟩ := h3 e hm
    rw [h1]
    rw [List.getElem?_eq_some_iff] at hd1
    exact hd1.1
end

/-! ## No panic -/

theorem rootTable_ok (env : Env) (he : env.Sound) {o : TmpObj} {root : Root} (hr : RootOf o root) {lr : List (Decl × RustVal)}
    (hi : o.default = insAll 0 (lr.map fun e => (e.1.name, e.2)) []) (hd : Distinct (lr.map (·.1))) : ∃ t, metaRoot env root.defs = .ok t := by
  have hlen : root.defs.length = lr.length := by
    rw [length_eq_card hr.wf, ← List.length_map (as := lr) (f := fun e => e.1.name)]
    have : (lr.map (fun e => e.1.name)).Nodup := by simpa [Distinct, Function.comp_def] using hd
    rw [← List.toFinset_card_of_nodup this]
    congr 1
    ext n
    rw [List.mem_toFinset, List.mem_toFinset, root_keys hr hi]
    simp [names, Function.comp_def]
  obtain ⟨t, ht, _⟩ := metaRoot_ok env he hr.good fun k id y hm => by
    have hk : k ∈ names (lr.map (·.1)) := (root_keys hr hi k).1 (List.mem_map.2 ⟨_, hm, rfl⟩)
    obtain ⟨p, d, s, h1, h2, h3⟩ := last_split hk
    obtain ⟨p', e, s', h4, h5, h6, h7⟩ := map_split h1
    obtain ⟨y', sab, _, hg, _⟩ := root_last hr (e := e) hi h4 (by rw [h6, h2]; rw [← h7] at h3; simpa [names, Function.comp_def] using h3)
    have := AMap.get_of_mem hr.wf hm
    rw [h6, h2, this, Option.some.injEq, Prod.mk.injEq] at hg
    right
    rw [hg.1, hlen, h4]
    simp
  exact ⟨t, ht⟩

theorem fileItem_all (env : Env) (he : env.Sound) (s : String) (v : JVal)
    (h : s = "root" → ∀ m l, v = .map m → MapDecls m l → Distinct l) : All (fun _ => True) (fileItem env s v) := by
  unfold fileItem
  split
  · rename_i hs
    cases v with
    | map m =>
      refine (obj_good env he false m 0 {} TmpObj.good_empty).bind fun o ho hg => ?_
      obtain ⟨lr, hl1, hl2, hl3⟩ := obj_decls env m 0 {} ho
      have hroot : All (fun _ => True) (intoRoot env o) := by
        unfold intoRoot
        split
        · trivial
        split
        · trivial
        refine (rootHash_all _ _ _).bind fun x hx _ => ?_
        obtain ⟨t, ht⟩ := rootTable_ok env he (rootHash_rootOf env he hg hx (r := ⟨x.1, x.2, [], []⟩) rfl rfl) hl3 (h hs m _ rfl hl1)
        simp only at ht
        rw [ht]
        trivial
      exact hroot.map fun _ _ _ => trivial
    | _ => trivial
  · split
    · exact (item_good env he _ v).bind fun x _ _ => (intoRootVal_all x).map fun _ _ _ => trivial
    · trivial

theorem fileItems_all (env : Env) (he : env.Sound) : ∀ files : List (String × JVal),
    (∀ m l, ("root", .map m) ∈ files → MapDecls m l → Distinct l) → All (fun _ => True) (fileItems env files)
  | [], _ => trivial
  | (s, v) :: r, h => by
    simp only [fileItems]
    refine (fileItem_all env he s v fun hs m l hv hm => h m l (by rw [hs, hv]; exact List.mem_cons_self) hm).bind fun x _ _ => ?_
    exact (fileItems_all env he r fun m l hm => h m l (List.mem_cons_of_mem _ hm)).map fun _ _ _ => trivial

theorem memberItems_all : ∀ l : List FileItem, All (fun _ => True) (memberItems l)
  | [] => trivial
  | .member _ _ _ :: r => (memberItems_all r).map fun _ _ _ => trivial
  | .root _ :: _ => trivial

end Verif.Source
