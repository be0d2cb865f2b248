import Verif.Spec.Grammar
import Verif.Lemmas.SourceMembers
/-! # Reading an object, entry by entry -/
namespace Verif.Source
open Diff Core

/-! ## Entries with a special meaning -/

theorem nameOf_special (k : String) : (nameOf k = some (.system .old) ↔ k = "Old") ∧ (nameOf k = some (.system .id) ↔ k = "ID") ∧
    (nameOf k = some (.system .ref) ↔ k = "Ref") ∧ (nameOf k = some (.system .enum) ↔ k = "Enum") := by
  obtain ⟨h1, h2, h3, h4, _⟩ := Names.C23_special k.toList
  simp only [nameOf, h1, h2, h3, h4, String.toList_inj]
  trivial

theorem written_not {k n : String} {vt : VType} (h : Written k n vt) : k ≠ "Old" ∧ k ≠ "ID" ∧ k ≠ "Ref" ∧ k ≠ "Enum" := by
  have h := written_iff.1 h
  obtain ⟨h1, h2, h3, h4⟩ := nameOf_special k
  refine ⟨fun e => ?_, fun e => ?_, fun e => ?_, fun e => ?_⟩
  · rw [h1.2 e] at h; cases h
  · rw [h2.2 e] at h; cases h
  · rw [h3.2 e] at h; cases h
  · rw [h4.2 e] at h; cases h

theorem special_cases {k : String} (h : Names.Special k.toList) : k = "Old" ∨ k = "ID" ∨ k = "Ref" ∨ k = "Enum" := by
  rcases h with h | h | h | h <;> rw [String.toList_inj] at h
  · exact .inl h
  · exact .inr (.inl h)
  · exact .inr (.inr (.inl h))
  · exact .inr (.inr (.inr h))

/-- json_obj_to_rust.rs:37-47 as a function of the id alone -/
def idStep (i : Option IdVal) (v : JVal) : Res (Option IdVal) :=
  match i, getId v with
  | none, some i => .ok (some i)
  | _, _ => .err

/-- one `ID` after the other -/
def idRun : List JVal → Option IdVal → Res (Option IdVal)
  | [], i => .ok i
  | v :: r, i => (idStep i v).bind (idRun r)

/-- json_obj_to_rust.rs:65-72 as a function of the value alone -/
def oldStep : JVal → Res (List String)
  | .array a => getOld [] a
  | _ => .err

/-- one `Old` after the other -/
def oldRun : List JVal → List String → Res (List String)
  | [], o => .ok o
  | v :: r, _ => (oldStep v).bind (oldRun r)

/-- an object of references -/
def refObj (env : Env) (m : List (String × JVal)) : Res TmpRefs := (obj env true m 0 {}).bind (getRef env)

/-- json_obj_to_rust.rs:48-64 as a function of the references alone -/
def refStep (env : Env) (t : TmpRefs) (b : Bool) : JVal → Res TmpRefs
  | .map m => if t.map.length = 0 then (refObj env m).map fun r => { r with isEnum := b } else .err
  | _ => .err

/-- one `Ref` or `Enum` after the other -/
def refRun (env : Env) : List (Bool × JVal) → TmpRefs → Res TmpRefs
  | [], t => .ok t
  | (b, v) :: r, t => (refStep env t b v).bind (refRun env r)

theorem addId_eq (o : TmpObj) (v : JVal) : addId o v = (idStep o.id v).map fun i => { o with id := i } := by
  unfold addId idStep
  split <;> rename_i h1 h2
  · rw [h1, h2]; rfl
  · split
    · rename_i h3 h4; exact absurd h4 (h2 _ h3)
    · rfl

theorem addOld_eq (o : TmpObj) (v : JVal) : addOld o v = (oldStep v).map fun l => { o with old := l } := by cases v <;> rfl

theorem refsOf_eq (env : Env) (o : TmpObj) (b : Bool) (v : JVal) :
    refsOf env o b v = (refStep env o.refs b v).map fun t => { o with refs := t } := by
  cases v with
  | map m =>
    simp only [refsOf, addRefs, refStep, refObj]
    split
    · cases obj env true m 0 {} with
      | ok x => simp only [Res.bind_ok]; cases getRef env x <;> rfl
      | err => rfl
      | panic => rfl
    · rfl
  | _ => rfl

/-- how a member is read -/
def rd (env : Env) (isRef : Bool) (vt : VType) (v : JVal) : Res RustVal := if isRef then itemRef vt v else item env vt v

/-- what reading an object amounts to -/
structure ObjRun (env : Env) (isRef : Bool) (m : List (String × JVal)) (c : Nat) (o o' : TmpObj) (l : List (Decl × RustVal)) : Prop where
  decls : MapDecls m (l.map (·.1))
  vals : ∀ e ∈ l, rd env isRef e.1.vt e.1.val = .ok e.2
  default : o'.default = insAll c (l.map fun e => (e.1.name, e.2)) o.default
  id : idRun (under "ID" m) o.id = .ok o'.id
  refs : refRun env (refEntries m) o.refs = .ok o'.refs
  old : oldRun (under "Old" m) o.old = .ok o'.old

theorem under_ne {k k' : String} (v : JVal) (m : List (String × JVal)) (h : k' ≠ k) : under k ((k', v) :: m) = under k m := by
  simp [under, h]
theorem under_self (k : String) (v : JVal) (m : List (String × JVal)) : under k ((k, v) :: m) = v :: under k m := by simp [under]
theorem refEntries_ne {k : String} (v : JVal) (m : List (String × JVal)) (h : k ≠ "Ref") (h' : k ≠ "Enum") : refEntries ((k, v) :: m) = refEntries m := by
  simp [refEntries, h, h']
theorem refEntries_ref (v : JVal) (m : List (String × JVal)) : refEntries (("Ref", v) :: m) = (false, v) :: refEntries m := by simp [refEntries]
theorem refEntries_enum (v : JVal) (m : List (String × JVal)) : refEntries (("Enum", v) :: m) = (true, v) :: refEntries m := by simp [refEntries]

theorem obj_run (env : Env) (isRef : Bool) : ∀ (m : List (String × JVal)) (c : Nat) (o : TmpObj) {o' : TmpObj}, obj env isRef m c o = .ok o' →
    ∃ l, ObjRun env isRef m c o o' l
  | [], c, o, o', h => by
    simp only [obj, Res.ok.injEq] at h
    subst h
    exact ⟨[], .nil, (fun _ h => (nomatch h)), rfl, rfl, rfl, rfl⟩
  | (k, v) :: r, c, o, o', h => by
    obtain ⟨n1, n2, n3, n4⟩ := nameOf_special k
    cases hk : nameOf k with
    | none => rw [obj_none hk] at h; cases h
    | some nt =>
      cases nt with
      | name n vt =>
        rw [obj_name hk] at h
        obtain ⟨x, hx, h⟩ := bind_inv h
        obtain ⟨l, hl⟩ := obj_run env isRef r _ _ h
        have hw := nameOf_name.1 hk
        obtain ⟨w1, w2, w3, w4⟩ := written_not hw
        refine ⟨(⟨String.ofList n, vt, v⟩, x) :: l, .member hw hl.decls, ?_, hl.default, ?_, ?_, ?_⟩
        · intro e he
          rcases List.mem_cons.1 he with rfl | he
          · exact hx
          · exact hl.vals e he
        · rw [under_ne _ _ w2]; exact hl.id
        · rw [refEntries_ne _ _ w3 w4]; exact hl.refs
        · rw [under_ne _ _ w1]; exact hl.old
      | system s =>
        cases s with
        | id =>
          rw [obj_id hk, addId_eq] at h
          obtain ⟨o1, ho1, h⟩ := bind_inv h
          obtain ⟨i, hi, rfl⟩ := map_inv ho1
          obtain ⟨l, hl⟩ := obj_run env isRef r _ _ h
          obtain rfl := n2.1 hk
          refine ⟨l, .special (nameOf_system hk) hl.decls, hl.vals, hl.default, ?_, ?_, ?_⟩
          · rw [under_self, idRun, hi]; exact hl.id
          · rw [refEntries_ne _ _ (by decide) (by decide)]; exact hl.refs
          · rw [under_ne _ _ (by decide)]; exact hl.old
        | ref =>
          rw [obj_ref hk, refsOf_eq] at h
          obtain ⟨o1, ho1, h⟩ := bind_inv h
          obtain ⟨i, hi, rfl⟩ := map_inv ho1
          obtain ⟨l, hl⟩ := obj_run env isRef r _ _ h
          obtain rfl := n3.1 hk
          refine ⟨l, .special (nameOf_system hk) hl.decls, hl.vals, hl.default, ?_, ?_, ?_⟩
          · rw [under_ne _ _ (by decide)]; exact hl.id
          · rw [refEntries_ref, refRun, hi]; exact hl.refs
          · rw [under_ne _ _ (by decide)]; exact hl.old
        | enum =>
          rw [obj_enum hk, refsOf_eq] at h
          obtain ⟨o1, ho1, h⟩ := bind_inv h
          obtain ⟨i, hi, rfl⟩ := map_inv ho1
          obtain ⟨l, hl⟩ := obj_run env isRef r _ _ h
          obtain rfl := n4.1 hk
          refine ⟨l, .special (nameOf_system hk) hl.decls, hl.vals, hl.default, ?_, ?_, ?_⟩
          · rw [under_ne _ _ (by decide)]; exact hl.id
          · rw [refEntries_enum, refRun, hi]; exact hl.refs
          · rw [under_ne _ _ (by decide)]; exact hl.old
        | old =>
          rw [obj_old hk, addOld_eq] at h
          obtain ⟨o1, ho1, h⟩ := bind_inv h
          obtain ⟨i, hi, rfl⟩ := map_inv ho1
          obtain ⟨l, hl⟩ := obj_run env isRef r _ _ h
          obtain rfl := n1.1 hk
          refine ⟨l, .special (nameOf_system hk) hl.decls, hl.vals, hl.default, ?_, ?_, ?_⟩
          · rw [under_ne _ _ (by decide)]; exact hl.id
          · rw [refEntries_ne _ _ (by decide) (by decide)]; exact hl.refs
          · rw [under_self, oldRun, hi]; exact hl.old

theorem obj_of_run (env : Env) (isRef : Bool) : ∀ (m : List (String × JVal)) (c : Nat) (o : TmpObj) {o' : TmpObj} (l : List (Decl × RustVal)),
    ObjRun env isRef m c o o' l → obj env isRef m c o = .ok o'
  | [], c, o, o', l, h => by
    obtain ⟨h1, _, h3, h4, h5, h6⟩ := h
    cases hl : l with
    | nil =>
      rw [hl] at h3
      cases o; cases o'
      simp only [idRun, refRun, oldRun, under, refEntries, List.filter_nil, List.map_nil, Res.ok.injEq, insAll] at h3 h4 h5 h6
      subst h3 h4 h5 h6
      simp only [obj]
    | cons e r => rw [hl] at h1; cases h1
  | (k, v) :: r, c, o, o', l, h => by
    obtain ⟨h1, h2, h3, h4, h5, h6⟩ := h
    obtain ⟨n1, n2, n3, n4⟩ := nameOf_special k
    generalize hq : l.map (·.1) = q at h1
    cases h1 with
    | @member _ n vt _ _ q' hw hd =>
      cases l with
      | nil => cases hq
      | cons e l =>
        obtain ⟨d, x⟩ := e
        simp only [List.map_cons, List.cons.injEq] at hq
        obtain ⟨rfl, rfl⟩ := hq
        obtain ⟨w1, w2, w3, w4⟩ := written_not hw
        rw [under_ne _ _ w2] at h4
        rw [refEntries_ne _ _ w3 w4] at h5
        rw [under_ne _ _ w1] at h6
        have hx := h2 _ List.mem_cons_self
        rw [obj_name (written_iff.1 hw), show (if isRef = true then itemRef vt v else item env vt v) = .ok x from hx, Res.bind_ok]
        exact obj_of_run env isRef r _ _ l ⟨hd, fun e he => h2 e (List.mem_cons_of_mem _ he), by rw [h3]; simp [insAll, addMember], h4, h5, h6⟩
    | special hs hd =>
      subst hq
      rcases special_cases hs with rfl | rfl | rfl | rfl
      · rw [under_ne _ _ (by decide)] at h4
        rw [refEntries_ne _ _ (by decide) (by decide)] at h5
        rw [under_self, oldRun] at h6
        obtain ⟨i, hi, h6⟩ := bind_inv h6
        rw [obj_old (n1.2 rfl), addOld_eq, hi]
        exact obj_of_run env isRef r _ _ l ⟨hd, h2, h3, h4, h5, h6⟩
      · rw [under_self, idRun] at h4
        rw [refEntries_ne _ _ (by decide) (by decide)] at h5
        rw [under_ne _ _ (by decide)] at h6
        obtain ⟨i, hi, h4⟩ := bind_inv h4
        rw [obj_id (n2.2 rfl), addId_eq, hi]
        exact obj_of_run env isRef r _ _ l ⟨hd, h2, h3, h4, h5, h6⟩
      · rw [under_ne _ _ (by decide)] at h4 h6
        rw [refEntries_ref, refRun] at h5
        obtain ⟨i, hi, h5⟩ := bind_inv h5
        rw [obj_ref (n3.2 rfl), refsOf_eq, hi]
        exact obj_of_run env isRef r _ _ l ⟨hd, h2, h3, h4, h5, h6⟩
      · rw [under_ne _ _ (by decide)] at h4 h6
        rw [refEntries_enum, refRun] at h5
        obtain ⟨i, hi, h5⟩ := bind_inv h5
        rw [obj_enum (n4.2 rfl), refsOf_eq, hi]
        exact obj_of_run env isRef r _ _ l ⟨hd, h2, h3, h4, h5, h6⟩

/-! ## Ids -/

theorem idRun_some (i : IdVal) : ∀ (L : List JVal) {j : Option IdVal}, idRun L (some i) = .ok j → L = [] ∧ j = some i
  | [], j, h => by simp only [idRun, Res.ok.injEq] at h; exact ⟨rfl, h.symm⟩
  | v :: r, j, h => by simp only [idRun, idStep] at h; cases h

theorem idRun_iff (L : List JVal) (i : Option IdVal) : idRun L none = .ok i ↔
    (L = [] ∧ i = none) ∨ (∃ s, L = [.string s] ∧ i = some (.str s)) ∨ ∃ f, L = [.double f] ∧ i = some (.num (f64ToU64 f)) := by
  constructor
  · intro h
    cases L with
    | nil => simp only [idRun, Res.ok.injEq] at h; exact .inl ⟨rfl, h.symm⟩
    | cons v r =>
      simp only [idRun] at h
      obtain ⟨j, hj, h⟩ := bind_inv h
      cases v <;> simp only [idStep, getId, Res.ok.injEq] at hj <;> try cases hj
      · obtain ⟨rfl, rfl⟩ := idRun_some _ _ h; exact .inr (.inl ⟨_, rfl, rfl⟩)
      · obtain ⟨rfl, rfl⟩ := idRun_some _ _ h; exact .inr (.inr ⟨_, rfl, rfl⟩)
  · rintro (⟨rfl, rfl⟩ | ⟨s, rfl, rfl⟩ | ⟨f, rfl, rfl⟩) <;> rfl

/-! ## Old names -/

theorem nameOf_normal {s : String} {n : List Char} : nameOf s = some (.name n .normal) ↔ s.toList = n ∧ Names.Ident n := by
  unfold nameOf
  rw [Names.C23_accepts]
  constructor
  · rintro ⟨suf, h1, h2, h3⟩
    cases h3
    exact ⟨by rw [h1, List.append_nil], h2⟩
  · rintro ⟨h1, h2⟩
    exact ⟨[], by rw [h1, List.append_nil], h2, .normal⟩

theorem getOld_spec : ∀ (a : List JVal) (acc : List String) {o : List String}, getOld acc a = .ok o →
    ∃ l : List String, a = l.map .string ∧ (∀ s ∈ l, Names.Ident s.toList) ∧ (acc.Nodup → o.Nodup) ∧ ∀ s, s ∈ o ↔ s ∈ acc ∨ s ∈ l
  | [], acc, o, h => by
    simp only [getOld, Res.ok.injEq] at h
    subst h
    exact ⟨[], rfl, (fun _ h => (nomatch h)), fun h => h, fun s => by simp⟩
  | v :: r, acc, o, h => by
    cases v with
    | string s =>
      simp only [getOld] at h
      split at h
      · rename_i n hn
        obtain ⟨rfl, hi⟩ := nameOf_normal.1 hn
        obtain ⟨l, h1, h2, h3, h4⟩ := getOld_spec r _ h
        rw [String.ofList_toList] at h3 h4
        refine ⟨s :: l, by rw [h1]; rfl, ?_, ?_, ?_⟩
        · intro x hx
          rcases List.mem_cons.1 hx with rfl | hx
          · exact hi
          · exact h2 x hx
        · intro hacc
          refine h3 ?_
          unfold insertName
          split
          · exact hacc
          · rename_i hs; exact List.nodup_append.2 ⟨hacc, by simp, by rintro a ha b hb rfl; rw [List.mem_singleton] at hb; subst hb; exact hs ha⟩
        · intro x
          rw [h4]
          unfold insertName
          split
          · rename_i hs
            simp only [List.mem_cons]
            constructor
            · rintro (h | h)
              · exact .inl h
              · exact .inr (.inr h)
            · rintro (h | h | h)
              · exact .inl h
              · subst h; exact .inl hs
              · exact .inr h
          · simp only [List.mem_append, List.mem_singleton, List.mem_cons, or_assoc, List.not_mem_nil, or_false]
      · cases h
    | _ => simp only [getOld] at h; cases h

theorem getOld_ok : ∀ (l : List String) (acc : List String), (∀ s ∈ l, Names.Ident s.toList) → ∃ o, getOld acc (l.map .string) = .ok o
  | [], acc, _ => ⟨acc, rfl⟩
  | s :: r, acc, h => by
    simp only [List.map_cons, getOld]
    rw [nameOf_normal.2 ⟨rfl, h s List.mem_cons_self⟩]
    exact getOld_ok r _ fun x hx => h x (List.mem_cons_of_mem _ hx)

theorem namesAre_of {a : List JVal} {o : List String} (h : getOld [] a = .ok o) : NamesAre a o := by
  obtain ⟨l, h1, h2, h3, h4⟩ := getOld_spec a [] h
  exact ⟨l, h1, h2, h3 List.nodup_nil, fun s => by simpa using h4 s⟩

theorem NamesAre.nil_iff {a : List JVal} {o : List String} (h : NamesAre a o) : o = [] ↔ a = [] := by
  obtain ⟨l, rfl, _, _, h⟩ := h
  cases l with
  | nil => simpa [List.eq_nil_iff_forall_not_mem] using h
  | cons s r => simp; rintro rfl; exact absurd ((h s).2 List.mem_cons_self) (by simp)

theorem NamesAre.getOld {a : List JVal} {o : List String} (h : NamesAre a o) : ∃ o', getOld [] a = .ok o' ∧ (o' = [] ↔ o = []) := by
  obtain ⟨l, rfl, h2, h3, h4⟩ := id h
  obtain ⟨o', ho⟩ := getOld_ok l [] h2
  exact ⟨o', ho, by rw [(namesAre_of ho).nil_iff, h.nil_iff]⟩

theorem oldRun_spec : ∀ (L : List JVal) (o : List String) {o' : List String}, oldRun L o = .ok o' →
    (∀ v ∈ L, ∃ a x, v = .array a ∧ NamesAre a x) ∧ ((L = [] ∧ o' = o) ∨ ∃ p a, L = p ++ [.array a] ∧ NamesAre a o')
  | [], o, o', h => by simp only [oldRun, Res.ok.injEq] at h; exact ⟨(fun _ h => (nomatch h)), .inl ⟨rfl, h.symm⟩⟩
  | v :: r, o, o', h => by
    simp only [oldRun] at h
    obtain ⟨x, hx, h⟩ := bind_inv h
    obtain ⟨h1, h2⟩ := oldRun_spec r x h
    cases v with
    | array a =>
      have hn := namesAre_of hx
      refine ⟨fun v hv => ?_, .inr ?_⟩
      · rcases List.mem_cons.1 hv with rfl | hv
        · exact ⟨a, x, rfl, hn⟩
        · exact h1 v hv
      · rcases h2 with ⟨rfl, rfl⟩ | ⟨p, b, rfl, hb⟩
        · exact ⟨[], a, rfl, hn⟩
        · exact ⟨.array a :: p, b, rfl, hb⟩
    | _ => cases hx

theorem oldRun_ok : ∀ (L : List JVal) (o : List String), (∀ v ∈ L, ∃ a x, v = .array a ∧ NamesAre a x) → ∃ o', oldRun L o = .ok o'
  | [], o, _ => ⟨o, rfl⟩
  | v :: r, o, h => by
    obtain ⟨a, x, rfl, hx⟩ := h v List.mem_cons_self
    obtain ⟨o', ho, _⟩ := hx.getOld
    obtain ⟨o2, h2⟩ := oldRun_ok r o' fun v hv => h v (List.mem_cons_of_mem _ hv)
    exact ⟨o2, by simp only [oldRun, oldStep, ho, Res.bind_ok, h2]⟩

theorem oldIs_of {m : List (String × JVal)} {o : List String} (h : oldRun (under "Old" m) [] = .ok o) : OldIs m o := oldRun_spec _ _ h

theorem OldIs.run {m : List (String × JVal)} {o : List String} (h : OldIs m o) : ∃ o', oldRun (under "Old" m) [] = .ok o' ∧ (o' = [] ↔ o = []) := by
  obtain ⟨o', ho⟩ := oldRun_ok _ [] h.1
  refine ⟨o', ho, ?_⟩
  obtain ⟨_, h1⟩ := oldRun_spec _ _ ho
  rcases h.2 with ⟨e, rfl⟩ | ⟨p, a, e, ha⟩
  · rcases h1 with ⟨_, rfl⟩ | ⟨p, a, e', _⟩
    · rfl
    · rw [e] at e'; simp at e'
  · rcases h1 with ⟨e', _⟩ | ⟨p', a', e', ha'⟩
    · rw [e] at e'; simp at e'
    · rw [e] at e'
      obtain ⟨_, e'⟩ := List.append_inj' e' rfl
      simp only [List.cons.injEq, JVal.array.injEq, and_true] at e'
      subst e'
      rw [ha.nil_iff, ha'.nil_iff]

end Verif.Source
