import Verif.Spec.Source
import Verif.Lemmas.AMap
import Mathlib.Data.List.Nodup
import Mathlib.Data.List.Perm.Basic
import Mathlib.Data.List.Range
/-! # Lemmas about loading the source -/
namespace Verif.Source
open Diff Core

/-! ## Outcomes -/

/-- The outcome is no panic, and a value has the property. -/
def All {α : Type} (P : α → Prop) : Res α → Prop
  | .ok a => P a
  | .err => True
  | .panic => False

theorem All.bind {α β : Type} {P : α → Prop} {Q : β → Prop} {r : Res α} {f : α → Res β} (h : All P r)
    (hf : ∀ a, r = .ok a → P a → All Q (f a)) : All Q (r.bind f) := by
  cases r with
  | ok a => exact hf a rfl h
  | err => trivial
  | panic => exact h

theorem All.map {α β : Type} {P : α → Prop} {Q : β → Prop} {r : Res α} {f : α → β} (h : All P r)
    (hf : ∀ a, r = .ok a → P a → Q (f a)) : All Q (r.map f) := by
  cases r with
  | ok a => exact hf a rfl h
  | err => trivial
  | panic => exact h

theorem All.mono {α : Type} {P Q : α → Prop} {r : Res α} (h : All P r) (hf : ∀ a, r = .ok a → P a → Q a) : All Q r := by
  cases r with
  | ok a => exact hf a rfl h
  | err => trivial
  | panic => exact h

theorem All.of_ok {α : Type} {P : α → Prop} {r : Res α} {a : α} (h : All P r) (ha : r = .ok a) : P a := by subst ha; exact h

theorem All.ne_panic {α : Type} {P : α → Prop} {r : Res α} (h : All P r) : r ≠ .panic := by rintro rfl; exact h

theorem all_err {α : Type} {P : α → Prop} : All P (.err : Res α) := trivial

theorem all_ok {α : Type} {P : α → Prop} {a : α} (h : P a) : All P (.ok a) := h

theorem all_and {α : Type} {P Q : α → Prop} {r : Res α} (h : All P r) (h' : All Q r) : All (fun a => P a ∧ Q a) r := by
  cases r with
  | ok a => exact ⟨h, h'⟩
  | err => trivial
  | panic => exact h

theorem all_of_ne_panic {α : Type} {P : α → Prop} {r : Res α} (h : r ≠ .panic) (h' : ∀ a, r = .ok a → P a) : All P r := by
  cases r with
  | ok a => exact h' a rfl
  | err => trivial
  | panic => exact absurd rfl h

/-! ## Maps -/

theorem insert_fresh {α : Type} (m : AMap α) (k : String) (v : α) (h : k ∉ m.map (·.1)) : m.insert k v = m ++ [(k, v)] := by
  induction m with
  | nil => rfl
  | cons e r ih =>
    obtain ⟨k', v'⟩ := e
    simp only [List.map_cons, List.mem_cons, not_or] at h
    simp only [AMap.insert, if_neg h.1, ih h.2, List.cons_append]

theorem mem_insert {α : Type} {m : AMap α} {k : String} {v : α} {e : String × α} (h : e ∈ m.insert k v) : e ∈ m ∨ e = (k, v) := by
  induction m with
  | nil => simp only [AMap.insert, List.mem_singleton] at h; exact .inr h
  | cons x r ih =>
    obtain ⟨k', v'⟩ := x
    simp only [AMap.insert] at h
    by_cases hk : k = k'
    · rw [if_pos hk] at h
      rcases List.mem_cons.1 h with h | h
      · exact .inr h
      · exact .inl (List.mem_cons_of_mem _ h)
    · rw [if_neg hk] at h
      rcases List.mem_cons.1 h with h | h
      · exact .inl (h ▸ List.mem_cons_self)
      · rcases ih h with h | h
        · exact .inl (List.mem_cons_of_mem _ h)
        · exact .inr h

theorem wf_of_perm {α : Type} {m m' : AMap α} (h : m.Perm m') (hm : m'.Wf) : m.Wf :=
  (h.map _).nodup_iff.2 hm

theorem get_of_perm {α : Type} {m m' : AMap α} (h : m.Perm m') (hm : m'.Wf) (k : String) : m.get k = m'.get k := by
  cases hg : m'.get k with
  | none =>
    rw [AMap.get_eq_none] at hg ⊢
    rw [(h.map _).mem_iff]; exact hg
  | some v =>
    exact AMap.get_of_mem (wf_of_perm h hm) (h.mem_iff.2 (AMap.mem_of_get hg))

/-! ## Maps made of maps -/

theorem sabMap_spec : ∀ (l : List (String × Nat × RustVal)) (m : AMap SabVal),
    All (fun m' => ∀ e ∈ m', e ∈ m ∨ ∃ id v, (e.1, id, v) ∈ l ∧ intoSabVal v = .ok e.2) (sabMap l m)
  | [], m => by simp only [sabMap]; exact fun e h => .inl h
  | (k, id, v) :: r, m => by
    simp only [sabMap]
    have hv : All (fun _ => True) (intoSabVal v) := by
      cases v <;> simp only [intoSabVal] <;> try trivial
      rename_i l; cases l <;> trivial
    refine hv.bind fun s hs _ => ?_
    refine (sabMap_spec r (m.insert k s)).mono fun m' _ h e he => ?_
    rcases h e he with h | ⟨id', v', h, h'⟩
    · rcases mem_insert h with h | h
      · exact .inl h
      · subst h; exact .inr ⟨id, v, List.mem_cons_self, hs⟩
    · exact .inr ⟨id', v', List.mem_cons_of_mem _ h, h'⟩

theorem defMap_spec : ∀ (l : List (String × Nat × RustVal)) (idx : Nat) (m : AMap (Nat × LDefVal)),
    (m.map (·.1) ++ l.map (·.1)).Nodup →
    All (fun m' => m'.map (·.1) = m.map (·.1) ++ l.map (·.1) ∧
      m'.map (·.2.1) = m.map (·.2.1) ++ List.range' idx l.length ∧
      ∀ e ∈ m', e ∈ m ∨ ∃ id v, (e.1, id, v) ∈ l ∧ intoDefVal v = .ok e.2.2) (defMap l idx m)
  | [], idx, m, _ => by simp only [defMap]; exact ⟨by simp, by simp, fun e h => .inl h⟩
  | (k, id, v) :: r, idx, m, hn => by
    simp only [defMap]
    have hv : All (fun _ => True) (intoDefVal v) := by cases v <;> simp only [intoDefVal] <;> trivial
    refine hv.bind fun d hd _ => ?_
    have hk : k ∉ m.map (·.1) := by
      rw [List.map_cons, List.nodup_append] at hn
      exact fun hm => hn.2.2 _ hm k List.mem_cons_self rfl
    rw [insert_fresh _ _ _ hk]
    refine (defMap_spec r (idx + 1) (m ++ [(k, idx, d)]) (by simpa [List.append_assoc] using hn)).mono fun m' _ h => ?_
    refine ⟨by simpa using h.1, by simpa [List.range'_succ] using h.2.1, fun e he => ?_⟩
    rcases h.2.2 e he with h | ⟨id', v', h, h'⟩
    · rcases List.mem_append.1 h with h | h
      · exact .inl h
      · rw [List.mem_singleton] at h; subst h; exact .inr ⟨id, v, List.mem_cons_self, hd⟩
    · exact .inr ⟨id', v', List.mem_cons_of_mem _ h, h'⟩

theorem refLoop_spec : ∀ (l : List (String × Nat × RustVal)) (idx : Nat) (m : AMap (Nat × Qv String × VType)),
    (m.map (·.1) ++ l.map (·.1)).Nodup →
    All (fun m' => m'.map (·.1) = m.map (·.1) ++ l.map (·.1) ∧
      m'.map (·.2.1) = m.map (·.2.1) ++ List.range' idx l.length) (refLoop l idx m)
  | [], idx, m, _ => by simp only [refLoop]; exact ⟨by simp, by simp⟩
  | (k, id, v) :: r, idx, m, hn => by
    have hk : k ∉ m.map (·.1) := by
      rw [List.map_cons, List.nodup_append] at hn
      exact fun hm => hn.2.2 _ hm k List.mem_cons_self rfl
    have step : ∀ q vt, All (fun m' => m'.map (·.1) = m.map (·.1) ++ ((k, id, v) :: r).map (·.1) ∧
        m'.map (·.2.1) = m.map (·.2.1) ++ List.range' idx ((k, id, v) :: r).length)
        (refLoop r (idx + 1) (m.insert k (idx, q, vt))) := by
      intro q vt
      rw [insert_fresh _ _ _ hk]
      refine (refLoop_spec r (idx + 1) (m ++ [(k, idx, q, vt)]) (by simpa [List.append_assoc] using hn)).mono fun m' _ h => ?_
      exact ⟨by simpa using h.1, by simpa [List.range'_succ] using h.2⟩
    cases v with
    | param p vt =>
      cases p with
      | string q =>
        cases q with
        | val s =>
          simp only [refLoop]
          split
          · trivial
          · exact step _ _
        | undef => simp only [refLoop]; exact step _ _
        | null => simp only [refLoop]; exact step _ _
      | _ => simp only [refLoop]; trivial
    | _ => simp only [refLoop]; trivial

/-! ## Numbers of members -/

/-- The definitions inside a value are numbered. -/
def RustVal.Good : RustVal → Prop
  | .param _ _ => True
  | .table d _ _ => Numbered d
  | .clist d _ => Numbered d
  | .mlist d _ _ => Numbered d
  | .cil _ => True
  | .mil _ => True
  | .cilDef d => Numbered d
  | .milDef d _ => Numbered d

structure TmpObj.Good (o : TmpObj) : Prop where
  wf : o.default.Wf
  vals : ∀ e ∈ o.default, e.2.2.Good
  rwf : (o.refs.map.map (·.1)).Nodup
  rids : IdsFill (o.refs.map.map (·.2.1))

def TmpList.Good (t : TmpList) : Prop := ∀ d, t.default = some d → Numbered d

def Attr.Good : Attr → Prop
  | .default d => Numbered d
  | _ => True

theorem TmpObj.good_empty : ({} : TmpObj).Good :=
  ⟨List.nodup_nil, (fun _ h => (nomatch h)), List.nodup_nil, by simp [IdsFill]⟩

theorem TmpList.good_empty : ({} : TmpList).Good := fun _ h => nomatch h

theorem Good.addMember {o : TmpObj} (h : o.Good) (n : String) (id : Nat) (v : RustVal) (hv : v.Good) : (addMember o n id v).Good := by
  refine ⟨h.wf.insert n (id, v), fun e he => ?_, h.rwf, h.rids⟩
  rcases mem_insert he with he | he
  · exact h.vals e he
  · subst he; exact hv

theorem addId_good {o : TmpObj} (h : o.Good) (v : JVal) : All TmpObj.Good (addId o v) := by
  unfold addId
  split
  · exact ⟨h.wf, h.vals, h.rwf, h.rids⟩
  · trivial

theorem getOld_all : ∀ (a : List JVal) (acc : List String), All (fun _ => True) (getOld acc a)
  | [], acc => trivial
  | v :: r, acc => by
    cases v with
    | string s =>
      simp only [getOld]
      split
      · exact getOld_all r _
      · trivial
    | _ => simp only [getOld]; trivial

theorem addOld_good {o : TmpObj} (h : o.Good) (v : JVal) : All TmpObj.Good (addOld o v) := by
  cases v with
  | array a => exact (getOld_all a []).map fun _ _ _ => ⟨h.wf, h.vals, h.rwf, h.rids⟩
  | _ => trivial

theorem idsFill_range (n : Nat) : IdsFill (List.range n) := by simp [IdsFill]

theorem getRef_good (env : Env) (he : env.Sound) {x : TmpObj} (hx : x.Good) :
    All (fun r => (r.map.map (·.1)).Nodup ∧ IdsFill (r.map.map (·.2.1))) (getRef env x) := by
  unfold getRef
  split
  · trivial
  split
  · trivial
  have hw : (env.order x.default).Wf := wf_of_perm (he _) hx.wf
  refine (refLoop_spec (env.order x.default) 0 [] (by simpa [AMap.Wf] using hw)).map fun m _ h => ?_
  refine ⟨by rw [h.1]; simpa [AMap.Wf] using hw, ?_⟩
  show IdsFill (m.map (·.2.1))
  rw [h.2]
  simpa [← List.range_eq_range'] using idsFill_range _

theorem addRefs_good (env : Env) (he : env.Sound) {o : TmpObj} (h : o.Good) (b : Bool) {r : Res TmpObj} (hr : All TmpObj.Good r) :
    All TmpObj.Good (addRefs env o b r) := by
  unfold addRefs
  split
  · exact hr.bind fun x _ hx => (getRef_good env he hx).map fun a _ ha => ⟨h.wf, h.vals, ha.1, ha.2⟩
  · trivial

theorem intoListDef_good (env : Env) (he : env.Sound) {o : TmpObj} (h : o.Good) : All Numbered (intoListDef env o) := by
  unfold intoListDef
  split
  · trivial
  have hw : (env.order o.default).Wf := wf_of_perm (he _) h.wf
  refine (defMap_spec (env.order o.default) 0 [] (by simpa [AMap.Wf] using hw)).map fun m _ hm => ?_
  refine .mk (by rw [hm.1]; simpa [AMap.Wf] using hw) ?_ h.rwf h.rids ?_ ?_
  · show IdsFill (m.map (·.2.1))
    rw [hm.2.1]
    simpa [← List.range_eq_range'] using idsFill_range _
  · intro k id d hd
    rcases hm.2.2 _ hd with h' | ⟨id', v, hv, hd'⟩
    · cases h'
    · have := h.vals _ ((he _).mem_iff.1 hv)
      cases v <;> simp only [intoDefVal, Res.ok.injEq] at hd' <;> try cases hd'
      exact this
  · intro k id d u hd
    rcases hm.2.2 _ hd with h' | ⟨id', v, hv, hd'⟩
    · cases h'
    · have := h.vals _ ((he _).mem_iff.1 hv)
      cases v <;> simp only [intoDefVal, Res.ok.injEq] at hd' <;> try cases hd'
      exact this

theorem addAttr_good {t : TmpList} (h : t.Good) {a : Attr} (ha : a.Good) : All TmpList.Good (addAttr t a) := by
  cases a with
  | default d =>
    simp only [addAttr]
    split
    · intro d' hd'; cases hd'; exact ha
    · trivial
  | old o => simp only [addAttr]; split <;> first | exact h | trivial
  | nextId n => simp only [addAttr]; split <;> first | exact h | trivial

theorem toItem_all (env : Env) (o : TmpObj) : All (fun _ => True) (toItem env o) :=
  (sabMap_spec _ _).map fun _ _ _ => trivial

theorem listItems_all (env : Env) : ∀ l : List TmpObj, All (fun _ => True) (listItems env l)
  | [] => trivial
  | o :: r => by
    simp only [listItems]
    have h : All (fun _ => True) (intoItem env o) := by
      unfold intoItem; split; · trivial
      split; · trivial
      exact toItem_all env o
    exact h.bind fun i _ _ => (listItems_all env r).map fun _ _ _ => trivial

theorem dataItems_all (env : Env) : ∀ (l : List TmpObj) (m : AMap Item), All (fun _ => True) (dataItems env l m)
  | [], m => trivial
  | o :: r, m => by
    simp only [dataItems]
    have h : All (fun _ => True) (intoItemWithId env o) := by
      unfold intoItemWithId; split; · trivial
      split
      · exact (toItem_all env o).map fun _ _ _ => trivial
      · trivial
    exact h.bind fun i _ _ => dataItems_all env r _

theorem mutItems_all (env : Env) : ∀ (l : List TmpObj) (idx : Nat), All (fun _ => True) (mutItems env idx l)
  | [], idx => trivial
  | o :: r, idx => by
    simp only [mutItems]
    have h : All (fun _ => True) (intoMutItem env idx o) := by
      unfold intoMutItem
      split
      · trivial
      · split
        · trivial
        · exact (toItem_all env o).map fun _ _ _ => trivial
      · split
        · trivial
        · exact (toItem_all env o).map fun _ _ _ => trivial
    exact h.bind fun i _ _ => (mutItems_all env r _).map fun _ _ _ => trivial

/-- the tags of lists -/
def Tag.IsList (t : Tag) : Prop := t = .clist ∨ t = .table ∨ t = .mlist ∨ t = .cil ∨ t = .mil ∨ t = .cilDef ∨ t = .milDef

theorem intoList_good (env : Env) {tag : Tag} (ht : tag.IsList) (vt : VType) {t : TmpList} (h : t.Good) :
    All RustVal.Good (intoList env tag vt t) := by
  have h1 : All RustVal.Good (intoConstList env t) := by
    unfold intoConstList; split
    · rename_i hd _; exact (listItems_all env _).map fun _ _ _ => h _ hd
    · trivial
  have h2 : All RustVal.Good (intoConstData env t) := by
    unfold intoConstData; split
    · rename_i hd _; exact (dataItems_all env _ _).map fun _ _ _ => h _ hd
    · trivial
  have h3 : ∀ u, All RustVal.Good (intoMutList env t u) := by
    intro u
    unfold intoMutList; split
    · rename_i hd
      unfold mutList
      exact ((mutItems_all env _ _).map (Q := fun _ => True) fun _ _ _ => trivial).map fun _ _ _ => h _ hd
    · trivial
  have h4 : All RustVal.Good (intoInnerList env t) := by
    unfold intoInnerList; split
    · exact (listItems_all env _).map fun _ _ _ => trivial
    · trivial
  have h5 : All RustVal.Good (intoMutInnerList env t) := by
    unfold intoMutInnerList; split
    · unfold mutList
      exact ((mutItems_all env _ _).map (Q := fun _ => True) fun _ _ _ => trivial).map fun _ _ _ => trivial
    · trivial
  have h6 : All RustVal.Good (intoInnerDef t) := by
    unfold intoInnerDef; split
    · rename_i hd _ _; exact h _ hd
    · trivial
  have h7 : ∀ u, All RustVal.Good (intoInnerMutDef t u) := by
    intro u
    unfold intoInnerMutDef; split
    · rename_i hd _ _; exact h _ hd
    · trivial
  unfold intoList
  cases vt with
  | normal => rcases ht with rfl | rfl | rfl | rfl | rfl | rfl | rfl <;> first | exact h1 | exact h2 | exact h3 _ | exact h4 | exact h5 | exact h6 | exact h7 _
  | undefiable => rcases ht with rfl | rfl | rfl | rfl | rfl | rfl | rfl <;> first | exact h3 _ | exact h7 _ | trivial
  | nullable => trivial
  | undefNullable => trivial

theorem itemRef_good (vt : VType) (v : JVal) : All RustVal.Good (itemRef vt v) := by cases v <;> trivial

theorem arrayNull_good {tag : Tag} (ht : tag = .int ∨ tag = .float ∨ tag = .str ∨ tag = .bool) (vt : VType) (r : List JVal) :
    All RustVal.Good (arrayNull tag vt r) := by
  match r with
  | [.null] => rcases ht with rfl | rfl | rfl | rfl <;> trivial
  | [.undef] => rcases ht with rfl | rfl | rfl | rfl <;> trivial
  | [.int d] => simp only [arrayNull]; split <;> trivial
  | [.double d] => simp only [arrayNull]; split <;> trivial
  | [.bool _] => trivial
  | [.string _] => trivial
  | [.array _] => trivial
  | [.map _] => trivial
  | [] => simp only [arrayNull]; trivial
  | _ :: _ :: _ => simp only [arrayNull]; trivial

/-- the elements of an array, as far as `to_param` looks at them -/
def IntsOnly (q : Qv (List Param)) : Prop := ∀ l, q = .val l → ∀ p ∈ l, ∃ i, p = .int (.val i)

theorem collectOpt_some {α β : Type} {f : α → Option β} : ∀ {l : List α}, (∀ x ∈ l, (f x).isSome) → (collectOpt f l).isSome
  | [], _ => rfl
  | x :: r, h => by
    have h1 := h x List.mem_cons_self
    have h2 := collectOpt_some fun y hy => h y (List.mem_cons_of_mem x hy)
    simp only [collectOpt]
    cases hx : f x with
    | none => rw [hx] at h1; cases h1
    | some y => simpa using h2

theorem toParam_ints {q : Qv (List Param)} (h : IntsOnly q) : (toParam q .int).isSome := by
  cases q with
  | val l =>
    have : (collectOpt toInt l).isSome := collectOpt_some fun p hp => by obtain ⟨i, rfl⟩ := h l rfl p hp; rfl
    simp only [toParam, qvOptMap, Option.isSome_map]; exact this
  | undef => rfl
  | null => rfl

/-! ## The steps of `obj` -/

/-- what `Ref` and `Enum` have -/
def refsOf (env : Env) (o : TmpObj) (isEnum : Bool) : JVal → Res TmpObj
  | .map m => addRefs env o isEnum (obj env true m 0 {})
  | _ => .err

section
variable {env : Env} {isRef : Bool} {k : String} {v : JVal} {r : List (String × JVal)} {c : Nat} {o : TmpObj}

theorem obj_none (h : nameOf k = none) : obj env isRef ((k, v) :: r) c o = .err := by cases v <;> simp [obj, h]
theorem obj_name {n : List Char} {vt : VType} (h : nameOf k = some (.name n vt)) : obj env isRef ((k, v) :: r) c o =
    (if isRef then itemRef vt v else item env vt v).bind fun x => obj env isRef r (c + 1) (addMember o (String.ofList n) c x) := by
  cases v <;> simp [obj, h]
theorem obj_id (h : nameOf k = some (.system .id)) : obj env isRef ((k, v) :: r) c o = (addId o v).bind fun o => obj env isRef r c o := by
  cases v <;> simp [obj, h]
theorem obj_ref (h : nameOf k = some (.system .ref)) : obj env isRef ((k, v) :: r) c o =
    (refsOf env o false v).bind fun o => obj env isRef r c o := by cases v <;> simp [obj, h, refsOf]
theorem obj_enum (h : nameOf k = some (.system .enum)) : obj env isRef ((k, v) :: r) c o =
    (refsOf env o true v).bind fun o => obj env isRef r c o := by cases v <;> simp [obj, h, refsOf]
theorem obj_old (h : nameOf k = some (.system .old)) : obj env isRef ((k, v) :: r) c o =
    (addOld o v).bind fun o => obj env isRef r c o := by cases v <;> simp [obj, h]
end

/-- the attribute of a list without its definition -/
def attrRest (s : String) (r : List JVal) : Res Attr :=
  if s = "Default" then .err else if s = "Old" then (getOld [] r).map .old else if s = "NextID" then nextIdAttr r else .err

theorem listAttr_def (env : Env) (m : List (String × JVal)) : listAttr env [.string "Default", .map m] =
    (obj env false m 0 {}).bind fun o => (intoListDef env o).map .default := by simp [listAttr]

theorem listAttr_rest (env : Env) (s : String) (r : List JVal) (h : s = "Default" → ∀ m, r ≠ [.map m]) :
    listAttr env (.string s :: r) = attrRest s r := by
  by_cases hr : ∃ m, r = [.map m]
  · obtain ⟨m, rfl⟩ := hr
    have : s ≠ "Default" := fun hs => h hs m rfl
    simp [listAttr, attrRest, this]
  · rw [listAttr.eq_2 env s r fun m hm => hr ⟨m, hm⟩, attrRest]

theorem attrRest_good (s : String) (r : List JVal) : All (fun a => ∀ d, a ≠ .default d) (attrRest s r) := by
  unfold attrRest
  split
  · trivial
  · split
    · exact (getOld_all r []).map fun _ _ _ _ h => nomatch h
    · split
      · unfold nextIdAttr; split
        · exact fun _ h => nomatch h
        · trivial
      · trivial

theorem listAttr_rest_good (env : Env) (s : String) (r : List JVal) (h : ∀ m, r ≠ [.map m]) :
    All Attr.Good (listAttr env (.string s :: r)) := by
  rw [listAttr_rest env s r fun _ => h]
  exact (attrRest_good s _).mono fun a _ ha => by cases a with | default d => exact absurd rfl (ha d) | _ => trivial

mutual
theorem item_good (env : Env) (he : env.Sound) (vt : VType) : ∀ v : JVal, All RustVal.Good (item env vt v)
  | .bool _ => by simp only [item]; trivial
  | .double _ => by simp only [item]; trivial
  | .int _ => by simp only [item]; trivial
  | .string _ => by simp only [item]; trivial
  | .array a => by simp only [item]; exact arrayVal_good env he vt a
  | .map _ => by simp only [item]; trivial
  | .null => by simp only [item]; trivial
  | .undef => by simp only [item]; trivial
theorem arrayVal_good (env : Env) (he : env.Sound) (vt : VType) : ∀ a : List JVal, All RustVal.Good (arrayVal env vt a)
  | .string s :: r => by
    have hl := list_good env he {} TmpList.good_empty r
    have hlist : ∀ tag : Tag, tag.IsList → All RustVal.Good
        (if vt = .normal ∨ vt = .undefiable then (list env {} r).bind fun t => intoList env tag vt t else .err) := by
      intro tag ht
      split
      · exact hl.bind fun t _ h => intoList_good env ht vt h
      · trivial
    have hnull : ∀ tag : Tag, tag = .int ∨ tag = .float ∨ tag = .str ∨ tag = .bool → All RustVal.Good (arrayNull tag vt r) :=
      fun tag ht => arrayNull_good ht vt r
    simp only [arrayVal]
    cases tagOf s with
    | none => trivial
    | some tag =>
      cases tag with
      | «at» t =>
        refine (elements_all env he _ _ r).bind fun q _ _ => ?_
        split <;> trivial
      | int => exact hnull _ (by simp)
      | float => exact hnull _ (by simp)
      | str => exact hnull _ (by simp)
      | bool => exact hnull _ (by simp)
      | milUndef => trivial
      | _ => exact hlist _ (by simp [Tag.IsList])
  | .int i :: r => by
    simp only [arrayVal]
    refine (elements_all env he .int _ r).bind fun q _ hq => ?_
    have : (toParam (pushParam (.int (.val i)) q) .int).isSome := by
      refine toParam_ints ?_
      intro l hl p hp
      cases q with
      | val l' =>
        simp only [pushParam, Qv.val.injEq] at hl
        subst hl
        rcases List.mem_cons.1 hp with rfl | hp
        · exact ⟨i, rfl⟩
        · exact hq rfl l' rfl p hp
      | undef => simp [pushParam] at hl
      | null => simp [pushParam] at hl
    split
    · trivial
    · rename_i h; rw [h] at this; cases this
  | [] => by simp only [arrayVal]; trivial
  | .null :: _ => by simp only [arrayVal]; trivial
  | .undef :: _ => by simp only [arrayVal]; trivial
  | .bool _ :: _ => by simp only [arrayVal]; trivial
  | .double _ :: _ => by simp only [arrayVal]; trivial
  | .array _ :: _ => by simp only [arrayVal]; trivial
  | .map _ :: _ => by simp only [arrayVal]; trivial
theorem elements_all (env : Env) (he : env.Sound) (t : AType) (n : Nat) :
    ∀ a : List JVal, All (fun q => t = .int → IntsOnly q) (elements env t n a)
  | [] => by
    simp only [elements]
    intro _ l hl p hp
    cases hl; cases hp
  | .double f :: r => by
    simp only [elements]
    split
    · rename_i h
      exact (elements_all env he t n r).map fun q _ _ ht => by rw [h] at ht; cases ht
    · trivial
  | .int i :: r => by
    simp only [elements]
    refine (elements_all env he t n r).map fun q _ hq ht l hl p hp => ?_
    subst ht
    cases q with
    | val l' =>
      simp only [pushParam, Qv.val.injEq] at hl
      subst hl
      rcases List.mem_cons.1 hp with rfl | hp
      · exact ⟨i, rfl⟩
      · exact hq rfl l' rfl p hp
    | undef => simp [pushParam] at hl
    | null => simp [pushParam] at hl
  | .null :: _ => by
    simp only [elements]
    split
    · intro _ l hl; cases hl
    · trivial
  | .undef :: _ => by
    simp only [elements]
    split
    · intro _ l hl; cases hl
    · trivial
  | .array a :: r => by
    simp only [elements]
    split
    · rename_i h
      refine (arrayVal_good env he .normal a).bind fun v _ _ => ?_
      have hi : All (fun _ => True) (innerFloat v) := by unfold innerFloat; split <;> trivial
      refine hi.bind fun p _ _ => ?_
      exact (elements_all env he t n r).map fun q _ _ ht => by rw [h] at ht; cases ht
    · trivial
  | .string _ :: _ => by simp only [elements]; trivial
  | .bool _ :: _ => by simp only [elements]; trivial
  | .map _ :: _ => by simp only [elements]; trivial
theorem list_good (env : Env) (he : env.Sound) (t : TmpList) (ht : t.Good) : ∀ a : List JVal, All TmpList.Good (list env t a)
  | [] => by simp only [list]; exact ht
  | .array a :: r => by
    simp only [list]
    refine (listAttr_good env he a).bind fun x _ hx => ?_
    exact (addAttr_good ht hx).bind fun t' _ ht' => list_good env he t' ht' r
  | .map m :: r => by
    simp only [list]
    refine (obj_good env he false m 0 {} TmpObj.good_empty).bind fun o _ _ => ?_
    exact (objs_all env he r).map fun _ _ _ => ht
  | .string _ :: _ => by simp only [list]; trivial
  | .bool _ :: _ => by simp only [list]; trivial
  | .int _ :: _ => by simp only [list]; trivial
  | .double _ :: _ => by simp only [list]; trivial
  | .null :: _ => by simp only [list]; trivial
  | .undef :: _ => by simp only [list]; trivial
theorem objs_all (env : Env) (he : env.Sound) : ∀ a : List JVal, All (fun _ => True) (objs env a)
  | [] => by simp only [objs]; trivial
  | .map m :: r => by
    simp only [objs]
    exact (obj_good env he false m 0 {} TmpObj.good_empty).bind fun o _ _ => (objs_all env he r).map fun _ _ _ => trivial
  | .array _ :: _ => by simp only [objs]; trivial
  | .string _ :: _ => by simp only [objs]; trivial
  | .bool _ :: _ => by simp only [objs]; trivial
  | .int _ :: _ => by simp only [objs]; trivial
  | .double _ :: _ => by simp only [objs]; trivial
  | .null :: _ => by simp only [objs]; trivial
  | .undef :: _ => by simp only [objs]; trivial
theorem listAttr_good (env : Env) (he : env.Sound) : ∀ a : List JVal, All Attr.Good (listAttr env a)
  | [.string s, .map m] => by
    by_cases h : s = "Default"
    · subst h
      rw [listAttr_def]
      exact (obj_good env he false m 0 {} TmpObj.good_empty).bind fun o _ ho => (intoListDef_good env he ho).map fun _ _ h => h
    · rw [listAttr_rest env s _ fun h' => absurd h' h]
      exact (attrRest_good s _).mono fun a _ ha => by cases a with | default d => exact absurd rfl (ha d) | _ => trivial
  | [.string s] => listAttr_rest_good env s _ (by rintro m ⟨⟩)
  | .string s :: _ :: _ :: _ => listAttr_rest_good env s _ (by rintro m ⟨⟩)
  | [.string s, .null] => listAttr_rest_good env s _ (by rintro m ⟨⟩)
  | [.string s, .undef] => listAttr_rest_good env s _ (by rintro m ⟨⟩)
  | [.string s, .bool _] => listAttr_rest_good env s _ (by rintro m ⟨⟩)
  | [.string s, .string _] => listAttr_rest_good env s _ (by rintro m ⟨⟩)
  | [.string s, .int _] => listAttr_rest_good env s _ (by rintro m ⟨⟩)
  | [.string s, .double _] => listAttr_rest_good env s _ (by rintro m ⟨⟩)
  | [.string s, .array _] => listAttr_rest_good env s _ (by rintro m ⟨⟩)
  | [.map m] => by
    simp only [listAttr]
    exact (obj_good env he false m 0 {} TmpObj.good_empty).bind fun o _ ho => (intoListDef_good env he ho).map fun _ _ h => h
  | [] => by simp only [listAttr]; trivial
  | .map _ :: _ :: _ => by simp only [listAttr]; trivial
  | .array _ :: _ => by simp only [listAttr]; trivial
  | .bool _ :: _ => by simp only [listAttr]; trivial
  | .int _ :: _ => by simp only [listAttr]; trivial
  | .double _ :: _ => by simp only [listAttr]; trivial
  | .null :: _ => by simp only [listAttr]; trivial
  | .undef :: _ => by simp only [listAttr]; trivial
theorem refsOf_good (env : Env) (he : env.Sound) (o : TmpObj) (ho : o.Good) (b : Bool) : ∀ v : JVal, All TmpObj.Good (refsOf env o b v)
  | .map m => by simp only [refsOf]; exact addRefs_good env he ho _ (obj_good env he true m 0 {} TmpObj.good_empty)
  | .null => by simp only [refsOf]; trivial
  | .undef => by simp only [refsOf]; trivial
  | .bool _ => by simp only [refsOf]; trivial
  | .string _ => by simp only [refsOf]; trivial
  | .int _ => by simp only [refsOf]; trivial
  | .double _ => by simp only [refsOf]; trivial
  | .array _ => by simp only [refsOf]; trivial
theorem obj_good (env : Env) (he : env.Sound) (isRef : Bool) : ∀ (m : List (String × JVal)) (c : Nat) (o : TmpObj), o.Good →
    All TmpObj.Good (obj env isRef m c o)
  | [], c, o, ho => by simp only [obj]; exact ho
  | (k, v) :: r, c, o, ho => by
    cases hk : nameOf k with
    | none => rw [obj_none hk]; trivial
    | some nt =>
      cases nt with
      | name n vt =>
        rw [obj_name hk]
        have : All RustVal.Good (if isRef then itemRef vt v else item env vt v) := by
          split
          · exact itemRef_good vt v
          · exact item_good env he vt v
        exact this.bind fun x _ hx => obj_good env he isRef r (c + 1) _ (Good.addMember ho _ c x hx)
      | system s =>
        cases s with
        | id => rw [obj_id hk]; exact (addId_good ho v).bind fun o' _ ho' => obj_good env he isRef r c o' ho'
        | ref => rw [obj_ref hk]; exact (refsOf_good env he o ho false v).bind fun o' _ ho' => obj_good env he isRef r c o' ho'
        | enum => rw [obj_enum hk]; exact (refsOf_good env he o ho true v).bind fun o' _ ho' => obj_good env he isRef r c o' ho'
        | old => rw [obj_old hk]; exact (addOld_good ho v).bind fun o' _ ho' => obj_good env he isRef r c o' ho'
end

end Verif.Source
