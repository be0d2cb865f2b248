import Verif.Lemmas.SourceRoot
/-! # Lemmas about the ids of items in the source -/
namespace Verif.Source
open Diff Core

/-- A value has the property. -/
def Oks {α : Type} (P : α → Prop) (r : Res α) : Prop := ∀ a, r = .ok a → P a

theorem Oks.bind {α β : Type} {P : α → Prop} {Q : β → Prop} {r : Res α} {f : α → Res β} (h : Oks P r)
    (hf : ∀ a, r = .ok a → P a → Oks Q (f a)) : Oks Q (r.bind f) := by
  cases r with
  | ok a => exact hf a rfl (h a rfl)
  | err => intro a h; cases h
  | panic => intro a h; cases h

theorem Oks.map {α β : Type} {P : α → Prop} {Q : β → Prop} {r : Res α} {f : α → β} (h : Oks P r)
    (hf : ∀ a, r = .ok a → P a → Q (f a)) : Oks Q (r.map f) := by
  cases r with
  | ok a => intro b hb; cases hb; exact hf a rfl (h a rfl)
  | err => intro a h; cases h
  | panic => intro a h; cases h

theorem oks_err {α : Type} {P : α → Prop} : Oks P (.err : Res α) := fun _ h => nomatch h
theorem oks_panic {α : Type} {P : α → Prop} : Oks P (.panic : Res α) := fun _ h => nomatch h
theorem oks_ok {α : Type} {P : α → Prop} {a : α} (h : P a) : Oks P (.ok a) := by intro b hb; cases hb; exact h
theorem oks_true {α : Type} (r : Res α) : Oks (fun _ => True) r := fun _ _ => trivial

/-! ## Shapes -/

/-- a mutable list whose ids are counted, and those inside it -/
def SeqMut (l : MutList) : Prop := SeqIds l ∧ ∀ e ∈ l.1, SeqItem e.2

def RustVal.Seq : RustVal → Prop
  | .table _ l _ => ∀ e ∈ l, SeqItem e.2
  | .clist _ l => ∀ i ∈ l, SeqItem i
  | .mlist _ _ o => ∀ l, o = some l → SeqMut l
  | .cil l => ∀ i ∈ l, SeqItem i
  | .mil o => ∀ l, o = some l → SeqMut l
  | _ => True

structure TmpObj.Seq (o : TmpObj) : Prop where
  vals : ∀ e ∈ o.default, e.2.2.Seq
  id : ∀ n, o.id ≠ some (.num n)

structure TmpList.Seq (t : TmpList) : Prop where
  vec : ∀ o ∈ t.vec, o.Seq
  next : t.nextId = none

def Attr.Seq (a : Attr) : Prop := ∀ n, a ≠ .nextId n

theorem TmpObj.seq_empty : ({} : TmpObj).Seq := ⟨(fun _ h => (nomatch h)), (fun _ h => (nomatch h))⟩
theorem TmpList.seq_empty : ({} : TmpList).Seq := ⟨(fun _ h => (nomatch h)), rfl⟩

theorem toItem_seq (env : Env) (he : env.Sound) {o : TmpObj} (h : o.Seq) : Oks SeqItem (toItem env o) := by
  unfold toItem
  have hs : Oks (fun m' : AMap SabVal => ∀ e ∈ m', ∃ v, v.Seq ∧ intoSabVal v = .ok e.2) (sabMap (env.order o.default) []) := by
    intro m' hm e hm'
    rcases (sabMap_spec (env.order o.default) []).of_ok hm e hm' with h' | ⟨id, v, h1, h2⟩
    · cases h'
    · exact ⟨v, h.vals _ ((he _).mem_iff.1 h1), h2⟩
  refine hs.map fun m _ hm => .mk ?_ ?_ ?_
  · intro k items hk i hi
    obtain ⟨v, hv, hs⟩ := hm _ hk
    cases v with
    | cil l => simp only [intoSabVal, Res.ok.injEq, SabVal.cil.injEq] at hs; subst hs; exact hv i hi
    | mil l => cases l <;> simp [intoSabVal] at hs
    | _ => simp [intoSabVal] at hs
  · intro k items n hk
    obtain ⟨v, hv, hs⟩ := hm _ hk
    cases v with
    | mil l =>
      cases l with
      | none => simp [intoSabVal] at hs
      | some l =>
        simp only [intoSabVal, Res.ok.injEq, SabVal.mil.injEq] at hs
        obtain ⟨h1, h2⟩ := hs
        have := (hv l rfl).1
        rw [← h1, ← h2]; exact this
    | _ => simp [intoSabVal] at hs
  · intro k items n hk e hem
    obtain ⟨v, hv, hs⟩ := hm _ hk
    cases v with
    | mil l =>
      cases l with
      | none => simp [intoSabVal] at hs
      | some l =>
        simp only [intoSabVal, Res.ok.injEq, SabVal.mil.injEq] at hs
        obtain ⟨h1, h2⟩ := hs
        exact (hv l rfl).2 e (h1 ▸ hem)
    | _ => simp [intoSabVal] at hs

theorem listItems_seq (env : Env) (he : env.Sound) : ∀ l : List TmpObj, (∀ o ∈ l, o.Seq) → Oks (fun l' => ∀ i ∈ l', SeqItem i) (listItems env l)
  | [], _ => oks_ok (fun _ h => (nomatch h))
  | o :: r, h => by
    simp only [listItems]
    have hi : Oks SeqItem (intoItem env o) := by
      unfold intoItem
      split
      · exact oks_err
      split
      · exact oks_err
      exact toItem_seq env he (h o List.mem_cons_self)
    refine hi.bind fun i _ hi => (listItems_seq env he r fun o ho => h o (List.mem_cons_of_mem _ ho)).map fun l' _ hl j hj => ?_
    rcases List.mem_cons.1 hj with rfl | hj
    · exact hi
    · exact hl j hj

theorem dataItems_seq (env : Env) (he : env.Sound) : ∀ (l : List TmpObj) (m : AMap Item), (∀ o ∈ l, o.Seq) → (∀ e ∈ m, SeqItem e.2) →
    Oks (fun l' => ∀ e ∈ l', SeqItem e.2) (dataItems env l m)
  | [], m, _, hm => oks_ok hm
  | o :: r, m, h, hm => by
    simp only [dataItems]
    have hi : Oks (fun p : String × Item => SeqItem p.2) (intoItemWithId env o) := by
      unfold intoItemWithId
      split
      · exact oks_err
      split
      · exact (toItem_seq env he (h o List.mem_cons_self)).map fun _ _ h => h
      · exact oks_err
    refine hi.bind fun p _ hp => dataItems_seq env he r _ (fun o ho => h o (List.mem_cons_of_mem _ ho)) fun e hem => ?_
    rcases mem_insert hem with hem | rfl
    · exact hm e hem
    · exact hp

theorem mutItems_seq (env : Env) (he : env.Sound) : ∀ (l : List TmpObj) (idx : Nat), (∀ o ∈ l, o.Seq) →
    Oks (fun l' => l'.map (·.1) = List.range' idx l.length ∧ ∀ e ∈ l', SeqItem e.2) (mutItems env idx l)
  | [], _, _ => oks_ok ⟨rfl, (fun _ h => (nomatch h))⟩
  | o :: r, idx, h => by
    simp only [mutItems]
    have hi : Oks (fun p : Nat × Item => p.1 = idx ∧ SeqItem p.2) (intoMutItem env idx o) := by
      unfold intoMutItem
      split
      · exact oks_err
      · rename_i n hn; exact absurd hn ((h o List.mem_cons_self).id n)
      · split
        · exact oks_err
        · exact (toItem_seq env he (h o List.mem_cons_self)).map fun _ _ h => ⟨rfl, h⟩
    refine hi.bind fun p _ hp => (mutItems_seq env he r _ fun o ho => h o (List.mem_cons_of_mem _ ho)).map fun l' _ hl => ⟨?_, fun e hem => ?_⟩
    · rw [List.map_cons, hp.1, hl.1, List.length_cons, List.range'_succ]
    · rcases List.mem_cons.1 hem with rfl | hem
      · exact hp.2
      · exact hl.2 e hem

theorem mutList_seq (env : Env) (he : env.Sound) {t : TmpList} (h : t.Seq) : Oks SeqMut (mutList env t) := by
  unfold mutList
  refine (mutItems_seq env he t.vec 0 h.vec).map fun l _ hl => ⟨⟨?_, ?_⟩, hl.2⟩
  · have : l.length = t.vec.length := by rw [← List.length_map (f := (·.1)), hl.1, List.length_range']
    rw [hl.1, this, List.range_eq_range']
  · have : l.length = t.vec.length := by rw [← List.length_map (f := (·.1)), hl.1, List.length_range']
    show (if l.isEmpty then 0 else t.nextId.getD t.vec.length) = l.length
    rw [h.next, this]
    cases l with
    | nil => simp at this ⊢; exact this
    | cons => simp

theorem intoList_seq (env : Env) (he : env.Sound) (tag : Tag) (vt : VType) {t : TmpList} (h : t.Seq) : Oks RustVal.Seq (intoList env tag vt t) := by
  have h1 : Oks RustVal.Seq (intoConstList env t) := by
    unfold intoConstList; split
    · exact (listItems_seq env he _ h.vec).map fun _ _ h => h
    · exact oks_err
  have h2 : Oks RustVal.Seq (intoConstData env t) := by
    unfold intoConstData; split
    · exact (dataItems_seq env he _ _ h.vec (by intro _ h; cases h)).map fun _ _ h => h
    · exact oks_err
  have h3 : ∀ u, Oks RustVal.Seq (intoMutList env t u) := by
    intro u
    unfold intoMutList; split
    · exact (mutList_seq env he h).map fun _ _ h l hl => by cases hl; exact h
    · exact oks_err
  have h4 : Oks RustVal.Seq (intoInnerList env t) := by
    unfold intoInnerList; split
    · exact (listItems_seq env he _ h.vec).map fun _ _ h => h
    · exact oks_err
  have h5 : Oks RustVal.Seq (intoMutInnerList env t) := by
    unfold intoMutInnerList; split
    · exact (mutList_seq env he h).map fun _ _ h l hl => by cases hl; exact h
    · exact oks_err
  have h6 : Oks RustVal.Seq (intoInnerDef t) := by
    unfold intoInnerDef; split
    · exact oks_ok trivial
    · exact oks_err
  have h7 : ∀ u, Oks RustVal.Seq (intoInnerMutDef t u) := by
    intro u
    unfold intoInnerMutDef; split
    · exact oks_ok trivial
    · exact oks_err
  unfold intoList
  cases vt with
  | normal => cases tag <;> first | exact h1 | exact h2 | exact h3 _ | exact h4 | exact h5 | exact h6 | exact h7 _ | exact oks_panic
  | undefiable => cases tag <;> first | exact h3 _ | exact h7 _ | exact oks_err
  | nullable => exact oks_err
  | undefNullable => exact oks_err

theorem arrayNull_seq (tag : Tag) (vt : VType) (r : List JVal) : Oks RustVal.Seq (arrayNull tag vt r) := by
  unfold arrayNull
  repeat' split
  all_goals first | exact oks_ok trivial | exact oks_err | exact oks_panic

theorem itemRef_seq (vt : VType) (v : JVal) : Oks RustVal.Seq (itemRef vt v) := by
  cases v <;> first | exact oks_ok trivial | exact oks_err

theorem Seq.addMember {o : TmpObj} (h : o.Seq) (n : String) (id : Nat) (v : RustVal) (hv : v.Seq) : (addMember o n id v).Seq := by
  refine ⟨fun e he => ?_, h.id⟩
  rcases mem_insert he with he | he
  · exact h.vals e he
  · subst he; exact hv

theorem addId_seq {o : TmpObj} (h : o.Seq) (v : JVal) (hv : ∀ f, v ≠ .double f) : Oks TmpObj.Seq (addId o v) := by
  unfold addId
  split
  · rename_i hg
    refine oks_ok ⟨h.vals, fun n hn => ?_⟩
    cases v <;> simp only [getId, Option.some.injEq] at hg <;> try cases hg
    · cases hn
    · exact hv _ rfl
  · exact oks_err

theorem addOld_seq {o : TmpObj} (h : o.Seq) (v : JVal) : Oks TmpObj.Seq (addOld o v) := by
  cases v with
  | array a => exact (oks_true _).map fun _ _ _ => ⟨h.vals, h.id⟩
  | _ => exact oks_err

theorem refsOf_seq (env : Env) {o : TmpObj} (h : o.Seq) (b : Bool) (v : JVal) : Oks TmpObj.Seq (refsOf env o b v) := by
  cases v with
  | map m =>
    simp only [refsOf, addRefs]
    split
    · exact (oks_true _).bind fun _ _ _ => (oks_true _).map fun _ _ _ => ⟨h.vals, h.id⟩
    · exact oks_err
  | _ => exact oks_err

theorem addAttr_seq {t : TmpList} (h : t.Seq) {a : Attr} (ha : a.Seq) : Oks TmpList.Seq (addAttr t a) := by
  cases a with
  | default d => simp only [addAttr]; split; · exact oks_ok ⟨h.vec, h.next⟩
                 exact oks_err
  | old o => simp only [addAttr]; split; · exact oks_ok ⟨h.vec, h.next⟩
             exact oks_err
  | nextId n => exact absurd rfl (ha n)

theorem listAttr_seq (env : Env) (a : List JVal) (h : a.head? ≠ some (.string "NextID")) : Oks Attr.Seq (listAttr env a) := by
  have hd : ∀ q : Res TmpObj, Oks Attr.Seq (q.bind fun o => (intoListDef env o).map .default) := fun q =>
    (oks_true q).bind fun o _ _ => (oks_true _).map fun d _ _ n hn => nomatch hn
  cases a with
  | nil => simp only [listAttr]; exact oks_err
  | cons x r =>
    cases x with
    | string s =>
      have hs : s ≠ "NextID" := by rintro rfl; exact h rfl
      by_cases hr : s = "Default" ∧ ∃ m, r = [.map m]
      · obtain ⟨rfl, m, rfl⟩ := hr
        rw [listAttr_def]; exact hd _
      · rw [listAttr_rest env s r fun h1 m h2 => hr ⟨h1, m, h2⟩]
        unfold attrRest
        split
        · exact oks_err
        split
        · exact (oks_true _).map fun _ _ _ n hn => nomatch hn
        · exact oks_err
    | map m =>
      cases r with
      | nil => simp only [listAttr]; exact hd _
      | cons y r => simp only [listAttr]; exact oks_err
    | _ => simp only [listAttr]; exact oks_err

theorem Plain.array_inv {a : List JVal} (h : Plain (.array a)) : a.head? ≠ some (.string "NextID") ∧ ∀ v ∈ a, Plain v := by
  cases h with | array h1 h2 => exact ⟨h1, h2⟩

theorem Plain.map_inv {m : List (String × JVal)} (h : Plain (.map m)) : (∀ e ∈ m, ¬ IsNumId e) ∧ ∀ e ∈ m, Plain e.2 := by
  cases h with | map h1 h2 => exact ⟨h1, h2⟩

theorem nameOf_id {k : String} (h : nameOf k = some (.system .id)) : k = "ID" :=
  String.toList_inj.1 ((Names.C23_special k.toList).2.1.1 h)

mutual
theorem item_seq (env : Env) (he : env.Sound) (vt : VType) : ∀ v : JVal, Plain v → Oks RustVal.Seq (item env vt v)
  | .bool _, _ => by simp only [item]; exact oks_ok trivial
  | .double _, _ => by simp only [item]; exact oks_ok trivial
  | .int _, _ => by simp only [item]; exact oks_ok trivial
  | .string _, _ => by simp only [item]; exact oks_ok trivial
  | .array a, h => by simp only [item]; exact arrayVal_seq env he vt a h.array_inv.2
  | .map _, _ => by simp only [item]; exact oks_err
  | .null, _ => by simp only [item]; exact oks_err
  | .undef, _ => by simp only [item]; exact oks_err
theorem arrayVal_seq (env : Env) (he : env.Sound) (vt : VType) : ∀ a : List JVal, (∀ v ∈ a, Plain v) → Oks RustVal.Seq (arrayVal env vt a)
  | .string s :: r, h => by
    have hl := list_seq env he r {} TmpList.seq_empty fun v hv => h v (List.mem_cons_of_mem _ hv)
    have hlist : ∀ tag : Tag, Oks RustVal.Seq
        (if vt = .normal ∨ vt = .undefiable then (list env {} r).bind fun t => intoList env tag vt t else .err) := by
      intro tag
      split
      · exact hl.bind fun t _ h => intoList_seq env he tag vt h
      · exact oks_err
    simp only [arrayVal]
    cases tagOf s with
    | none => exact oks_err
    | some tag =>
      cases tag with
      | «at» t =>
        refine (oks_true _).bind fun q _ _ => ?_
        split
        · exact oks_ok trivial
        · exact oks_err
      | int => exact arrayNull_seq _ _ _
      | float => exact arrayNull_seq _ _ _
      | str => exact arrayNull_seq _ _ _
      | bool => exact arrayNull_seq _ _ _
      | milUndef => exact oks_ok fun _ h => nomatch h
      | _ => exact hlist _
  | .int i :: r, _ => by
    simp only [arrayVal]
    refine (oks_true _).bind fun q _ _ => ?_
    split
    · exact oks_ok trivial
    · exact oks_panic
  | [], _ => by simp only [arrayVal]; exact oks_err
  | .null :: _, _ => by simp only [arrayVal]; exact oks_err
  | .undef :: _, _ => by simp only [arrayVal]; exact oks_err
  | .bool _ :: _, _ => by simp only [arrayVal]; exact oks_err
  | .double _ :: _, _ => by simp only [arrayVal]; exact oks_err
  | .array _ :: _, _ => by simp only [arrayVal]; exact oks_err
  | .map _ :: _, _ => by simp only [arrayVal]; exact oks_err
theorem list_seq (env : Env) (he : env.Sound) : ∀ (a : List JVal) (t : TmpList), t.Seq → (∀ v ∈ a, Plain v) → Oks TmpList.Seq (list env t a)
  | [], t, ht, _ => by simp only [list]; exact oks_ok ht
  | .array a :: r, t, ht, h => by
    simp only [list]
    refine (listAttr_seq env a (h _ List.mem_cons_self).array_inv.1).bind fun x _ hx => ?_
    exact (addAttr_seq ht hx).bind fun t' _ ht' => list_seq env he r t' ht' fun v hv => h v (List.mem_cons_of_mem _ hv)
  | .map m :: r, t, ht, h => by
    simp only [list]
    have hm := (h _ List.mem_cons_self).map_inv
    refine (obj_seq env he false m 0 {} TmpObj.seq_empty hm.1 hm.2).bind fun o _ ho => ?_
    refine (objs_seq env he r fun v hv => h v (List.mem_cons_of_mem _ hv)).map fun l _ hl => ⟨fun o' ho' => ?_, ht.next⟩
    rcases List.mem_cons.1 ho' with rfl | ho'
    · exact ho
    · exact hl o' ho'
  | .string _ :: _, _, _, _ => by simp only [list]; exact oks_err
  | .bool _ :: _, _, _, _ => by simp only [list]; exact oks_err
  | .int _ :: _, _, _, _ => by simp only [list]; exact oks_err
  | .double _ :: _, _, _, _ => by simp only [list]; exact oks_err
  | .null :: _, _, _, _ => by simp only [list]; exact oks_err
  | .undef :: _, _, _, _ => by simp only [list]; exact oks_err
theorem objs_seq (env : Env) (he : env.Sound) : ∀ a : List JVal, (∀ v ∈ a, Plain v) → Oks (fun l => ∀ o ∈ l, TmpObj.Seq o) (objs env a)
  | [], _ => by simp only [objs]; exact oks_ok fun _ h => nomatch h
  | .map m :: r, h => by
    simp only [objs]
    have hm := (h _ List.mem_cons_self).map_inv
    refine (obj_seq env he false m 0 {} TmpObj.seq_empty hm.1 hm.2).bind fun o _ ho => ?_
    refine (objs_seq env he r fun v hv => h v (List.mem_cons_of_mem _ hv)).map fun l _ hl o' ho' => ?_
    rcases List.mem_cons.1 ho' with rfl | ho'
    · exact ho
    · exact hl o' ho'
  | .array _ :: _, _ => by simp only [objs]; exact oks_err
  | .string _ :: _, _ => by simp only [objs]; exact oks_err
  | .bool _ :: _, _ => by simp only [objs]; exact oks_err
  | .int _ :: _, _ => by simp only [objs]; exact oks_err
  | .double _ :: _, _ => by simp only [objs]; exact oks_err
  | .null :: _, _ => by simp only [objs]; exact oks_err
  | .undef :: _, _ => by simp only [objs]; exact oks_err
theorem obj_seq (env : Env) (he : env.Sound) (isRef : Bool) : ∀ (m : List (String × JVal)) (c : Nat) (o : TmpObj), o.Seq →
    (∀ e ∈ m, ¬ IsNumId e) → (∀ e ∈ m, Plain e.2) → Oks TmpObj.Seq (obj env isRef m c o)
  | [], c, o, ho, _, _ => by simp only [obj]; exact oks_ok ho
  | (k, v) :: r, c, o, ho, h1, h2 => by
    have h1' : ∀ e ∈ r, ¬ IsNumId e := fun e he => h1 e (List.mem_cons_of_mem _ he)
    have h2' : ∀ e ∈ r, Plain e.2 := fun e he => h2 e (List.mem_cons_of_mem _ he)
    cases hk : nameOf k with
    | none => rw [obj_none hk]; exact oks_err
    | some nt =>
      cases nt with
      | name n vt =>
        rw [obj_name hk]
        have : Oks RustVal.Seq (if isRef then itemRef vt v else item env vt v) := by
          split
          · exact itemRef_seq vt v
          · exact item_seq env he vt v (h2 _ List.mem_cons_self)
        exact this.bind fun x _ hx => obj_seq env he isRef r (c + 1) _ (Seq.addMember ho _ c x hx) h1' h2'
      | system s =>
        cases s with
        | id =>
          rw [obj_id hk]
          refine (addId_seq ho v fun f hf => h1 _ List.mem_cons_self ⟨nameOf_id hk, f, hf⟩).bind fun o' _ ho' => ?_
          exact obj_seq env he isRef r c o' ho' h1' h2'
        | ref => rw [obj_ref hk]; exact (refsOf_seq env ho false v).bind fun o' _ ho' => obj_seq env he isRef r c o' ho' h1' h2'
        | enum => rw [obj_enum hk]; exact (refsOf_seq env ho true v).bind fun o' _ ho' => obj_seq env he isRef r c o' ho' h1' h2'
        | old => rw [obj_old hk]; exact (addOld_seq ho v).bind fun o' _ ho' => obj_seq env he isRef r c o' ho' h1' h2'
end

end Verif.Source
