import Verif.Lemmas.SourceSeq
import Verif.Lemmas.SourceMembers
/-! # Lemmas: the maps of loaded items have no name twice -/
namespace Verif.Source
open Diff Core

/-- The maps of an item have no name twice, at every depth. -/
inductive WfItem : Item → Prop
  | mk {values : AMap SabVal} {refs : AMap (Qv String)} : values.Wf → refs.Wf →
      (∀ k items, (k, SabVal.cil items) ∈ values → ∀ i ∈ items, WfItem i) →
      (∀ k items n, (k, SabVal.mil items n) ∈ values → ∀ e ∈ items, WfItem e.2) → WfItem (.mk values refs)

def RustVal.Wfs : RustVal → Prop
  | .table _ l _ => ∀ e ∈ l, WfItem e.2
  | .clist _ l => ∀ i ∈ l, WfItem i
  | .mlist _ _ o => ∀ l, o = some l → ∀ e ∈ l.1, WfItem e.2
  | .cil l => ∀ i ∈ l, WfItem i
  | .mil o => ∀ l, o = some l → ∀ e ∈ l.1, WfItem e.2
  | _ => True

def TmpObj.Wfs (o : TmpObj) : Prop := ∀ e ∈ o.default, e.2.2.Wfs
def TmpList.Wfs (t : TmpList) : Prop := ∀ o ∈ t.vec, o.Wfs

theorem sabMap_wf : ∀ (l : List (String × Nat × RustVal)) (m : AMap SabVal), m.Wf → Oks (fun m' => AMap.Wf m') (sabMap l m)
  | [], _, h => oks_ok h
  | (_, _, _) :: r, _, h => by
    simp only [sabMap]
    exact (oks_true _).bind fun _ _ _ => sabMap_wf r _ (h.insert _ _)

theorem refSabMap_wf : ∀ (l : List (String × Nat × Qv String × VType)) (m : AMap (Qv String)), m.Wf → (refSabMap l m).Wf
  | [], _, h => h
  | (_, _, _, _) :: r, _, h => by simp only [refSabMap]; exact refSabMap_wf r _ (h.insert _ _)

theorem toItem_wf (env : Env) (he : env.Sound) {o : TmpObj} (h : o.Wfs) : Oks WfItem (toItem env o) := by
  unfold toItem
  have hs : Oks (fun m' : AMap SabVal => AMap.Wf m' ∧ ∀ e ∈ m', ∃ v, v.Wfs ∧ intoSabVal v = .ok e.2) (sabMap (env.order o.default) []) := by
    intro m' hm
    refine ⟨sabMap_wf _ [] List.nodup_nil m' hm, fun e hm' => ?_⟩
    rcases (sabMap_spec (env.order o.default) []).of_ok hm e hm' with h' | ⟨id, v, h1, h2⟩
    · cases h'
    · exact ⟨v, h _ ((he _).mem_iff.1 h1), h2⟩
  refine hs.map fun m _ hm => .mk hm.1 (refSabMap_wf _ [] List.nodup_nil) ?_ ?_
  · intro k items hk i hi
    obtain ⟨v, hv, hs⟩ := hm.2 _ hk
    cases v with
    | cil l => simp only [intoSabVal, Res.ok.injEq, SabVal.cil.injEq] at hs; subst hs; exact hv i hi
    | mil l => cases l <;> simp [intoSabVal] at hs
    | _ => simp [intoSabVal] at hs
  · intro k items n hk e hem
    obtain ⟨v, hv, hs⟩ := hm.2 _ hk
    cases v with
    | mil l =>
      cases l with
      | none => simp [intoSabVal] at hs
      | some l =>
        simp only [intoSabVal, Res.ok.injEq, SabVal.mil.injEq] at hs
        obtain ⟨h1, h2⟩ := hs
        exact hv l rfl e (h1 ▸ hem)
    | _ => simp [intoSabVal] at hs

theorem listItems_wf (env : Env) (he : env.Sound) : ∀ l : List TmpObj, (∀ o ∈ l, o.Wfs) → Oks (fun l' => ∀ i ∈ l', WfItem i) (listItems env l)
  | [], _ => oks_ok (fun _ h => (nomatch h))
  | o :: r, h => by
    simp only [listItems]
    have hi : Oks WfItem (intoItem env o) := by
      unfold intoItem
      split
      · exact oks_err
      split
      · exact oks_err
      exact toItem_wf env he (h o List.mem_cons_self)
    refine hi.bind fun i _ hi => (listItems_wf env he r fun o ho => h o (List.mem_cons_of_mem _ ho)).map fun l' _ hl j hj => ?_
    rcases List.mem_cons.1 hj with rfl | hj
    · exact hi
    · exact hl j hj

theorem dataItems_wf (env : Env) (he : env.Sound) : ∀ (l : List TmpObj) (m : AMap Item), (∀ o ∈ l, o.Wfs) → (∀ e ∈ m, WfItem e.2) →
    Oks (fun l' => ∀ e ∈ l', WfItem e.2) (dataItems env l m)
  | [], m, _, hm => oks_ok hm
  | o :: r, m, h, hm => by
    simp only [dataItems]
    have hi : Oks (fun p : String × Item => WfItem p.2) (intoItemWithId env o) := by
      unfold intoItemWithId
      split
      · exact oks_err
      split
      · exact (toItem_wf env he (h o List.mem_cons_self)).map fun _ _ h => h
      · exact oks_err
    refine hi.bind fun p _ hp => dataItems_wf env he r _ (fun o ho => h o (List.mem_cons_of_mem _ ho)) fun e hem => ?_
    rcases mem_insert hem with hem | rfl
    · exact hm e hem
    · exact hp

theorem mutItems_wf (env : Env) (he : env.Sound) : ∀ (l : List TmpObj) (idx : Nat), (∀ o ∈ l, o.Wfs) →
    Oks (fun l' => ∀ e ∈ l', WfItem e.2) (mutItems env idx l)
  | [], _, _ => oks_ok (fun _ h => (nomatch h))
  | o :: r, idx, h => by
    simp only [mutItems]
    have hi : Oks (fun p : Nat × Item => WfItem p.2) (intoMutItem env idx o) := by
      unfold intoMutItem
      split
      · exact oks_err
      · split
        · exact oks_err
        · exact (toItem_wf env he (h o List.mem_cons_self)).map fun _ _ h => h
      · split
        · exact oks_err
        · exact (toItem_wf env he (h o List.mem_cons_self)).map fun _ _ h => h
    refine hi.bind fun p _ hp => (mutItems_wf env he r _ fun o ho => h o (List.mem_cons_of_mem _ ho)).map fun l' _ hl e hem => ?_
    rcases List.mem_cons.1 hem with rfl | hem
    · exact hp
    · exact hl e hem

theorem mutList_wf (env : Env) (he : env.Sound) {t : TmpList} (h : t.Wfs) : Oks (fun l : MutList => ∀ e ∈ l.1, WfItem e.2) (mutList env t) := by
  unfold mutList
  exact (mutItems_wf env he t.vec 0 h).map fun l _ hl => hl

theorem intoList_wf (env : Env) (he : env.Sound) (tag : Tag) (vt : VType) {t : TmpList} (h : t.Wfs) : Oks RustVal.Wfs (intoList env tag vt t) := by
  have h1 : Oks RustVal.Wfs (intoConstList env t) := by
    unfold intoConstList; split
    · exact (listItems_wf env he _ h).map fun _ _ h => h
    · exact oks_err
  have h2 : Oks RustVal.Wfs (intoConstData env t) := by
    unfold intoConstData; split
    · exact (dataItems_wf env he _ _ h (by intro _ h; cases h)).map fun _ _ h => h
    · exact oks_err
  have h3 : ∀ u, Oks RustVal.Wfs (intoMutList env t u) := by
    intro u
    unfold intoMutList; split
    · exact (mutList_wf env he h).map fun _ _ h l hl => by cases hl; exact h
    · exact oks_err
  have h4 : Oks RustVal.Wfs (intoInnerList env t) := by
    unfold intoInnerList; split
    · exact (listItems_wf env he _ h).map fun _ _ h => h
    · exact oks_err
  have h5 : Oks RustVal.Wfs (intoMutInnerList env t) := by
    unfold intoMutInnerList; split
    · exact (mutList_wf env he h).map fun _ _ h l hl => by cases hl; exact h
    · exact oks_err
  have h6 : Oks RustVal.Wfs (intoInnerDef t) := by
    unfold intoInnerDef; split
    · exact oks_ok trivial
    · exact oks_err
  have h7 : ∀ u, Oks RustVal.Wfs (intoInnerMutDef t u) := by
    intro u
    unfold intoInnerMutDef; split
    · exact oks_ok trivial
    · exact oks_err
  unfold intoList
  cases vt with
  | normal => cases tag <;> first | exact h1 | exact h2 | exact h3 _ | exact h4 | exact h5 | exact h6 | exact h7 _ | exact oks_panic
  | undefiable => cases tag <;> first | exact h3 _ | exact h7 _ | exact oks_err
  | nullable => exact oks_err
  | undefNullable => exact oks_err

theorem arrayNull_wf (tag : Tag) (vt : VType) (r : List JVal) : Oks RustVal.Wfs (arrayNull tag vt r) := by
  unfold arrayNull
  repeat' split
  all_goals first | exact oks_ok trivial | exact oks_err | exact oks_panic

theorem itemRef_wf (vt : VType) (v : JVal) : Oks RustVal.Wfs (itemRef vt v) := by
  cases v <;> first | exact oks_ok trivial | exact oks_err

theorem Wfs.addMember {o : TmpObj} (h : o.Wfs) (n : String) (id : Nat) (v : RustVal) (hv : v.Wfs) : (addMember o n id v).Wfs := by
  intro e he
  rcases mem_insert he with he | he
  · exact h e he
  · subst he; exact hv

theorem addId_wf {o : TmpObj} (h : o.Wfs) (v : JVal) : Oks TmpObj.Wfs (addId o v) := by
  unfold addId
  split
  · exact oks_ok h
  · exact oks_err

theorem addOld_wf {o : TmpObj} (h : o.Wfs) (v : JVal) : Oks TmpObj.Wfs (addOld o v) := by
  cases v with
  | array a => exact (oks_true _).map fun _ _ _ => h
  | _ => exact oks_err

theorem refsOf_wf (env : Env) {o : TmpObj} (h : o.Wfs) (b : Bool) (v : JVal) : Oks TmpObj.Wfs (refsOf env o b v) := by
  cases v with
  | map m =>
    simp only [refsOf, addRefs]
    split
    · exact (oks_true _).bind fun _ _ _ => (oks_true _).map fun _ _ _ => h
    · exact oks_err
  | _ => exact oks_err

theorem addAttr_wf {t : TmpList} (h : t.Wfs) (a : Attr) : Oks TmpList.Wfs (addAttr t a) := by
  cases a <;> simp only [addAttr] <;> split <;> first | exact oks_ok h | exact oks_err

mutual
theorem item_wf (env : Env) (he : env.Sound) (vt : VType) : ∀ v : JVal, Oks RustVal.Wfs (item env vt v)
  | .bool _ => by simp only [item]; exact oks_ok trivial
  | .double _ => by simp only [item]; exact oks_ok trivial
  | .int _ => by simp only [item]; exact oks_ok trivial
  | .string _ => by simp only [item]; exact oks_ok trivial
  | .array a => by simp only [item]; exact arrayVal_wf env he vt a
  | .map _ => by simp only [item]; exact oks_err
  | .null => by simp only [item]; exact oks_err
  | .undef => by simp only [item]; exact oks_err
theorem arrayVal_wf (env : Env) (he : env.Sound) (vt : VType) : ∀ a : List JVal, Oks RustVal.Wfs (arrayVal env vt a)
  | .string s :: r => by
    have hl := list_wf env he r {} fun _ h => nomatch h
    have hlist : ∀ tag : Tag, Oks RustVal.Wfs
        (if vt = .normal ∨ vt = .undefiable then (list env {} r).bind fun t => intoList env tag vt t else .err) := by
      intro tag
      split
      · exact hl.bind fun t _ h => intoList_wf env he tag vt h
      · exact oks_err
    simp only [arrayVal]
    cases tagOf s with
    | none => exact oks_err
    | some tag =>
      cases tag with
      | «at» t =>
        refine (oks_true _).bind fun q _ _ => ?_
        split
        · exact oks_ok trivial
        · exact oks_err
      | int => exact arrayNull_wf _ _ _
      | float => exact arrayNull_wf _ _ _
      | str => exact arrayNull_wf _ _ _
      | bool => exact arrayNull_wf _ _ _
      | milUndef => exact oks_ok fun _ h => nomatch h
      | _ => exact hlist _
  | .int i :: r => by
    simp only [arrayVal]
    refine (oks_true _).bind fun q _ _ => ?_
    split
    · exact oks_ok trivial
    · exact oks_panic
  | [] => by simp only [arrayVal]; exact oks_err
  | .null :: _ => by simp only [arrayVal]; exact oks_err
  | .undef :: _ => by simp only [arrayVal]; exact oks_err
  | .bool _ :: _ => by simp only [arrayVal]; exact oks_err
  | .double _ :: _ => by simp only [arrayVal]; exact oks_err
  | .array _ :: _ => by simp only [arrayVal]; exact oks_err
  | .map _ :: _ => by simp only [arrayVal]; exact oks_err
theorem list_wf (env : Env) (he : env.Sound) : ∀ (a : List JVal) (t : TmpList), t.Wfs → Oks TmpList.Wfs (list env t a)
  | [], t, ht => by simp only [list]; exact oks_ok ht
  | .array a :: r, t, ht => by
    simp only [list]
    exact (oks_true _).bind fun x _ _ => (addAttr_wf ht x).bind fun t' _ ht' => list_wf env he r t' ht'
  | .map m :: r, t, ht => by
    simp only [list]
    refine (obj_wf env he false m 0 {} fun _ h => nomatch h).bind fun o _ ho => ?_
    refine (objs_wf env he r).map fun l _ hl o' ho' => ?_
    rcases List.mem_cons.1 ho' with rfl | ho'
    · exact ho
    · exact hl o' ho'
  | .string _ :: _, _, _ => by simp only [list]; exact oks_err
  | .bool _ :: _, _, _ => by simp only [list]; exact oks_err
  | .int _ :: _, _, _ => by simp only [list]; exact oks_err
  | .double _ :: _, _, _ => by simp only [list]; exact oks_err
  | .null :: _, _, _ => by simp only [list]; exact oks_err
  | .undef :: _, _, _ => by simp only [list]; exact oks_err
theorem objs_wf (env : Env) (he : env.Sound) : ∀ a : List JVal, Oks (fun l => ∀ o ∈ l, TmpObj.Wfs o) (objs env a)
  | [] => by simp only [objs]; exact oks_ok fun _ h => nomatch h
  | .map m :: r => by
    simp only [objs]
    refine (obj_wf env he false m 0 {} fun _ h => nomatch h).bind fun o _ ho => ?_
    refine (objs_wf env he r).map fun l _ hl o' ho' => ?_
    rcases List.mem_cons.1 ho' with rfl | ho'
    · exact ho
    · exact hl o' ho'
  | .array _ :: _ => by simp only [objs]; exact oks_err
  | .string _ :: _ => by simp only [objs]; exact oks_err
  | .bool _ :: _ => by simp only [objs]; exact oks_err
  | .int _ :: _ => by simp only [objs]; exact oks_err
  | .double _ :: _ => by simp only [objs]; exact oks_err
  | .null :: _ => by simp only [objs]; exact oks_err
  | .undef :: _ => by simp only [objs]; exact oks_err
theorem obj_wf (env : Env) (he : env.Sound) (isRef : Bool) : ∀ (m : List (String × JVal)) (c : Nat) (o : TmpObj), o.Wfs →
    Oks TmpObj.Wfs (obj env isRef m c o)
  | [], c, o, ho => by simp only [obj]; exact oks_ok ho
  | (k, v) :: r, c, o, ho => by
    cases hk : nameOf k with
    | none => rw [obj_none hk]; exact oks_err
    | some nt =>
      cases nt with
      | name n vt =>
        rw [obj_name hk]
        have : Oks RustVal.Wfs (if isRef then itemRef vt v else item env vt v) := by
          split
          · exact itemRef_wf vt v
          · exact item_wf env he vt v
        exact this.bind fun x _ hx => obj_wf env he isRef r (c + 1) _ (Wfs.addMember ho _ c x hx)
      | system s =>
        cases s with
        | id => rw [obj_id hk]; exact (addId_wf ho v).bind fun o' _ ho' => obj_wf env he isRef r c o' ho'
        | ref => rw [obj_ref hk]; exact (refsOf_wf env ho false v).bind fun o' _ ho' => obj_wf env he isRef r c o' ho'
        | enum => rw [obj_enum hk]; exact (refsOf_wf env ho true v).bind fun o' _ ho' => obj_wf env he isRef r c o' ho'
        | old => rw [obj_old hk]; exact (addOld_wf ho v).bind fun o' _ ho' => obj_wf env he isRef r c o' ho'
end

end Verif.Source
