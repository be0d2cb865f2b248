import Verif.Lemmas.SourceSeq
/-! # Lemmas about items and values of the source -/
namespace Verif.Source
open Diff Core

theorem bind_inv {α β : Type} {r : Res α} {f : α → Res β} {b : β} (h : r.bind f = .ok b) : ∃ a, r = .ok a ∧ f a = .ok b := by
  cases r with
  | ok a => exact ⟨a, rfl, h⟩
  | err => cases h
  | panic => cases h

theorem map_inv {α β : Type} {r : Res α} {f : α → β} {b : β} (h : r.map f = .ok b) : ∃ a, r = .ok a ∧ f a = b := by
  cases r with
  | ok a => exact ⟨a, rfl, Res.ok.inj h⟩
  | err => cases h
  | panic => cases h

/-! ## `ID` -/

theorem addOld_id {o o' : TmpObj} {v : JVal} (h : addOld o v = .ok o') : o'.id = o.id := by
  cases v with
  | array a => obtain ⟨l, _, rfl⟩ := map_inv h; rfl
  | _ => cases h

theorem refsOf_id {env : Env} {o o' : TmpObj} {b : Bool} {v : JVal} (h : refsOf env o b v = .ok o') : o'.id = o.id := by
  cases v with
  | map m =>
    simp only [refsOf, addRefs] at h
    split at h
    · obtain ⟨x, _, h⟩ := bind_inv h
      obtain ⟨y, _, rfl⟩ := map_inv h
      rfl
    · cases h
  | _ => cases h

theorem nameOf_ID : nameOf "ID" = some (.system .id) := by decide

/-- what the `ID` of an object is -/
theorem obj_idOf (env : Env) : ∀ (m : List (String × JVal)) (c : Nat) (o : TmpObj) {o' : TmpObj}, obj env false m c o = .ok o' →
    (o'.id = o.id ∧ ∀ v, ("ID", v) ∉ m) ∨ (o.id = none ∧ ∃ v i, ("ID", v) ∈ m ∧ getId v = some i ∧ o'.id = some i ∧ ∀ w, ("ID", w) ∈ m → w = v)
  | [], c, o, o', h => by
    simp only [obj, Res.ok.injEq] at h
    subst h
    exact .inl ⟨rfl, (fun _ h => (nomatch h))⟩
  | (k, v) :: r, c, o, o', h => by
    have other : ∀ o'' : TmpObj, o''.id = o.id → k ≠ "ID" → (∀ c, obj env false r c o'' = .ok o' → 
        (o'.id = o.id ∧ ∀ v', ("ID", v') ∉ (k, v) :: r) ∨
        (o.id = none ∧ ∃ v' i, ("ID", v') ∈ (k, v) :: r ∧ getId v' = some i ∧ o'.id = some i ∧ ∀ w, ("ID", w) ∈ (k, v) :: r → w = v')) := by
      intro o'' hid hk c' h'
      have hm : ∀ w, ("ID", w) ∈ (k, v) :: r → ("ID", w) ∈ r := by
        intro w hw
        rcases List.mem_cons.1 hw with e | e
        · simp only [Prod.mk.injEq] at e; exact absurd e.1.symm hk
        · exact e
      rcases obj_idOf env r c' o'' h' with ⟨h1, h2⟩ | ⟨h1, v', i, h2, h3, h4, h5⟩
      · exact .inl ⟨by rw [h1, hid], fun w hw => h2 w (hm w hw)⟩
      · exact .inr ⟨by rw [← hid, h1], v', i, List.mem_cons_of_mem _ h2, h3, h4, fun w hw => h5 w (hm w hw)⟩
    cases hk : nameOf k with
    | none => rw [obj_none hk] at h; cases h
    | some nt =>
      cases nt with
      | name n vt =>
        rw [obj_name hk] at h
        obtain ⟨x, _, h⟩ := bind_inv h
        exact other (addMember o (String.ofList n) c x) rfl (by rintro rfl; rw [nameOf_ID] at hk; cases hk) _ h
      | system s =>
        cases s with
        | id =>
          have hkid := nameOf_id hk
          subst hkid
          rw [obj_id hk] at h
          obtain ⟨x, hx, h⟩ := bind_inv h
          unfold addId at hx
          split at hx
          · rename_i i ho hi
            cases hx
            refine .inr ⟨ho, ?_⟩
            rcases obj_idOf env r c _ h with ⟨h1, h2⟩ | ⟨h1, _⟩
            · refine ⟨v, i, List.mem_cons_self, hi, h1, fun w hw => ?_⟩
              rcases List.mem_cons.1 hw with e | e
              · simp only [Prod.mk.injEq, true_and] at e; exact e
              · exact absurd e (h2 w)
            · cases h1
          · cases hx
        | ref =>
          rw [obj_ref hk] at h; obtain ⟨x, hx, h⟩ := bind_inv h
          exact other x (refsOf_id hx) (by rintro rfl; rw [nameOf_ID] at hk; cases hk) _ h
        | enum =>
          rw [obj_enum hk] at h; obtain ⟨x, hx, h⟩ := bind_inv h
          exact other x (refsOf_id hx) (by rintro rfl; rw [nameOf_ID] at hk; cases hk) _ h
        | old =>
          rw [obj_old hk] at h; obtain ⟨x, hx, h⟩ := bind_inv h
          exact other x (addOld_id hx) (by rintro rfl; rw [nameOf_ID] at hk; cases hk) _ h

/-! ## Lists -/

/-- objects and what was read of them -/
def ObjsOf (env : Env) : List (List (String × JVal)) → List TmpObj → Prop := List.Forall₂ fun m o => obj env false m 0 {} = .ok o

theorem objs_shape (env : Env) : ∀ (r : List JVal) {l : List TmpObj}, objs env r = .ok l → ∃ ms, r = ms.map .map ∧ ObjsOf env ms l
  | [], l, h => by simp only [objs, Res.ok.injEq] at h; subst h; exact ⟨[], rfl, .nil⟩
  | .map m :: r, l, h => by
    simp only [objs] at h
    obtain ⟨o, ho, h⟩ := bind_inv h
    obtain ⟨l', hl, rfl⟩ := map_inv h
    obtain ⟨ms, h1, h2⟩ := objs_shape env r hl
    exact ⟨m :: ms, by rw [h1]; rfl, .cons ho h2⟩
  | .array _ :: _, l, h => by simp only [objs] at h; cases h
  | .string _ :: _, l, h => by simp only [objs] at h; cases h
  | .bool _ :: _, l, h => by simp only [objs] at h; cases h
  | .int _ :: _, l, h => by simp only [objs] at h; cases h
  | .double _ :: _, l, h => by simp only [objs] at h; cases h
  | .null :: _, l, h => by simp only [objs] at h; cases h
  | .undef :: _, l, h => by simp only [objs] at h; cases h

theorem listAttr_next {env : Env} {a : List JVal} {x : Attr} (h : listAttr env a = .ok x) :
    (a.head? ≠ some (.string "NextID") ∧ ∀ n, x ≠ .nextId n) ∨ ∃ n, a = [.string "NextID", .int n] ∧ x = .nextId (i64ToU64 n) := by
  by_cases hh : a.head? = some (.string "NextID")
  · right
    cases a with
    | nil => cases hh
    | cons y r =>
      simp only [List.head?_cons, Option.some.injEq] at hh
      subst hh
      rw [listAttr_rest env _ _ (fun h => absurd h (by decide))] at h
      unfold attrRest at h
      rw [if_neg (by decide), if_neg (by decide), if_pos rfl] at h
      unfold nextIdAttr at h
      split at h
      · cases h; exact ⟨_, rfl, rfl⟩
      · cases h
  · exact .inl ⟨hh, listAttr_seq env a hh x h⟩

/-- the `NextID` among attributes -/
def NextOf (attrs : List (List JVal)) (o : Option Nat) : Prop :=
  (∃ n, [.string "NextID", .int n] ∈ attrs ∧ o = some (i64ToU64 n)) ∨ ((∀ a ∈ attrs, a.head? ≠ some (.string "NextID")) ∧ o = none)

theorem list_shape (env : Env) : ∀ (r : List JVal) (t : TmpList) {t' : TmpList}, t.vec = [] → list env t r = .ok t' →
    ∃ as ms, ListSyntax r as ms ∧ ObjsOf env ms t'.vec ∧ (t.nextId = none → NextOf as t'.nextId) ∧
      (t.nextId ≠ none → t'.nextId = t.nextId ∧ ∀ a ∈ as, a.head? ≠ some (.string "NextID"))
  | [], t, t', ht, h => by
    simp only [list, Res.ok.injEq] at h
    subst h
    exact ⟨[], [], rfl, by rw [ht]; exact .nil, fun h => .inr ⟨(fun _ h => (nomatch h)), h⟩, fun _ => ⟨rfl, (fun _ h => (nomatch h))⟩⟩
  | .map m :: r, t, t', ht, h => by
    simp only [list] at h
    obtain ⟨o, ho, h⟩ := bind_inv h
    obtain ⟨l, hl, rfl⟩ := map_inv h
    obtain ⟨ms, h1, h2⟩ := objs_shape env r hl
    exact ⟨[], m :: ms, by rw [h1]; rfl, .cons ho h2, fun h => .inr ⟨(fun _ h => (nomatch h)), h⟩, fun _ => ⟨rfl, (fun _ h => (nomatch h))⟩⟩
  | .array a :: r, t, t', ht, h => by
    simp only [list] at h
    obtain ⟨x, hx, h⟩ := bind_inv h
    obtain ⟨t1, ht1, h⟩ := bind_inv h
    have hvec : t1.vec = [] := by
      cases x <;> simp only [addAttr] at ht1 <;> split at ht1 <;> cases ht1 <;> exact ht
    obtain ⟨as, ms, h1, h2, h3, h4⟩ := list_shape env r t1 hvec h
    refine ⟨a :: as, ms, by unfold ListSyntax at h1 ⊢; rw [h1]; rfl, h2, ?_, ?_⟩
    · intro hn
      rcases listAttr_next hx with ⟨ha, hb⟩ | ⟨n, rfl, rfl⟩
      · have hn1 : t1.nextId = none := by
          cases x <;> simp only [addAttr] at ht1
          · split at ht1 <;> cases ht1; exact hn
          · split at ht1 <;> cases ht1; exact hn
          · exact absurd rfl (hb _)
        rcases h3 hn1 with ⟨n, h5, h6⟩ | ⟨h5, h6⟩
        · exact .inl ⟨n, List.mem_cons_of_mem _ h5, h6⟩
        · refine .inr ⟨fun b hb' => ?_, h6⟩
          rcases List.mem_cons.1 hb' with rfl | hb'
          · exact ha
          · exact h5 b hb'
      · simp only [addAttr] at ht1
        split at ht1
        · cases ht1
          obtain ⟨h5, _⟩ := h4 (by simp)
          exact .inl ⟨n, List.mem_cons_self, h5⟩
        · cases ht1
    · intro hn
      rcases listAttr_next hx with ⟨ha, hb⟩ | ⟨n, rfl, rfl⟩
      · have hn1 : t1.nextId = t.nextId := by
          cases x <;> simp only [addAttr] at ht1
          · split at ht1 <;> cases ht1; rfl
          · split at ht1 <;> cases ht1; rfl
          · exact absurd rfl (hb _)
        obtain ⟨h5, h6⟩ := h4 (by rw [hn1]; exact hn)
        refine ⟨by rw [h5, hn1], fun b hb' => ?_⟩
        rcases List.mem_cons.1 hb' with rfl | hb'
        · exact ha
        · exact h6 b hb'
      · simp only [addAttr] at ht1
        rw [if_neg (by simpa using hn)] at ht1
        cases ht1
  | .string _ :: _, t, t', _, h => by simp only [list] at h; cases h
  | .bool _ :: _, t, t', _, h => by simp only [list] at h; cases h
  | .int _ :: _, t, t', _, h => by simp only [list] at h; cases h
  | .double _ :: _, t, t', _, h => by simp only [list] at h; cases h
  | .null :: _, t, t', _, h => by simp only [list] at h; cases h
  | .undef :: _, t, t', _, h => by simp only [list] at h; cases h

theorem intoMutItem_id {env : Env} {m : List (String × JVal)} {o : TmpObj} (ho : obj env false m 0 {} = .ok o) {i : Nat} {p : Nat × Item}
    (h : intoMutItem env i o = .ok p) : IdIs m i p.1 ∧ toItem env o = .ok p.2 := by
  unfold intoMutItem at h
  split at h
  · cases h
  · rename_i n hn
    split at h
    · cases h
    · obtain ⟨x, hx, rfl⟩ := map_inv h
      refine ⟨?_, hx⟩
      rcases obj_idOf env m 0 {} ho with ⟨h1, _⟩ | ⟨_, v, j, h2, h3, h4, _⟩
      · rw [hn] at h1; cases h1
      · rw [hn, Option.some.injEq] at h4
        subst h4
        cases v <;> simp only [getId, Option.some.injEq, IdVal.num.injEq] at h3 <;> try cases h3
        exact .inl ⟨_, h2, rfl⟩
  · rename_i hn
    split at h
    · cases h
    · obtain ⟨x, hx, rfl⟩ := map_inv h
      refine ⟨?_, hx⟩
      rcases obj_idOf env m 0 {} ho with ⟨_, h2⟩ | ⟨_, v, j, h2, h3, h4, _⟩
      · exact .inr ⟨h2, rfl⟩
      · rw [hn] at h4; cases h4

theorem mutItems_ids (env : Env) {ms : List (List (String × JVal))} {os : List TmpObj} (h : ObjsOf env ms os) :
    ∀ (idx : Nat) {l : List (Nat × Item)}, mutItems env idx os = .ok l → l.length = ms.length ∧
      ∀ i m, ms[i]? = some m → ∃ it, l[i]? = some it ∧ IdIs m (idx + i) it.1 ∧ ∃ o, obj env false m 0 {} = .ok o ∧ toItem env o = .ok it.2 := by
  induction h with
  | nil => intro idx l hl; cases hl; exact ⟨rfl, fun i m h => by simp at h⟩
  | @cons m o ms os ho _ ih =>
    intro idx l hl
    simp only [mutItems] at hl
    obtain ⟨p, hp, hl⟩ := bind_inv hl
    obtain ⟨l', hl', rfl⟩ := map_inv hl
    obtain ⟨h1, h2⟩ := ih (idx + 1) hl'
    refine ⟨by simp [h1], fun i m' hm => ?_⟩
    cases i with
    | zero =>
      simp only [List.getElem?_cons_zero, Option.some.injEq] at hm
      subst hm
      obtain ⟨ha, hb⟩ := intoMutItem_id ho hp
      exact ⟨p, rfl, by simpa using ha, o, ho, hb⟩
    | succ i =>
      simp only [List.getElem?_cons_succ] at hm
      obtain ⟨it, ha, hb, hc⟩ := h2 i m' hm
      exact ⟨it, by simpa using ha, by rw [show idx + (i + 1) = idx + 1 + i by omega]; exact hb, hc⟩

theorem objsOf_length {env : Env} {ms : List (List (String × JVal))} {os : List TmpObj} (h : ObjsOf env ms os) : os.length = ms.length := by
  induction h with
  | nil => rfl
  | cons _ _ ih => simp [ih]

theorem mutList_exact (env : Env) {as : List (List JVal)} {ms : List (List (String × JVal))} {t : TmpList} (ho : ObjsOf env ms t.vec)
    (hn : NextOf as t.nextId) {l : MutList} (h : mutList env t = .ok l) : l.1.length = ms.length ∧ NextIs as ms.length l.2 ∧
      ∀ i m, ms[i]? = some m → ∃ it, l.1[i]? = some it ∧ IdIs m i it.1 ∧ ∃ o, obj env false m 0 {} = .ok o ∧ toItem env o = .ok it.2 := by
  unfold mutList at h
  obtain ⟨x, hx, rfl⟩ := map_inv h
  obtain ⟨h1, h2⟩ := mutItems_ids env ho 0 hx
  refine ⟨h1, ?_, fun i m hm => by simpa using h2 i m hm⟩
  cases hx' : x with
  | nil => rw [hx'] at h1; exact .inl ⟨h1.symm, by simp⟩
  | cons e r =>
    rw [hx'] at h1
    refine .inr ⟨by rw [← h1]; simp, ?_⟩
    rcases hn with ⟨n, ha, hb⟩ | ⟨ha, hb⟩
    · exact .inl ⟨n, ha, by simp [hb]⟩
    · exact .inr ⟨ha, by simp [hb, objsOf_length ho]⟩

/-! ## Tables -/

theorem intoItemWithId_id {env : Env} {m : List (String × JVal)} {o : TmpObj} (ho : obj env false m 0 {} = .ok o) {p : String × Item}
    (h : intoItemWithId env o = .ok p) : ("ID", .string p.1) ∈ m ∧ (∀ w, ("ID", w) ∈ m → w = .string p.1) ∧ toItem env o = .ok p.2 := by
  unfold intoItemWithId at h
  split at h
  · cases h
  split at h
  · rename_i s hs
    obtain ⟨x, hx, rfl⟩ := map_inv h
    rcases obj_idOf env m 0 {} ho with ⟨h1, _⟩ | ⟨_, v, j, h2, h3, h4, h5⟩
    · rw [hs] at h1; cases h1
    · rw [hs, Option.some.injEq] at h4
      subst h4
      cases v <;> simp only [getId, Option.some.injEq, IdVal.str.injEq] at h3 <;> try cases h3
      exact ⟨h2, h5, hx⟩
  · cases h

/-- objects with their ids and items -/
structure Row (env : Env) (m : List (String × JVal)) (id : String) (it : Item) : Prop where
  mem : ("ID", .string id) ∈ m
  only : ∀ w, ("ID", w) ∈ m → w = .string id
  item : ∃ o, obj env false m 0 {} = .ok o ∧ toItem env o = .ok it

/-- items put into a map one after the other -/
def insRows : List (String × Item) → AMap Item → AMap Item
  | [], m => m
  | (k, v) :: r, m => insRows r (m.insert k v)

theorem dataItems_rows (env : Env) {ms : List (List (String × JVal))} {os : List TmpObj} (h : ObjsOf env ms os) :
    ∀ (a : AMap Item) {l : AMap Item}, dataItems env os a = .ok l →
      ∃ rows, List.Forall₂ (fun m (p : String × Item) => Row env m p.1 p.2) ms rows ∧ l = insRows rows a := by
  induction h with
  | nil => intro a l hl; cases hl; exact ⟨[], .nil, rfl⟩
  | @cons m o ms os ho _ ih =>
    intro a l hl
    simp only [dataItems] at hl
    obtain ⟨p, hp, hl⟩ := bind_inv hl
    obtain ⟨rows, h1, h2⟩ := ih _ hl
    obtain ⟨ha, hb, hc⟩ := intoItemWithId_id ho hp
    exact ⟨p :: rows, .cons ⟨ha, hb, o, ho, hc⟩ h1, h2⟩

theorem insRows_ne (n : String) : ∀ (l : List (String × Item)) (m : AMap Item), n ∉ l.map (·.1) → (insRows l m).get n = m.get n
  | [], _, _ => rfl
  | (k, v) :: r, m, h => by
    simp only [List.map_cons, List.mem_cons, not_or] at h
    simp only [insRows]
    rw [insRows_ne n r _ h.2, AMap.get_insert_ne _ _ h.1]

theorem insRows_last {n : String} {it : Item} {s : List (String × Item)} (hs : n ∉ s.map (·.1)) :
    ∀ (p : List (String × Item)) (m : AMap Item), (insRows (p ++ (n, it) :: s) m).get n = some it
  | [], m => by
    simp only [List.nil_append, insRows]
    rw [insRows_ne n s _ hs, AMap.get_insert_self]
  | (k, v) :: r, m => by simp only [List.cons_append, insRows]; exact insRows_last hs r _

theorem insRows_wf : ∀ (l : List (String × Item)) (m : AMap Item), m.Wf → (insRows l m).Wf
  | [], _, h => h
  | (_, _) :: r, _, h => insRows_wf r _ (h.insert _ _)

theorem insRows_keys (n : String) : ∀ (l : List (String × Item)) (m : AMap Item),
    n ∈ (insRows l m).map (·.1) ↔ n ∈ m.map (·.1) ∨ n ∈ l.map (·.1)
  | [], _ => by simp [insRows]
  | (k, v) :: r, m => by
    simp only [insRows]
    rw [insRows_keys n r, mem_keys_insert]
    simp only [List.map_cons, List.mem_cons, or_assoc]

end Verif.Source
