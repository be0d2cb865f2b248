import Verif.Spec.Remover
import Verif.Lemmas.Chain
/-! Helper lemmas: the remover. -/
namespace Verif.Remover
open VarInt FileName FileHistory Phase History

/-! The items of the remover -/

theorem compositeAll_eq (M : Nat) (c : Bool) (ch : List (Nat × Node)) (cur : Nat) :
    compositeAll M c ch cur = ch.map fun e => (e.1, composite M c e.2 cur) := by
  induction ch with
  | nil => rw [compositeAll]; rfl
  | cons e ch ih => obtain ⟨i, n⟩ := e; rw [compositeAll, ih]; rfl

theorem merge_map {α β γ : Type} (f : β → γ) (P : BMap α) (H : BMap β) :
    merge P (H.map fun e => (e.1, f e.2)) = (merge P H).map fun x => (x.1, x.2.1.map f, x.2.2) := by
  fun_induction merge P H with
  | case1 H => rw [merge_nil_left]; simp [List.map_map, Function.comp_def]
  | case2 P => rw [List.map_nil, merge_nil_right]; simp [List.map_map, Function.comp_def]
  | case3 i p P h H ih =>
    rw [List.map_cons, merge, if_pos rfl, ih]; simp
  | case4 i p P j h H h1 h2 ih =>
    rw [List.map_cons] at ih ⊢
    rw [merge, if_neg h1, if_pos h2, ih]; simp
  | case5 i p P j h H h1 h2 ih =>
    rw [List.map_cons, merge, if_neg h1, if_neg h2, ih]; simp

/-- the item made for an entry of the zipper -/
def entryItem (M : Nat) (c : Bool) (cur : Nat) (x : Nat × Option Node × Option Props) : Nat × RItem :=
  match x.2.1 with
  | some n => (x.1, .mk (decide (cur + 1 = M) && c) x.2.2 (composite M c n (cur + 1)))
  | none => (x.1, .mk (c && decide (cur = M)) x.2.2 [])

theorem entryItem_fst (M : Nat) (c : Bool) (cur : Nat) (x) : (entryItem M c cur x).1 = x.1 := by
  unfold entryItem; split <;> rfl

theorem composite_eq (M : Nat) (c : Bool) (ch : BMap Node) (it : BMap Props) (hch : Ordered ch) (hit : Ordered it)
    (cur : Nat) (hc : cur ≤ M) : composite M c (.mk ch it) cur = (merge it ch).map (entryItem M c cur) := by
  rw [composite, compositeAll_eq, zip_eq_merge it _ hit (ordered_map (fun n => composite M c n (cur + 1)) ch hch),
    merge_map (fun n => composite M c n (cur + 1)), List.filterMap_map,
    ← List.filterMap_eq_map]
  congr 1
  funext x
  obtain ⟨k, n, p⟩ := x
  cases n with
  | none => rfl
  | some n => simp [entryItem, hc]

theorem get_composite (M : Nat) (c : Bool) (ch : BMap Node) (it : BMap Props) (hch : Ordered ch) (hit : Ordered it)
    (cur : Nat) (hc : cur ≤ M) (i : Nat) :
    BMap.get (composite M c (.mk ch it) cur) i =
      match BMap.get ch i with
      | some n => some (.mk (decide (cur + 1 = M) && c) (BMap.get it i) (composite M c n (cur + 1)))
      | none => (BMap.get it i).map fun p => .mk (c && decide (cur = M)) (some p) [] := by
  obtain ⟨s1, s2⟩ := merge_spec it ch hit.1 hch.1
  have hasc : (((merge it ch).map (entryItem M c cur)).map (·.1)).Pairwise (· < ·) := by
    rw [List.map_map]
    have : ((·.1) ∘ entryItem M c cur) = fun x : Nat × Option Node × Option Props => x.1 := by
      funext x; exact entryItem_fst M c cur x
    rw [this]; exact s1
  have hget := get_mem _ hasc i
  rw [composite_eq M c ch it hch hit cur hc]
  cases hn : BMap.get ch i with
  | some n =>
    exact (hget _).2 (List.mem_map.2 ⟨(i, some n, BMap.get it i), (s2 _ _ _).2 ⟨hn.symm, rfl, Or.inl (by simp)⟩, rfl⟩)
  | none =>
    cases hp : BMap.get it i with
    | some p =>
      exact (hget _).2 (List.mem_map.2 ⟨(i, none, some p), (s2 _ _ _).2 ⟨hn.symm, hp.symm, Or.inr (by simp)⟩, rfl⟩)
    | none =>
      simp only [Option.map_none]
      cases hg : BMap.get ((merge it ch).map (entryItem M c cur)) i with
      | none => rfl
      | some r =>
        obtain ⟨⟨k, n, p⟩, hx, hr⟩ := List.mem_map.1 ((hget r).1 hg)
        have hk : k = i := by have := entryItem_fst M c cur (k, n, p); rw [hr] at this; exact this.symm
        subst hk
        obtain ⟨e1, e2, e3⟩ := (s2 _ _ _).1 hx
        rw [hn] at e1; rw [hp] at e2
        simp [e1, e2] at e3

/-- the node below a position -/
def sub : Node → List Nat → Option Node
  | n, [] => some n
  | .mk ch _, i :: r =>
    match BMap.get ch i with
    | some c => sub c r
    | none => none

theorem itemFromCue_eq (items : BMap RItem) (i : Nat) (r : List Nat) (l : Option Nat) :
    itemFromCue items (i :: r) l = (BMap.get items i).bind fun x => (descend x r).bind fun y =>
      match l with
      | none => some y
      | some ind => BMap.get y.children ind := by
  rw [itemFromCue]
  cases BMap.get items i with
  | none => rfl
  | some x =>
    simp only [Option.bind_some]
    cases descend x r <;> rfl

theorem descend_nil (x : RItem) : descend x [] = some x := by cases x; rfl
theorem descend_cons (x : RItem) (i : Nat) (r : List Nat) :
    descend x (i :: r) = (BMap.get x.children i).bind (descend · r) := by
  rw [descend]
  cases BMap.get x.children i <;> rfl

theorem itemFromCue_cons (items : BMap RItem) (i j : Nat) (r : List Nat) :
    itemFromCue items (i :: j :: r) none = (BMap.get items i).bind fun x => itemFromCue x.children (j :: r) none := by
  rw [itemFromCue_eq]
  congr 1
  funext x
  rw [itemFromCue_eq, descend_cons, Option.bind_assoc]

theorem descend_append (item : RItem) (r : List Nat) (l : Nat) :
    descend item (r ++ [l]) = (descend item r).bind fun x => BMap.get x.children l := by
  induction r generalizing item with
  | nil =>
    rw [List.nil_append, descend_nil, descend_cons]
    simp only [Option.bind_some]
    cases BMap.get item.children l <;> simp [descend_nil]
  | cons i r ih =>
    rw [List.cons_append, descend_cons, descend_cons, Option.bind_assoc]
    congr 1
    funext x
    exact ih x

theorem itemFromCue_last (items : BMap RItem) (o : List Nat) (ho : o ≠ []) (l : Nat) :
    itemFromCue items o (some l) = itemFromCue items (o ++ [l]) none := by
  cases o with
  | nil => exact absurd rfl ho
  | cons i r =>
    rw [List.cons_append, itemFromCue_eq, itemFromCue_eq]
    congr 1
    funext x
    rw [descend_append, Option.bind_assoc]
    congr 1
    funext y
    show BMap.get y.children l = _
    cases BMap.get y.children l <;> rfl

theorem itemFromCue_nil (items : BMap RItem) (l : Option Nat) : itemFromCue items [] l = none := rfl

/-- The item at a position. -/
theorem item_at (M : Nat) (c : Bool) (o : List Nat) (ho : o ≠ []) (pre : List Nat) (n : Node) (hn : WF pre n) (cur : Nat)
    (hc : cur + o.length ≤ M + 1) :
    itemFromCue (composite M c n cur) o none =
      match sub n o with
      | some m => some (.mk (decide (cur + o.length = M) && c) (n.getProps o) (composite M c m (cur + o.length)))
      | none => (n.getProps o).map fun p => .mk (c && decide (cur + o.length = M + 1)) (some p) [] := by
  induction o generalizing n cur pre with
  | nil => exact absurd rfl ho
  | cons i r ih =>
    cases hn with
    | mk _ ch it hch hit hitems hchild hne =>
      have hcur : cur ≤ M := by simp at hc; omega
      cases r with
      | nil =>
        rw [getProps_one, sub, itemFromCue_eq, get_composite M c ch it hch hit cur hcur]
        cases BMap.get ch i with
        | some m => simp [descend_nil, sub]
        | none => cases BMap.get it i <;> simp [descend_nil]
      | cons j r =>
        rw [getProps_cons, sub, itemFromCue_cons, get_composite M c ch it hch hit cur hcur]
        cases hm : BMap.get ch i with
        | some m =>
          simp only [Option.bind_some, RItem.children]
          rw [ih (by simp) _ m (hchild (i, m) ((get_mem ch hch.1 i m).1 hm)) (cur + 1) (by simp at hc ⊢; omega)]
          have : cur + 1 + (j :: r).length = cur + (i :: j :: r).length := by simp; omega
          rw [this]
        | none => cases BMap.get it i <;> simp [itemFromCue, RItem.children, BMap.get]

theorem sub_deeper (o : List Nat) (pre : List Nat) (n : Node) (hn : WF pre n) :
    (sub n o).isSome = true ↔ ∃ r q, r ≠ [] ∧ n.getProps (o ++ r) = some q := by
  induction o generalizing n pre with
  | nil =>
    simp only [sub, Option.isSome_some, List.nil_append, true_iff]
    obtain ⟨p, _, hp, _⟩ := (lists pre n hn).2.2
    obtain ⟨r, _, hr⟩ := ((lists pre n hn).1 p).1 hp
    exact ⟨r, p, getProps_ne_nil _ _ _ hr, hr⟩
  | cons i o ih =>
    cases hn with
    | mk _ ch it hch hit hitems hchild hne =>
      rw [sub]
      have hg : ∀ r, r ≠ [] → (Node.mk ch it).getProps (i :: o ++ r) = (BMap.get ch i).bind (·.getProps (o ++ r)) := by
        intro r hr
        cases hor : o ++ r with
        | nil => simp [hr] at hor
        | cons j s => rw [List.cons_append, hor, getProps_cons]
      cases hm : BMap.get ch i with
      | none =>
        simp only [Option.isSome_none, Bool.false_eq_true, false_iff]
        rintro ⟨r, q, hr, hq⟩
        rw [hg r hr, hm] at hq; cases hq
      | some m =>
        simp only
        rw [ih _ m (hchild (i, m) ((get_mem ch hch.1 i m).1 hm))]
        constructor
        · rintro ⟨r, q, hr, hq⟩; exact ⟨r, q, hr, by rw [hg r hr, hm]; exact hq⟩
        · rintro ⟨r, q, hr, hq⟩; rw [hg r hr, hm] at hq; exact ⟨r, q, hr, hq⟩

theorem get_fromHistory (M : Nat) (c : Bool) (h : FileHistory.History) (ctl : Nat) :
    BMap.get (fromHistory M c h) ctl = (BMap.get h.ctls ctl).map fun n => composite M c n 0 := by
  unfold fromHistory
  exact get_map (fun n => composite M c n 0) h.ctls ctl

theorem mem_of_key (h : FileHistory.History) (hh : HWF h) (ctl : Nat) (o : List Nat) (p : Props)
    (hp : h.getProps ctl o = some p) : p ∈ h.listFiles ∧ p.control = ctl ∧ p.order = o ∧ o ≠ [] := by
  obtain ⟨h1, h2⟩ := hgetProps_key h hh ctl o p hp
  simp only [key, List.cons.injEq] at h1
  obtain ⟨rfl, rfl⟩ := h1
  exact ⟨(mem_listFiles h hh p).2 hp, rfl, rfl, h2⟩

open Classical in
/-- The item found for a position is the file there, with the flag of `Flagged`. -/
theorem find_item (M : Nat) (c : Bool) (h : FileHistory.History) (hh : HWF h) (ctl : Nat) (o : List Nat) (ho : o ≠ [])
    (hl : o.length ≤ M + 1) :
    (∀ p, h.getProps ctl o = some p → ∃ items item, BMap.get (fromHistory M c h) ctl = some items ∧
      itemFromCue items o none = some item ∧ item.props = some p ∧ item.cumulative = decide (Flagged M c h p)) ∧
    (h.getProps ctl o = none → ∀ items item, BMap.get (fromHistory M c h) ctl = some items →
      itemFromCue items o none = some item → item.props = none) := by
  rw [hgetProps, get_fromHistory]
  cases hg : BMap.get h.ctls ctl with
  | none => simp
  | some n =>
    have hw : WF [ctl] n := hh.2 (ctl, n) ((get_mem _ hh.1.1 _ _).1 hg)
    have hitem := item_at M c o ho [ctl] n hw 0 (by omega)
    simp only [Option.bind_some, Option.map_some, Option.some.injEq]
    rw [Nat.zero_add] at hitem
    constructor
    · intro p hp
      have hgp : h.getProps ctl o = some p := by rw [hgetProps, hg]; exact hp
      obtain ⟨_, hpc, hpo, _⟩ := mem_of_key h hh ctl o p hgp
      have hdeep : (sub n o).isSome = true ↔ Deeper h p := by
        rw [sub_deeper o [ctl] n hw]
        constructor
        · rintro ⟨r, q, hr, hq⟩
          have hq' : h.getProps ctl (o ++ r) = some q := by rw [hgetProps, hg]; exact hq
          obtain ⟨m1, m2, m3, _⟩ := mem_of_key h hh _ _ _ hq'
          exact ⟨q, m1, by rw [m2, hpc], r, hr, by rw [m3, hpo]⟩
        · rintro ⟨q, hq, h1, r, hr, h2⟩
          have := (mem_listFiles h hh q).1 hq
          rw [h1, h2, hpc, hpo, hgetProps, hg] at this
          exact ⟨r, q, hr, this⟩
      cases hs : sub n o with
      | some m =>
        rw [hs] at hitem
        have hd : Deeper h p := hdeep.1 (by rw [hs]; rfl)
        refine ⟨_, _, rfl, hitem, hp, ?_⟩
        simp only [RItem.cumulative]
        rw [Bool.eq_iff_iff]
        simp only [Bool.and_eq_true, decide_eq_true_eq, Flagged, hpo]
        tauto
      | none =>
        have hd : ¬ Deeper h p := fun hd => by
          have := hdeep.2 hd
          rw [hs] at this; cases this
        rw [hs] at hitem
        simp only [hp, Option.map_some] at hitem
        refine ⟨_, _, rfl, hitem, rfl, ?_⟩
        simp only [RItem.cumulative]
        rw [Bool.eq_iff_iff]
        simp only [Bool.and_eq_true, decide_eq_true_eq, Flagged, hpo]
        tauto
    · intro hp items item hi hj
      subst hi
      rw [hitem, hp] at hj
      cases hs : sub n o with
      | some m => rw [hs] at hj; simp only [Option.some.injEq] at hj; rw [← hj]; rfl
      | none => rw [hs] at hj; cases hj

/-! Marking -/

def rank (o : List Nat) : Nat := o.sum + o.length

/-- the file at a cue -/
def find (h : FileHistory.History) (cue : Cue) : Option Props :=
  if cue.order = [] then none else h.getProps cue.ctl (cue.order ++ cue.orderLast.toList)

open Classical in
theorem keepLoop_succ (M : Nat) (c : Bool) (h : FileHistory.History) (hh : HWF h) (fuel : Nat) (cue : Cue)
    (hl : (cue.order ++ cue.orderLast.toList).length ≤ M + 1) (kept : List Pos) :
    keepLoop (fromHistory M c h) (fuel + 1) cue kept =
      match find h cue with
      | none => kept
      | some p =>
        if key p ∈ kept then kept
        else
          match nextCue (decide (Flagged M c h p)) p with
          | some cue' => keepLoop (fromHistory M c h) fuel cue' (key p :: kept)
          | none => key p :: kept := by
  rw [keepLoop]
  unfold find
  by_cases ho : cue.order = []
  · rw [if_pos ho, ho]
    cases BMap.get (fromHistory M c h) cue.ctl with
    | none => rfl
    | some items => rfl
  · rw [if_neg ho]
    have hne : cue.order ++ cue.orderLast.toList ≠ [] := by simp [ho]
    obtain ⟨f1, f2⟩ := find_item M c h hh cue.ctl _ hne hl
    have hcue : ∀ items, itemFromCue items cue.order cue.orderLast =
        itemFromCue items (cue.order ++ cue.orderLast.toList) none := by
      intro items
      cases hol : cue.orderLast with
      | none => simp
      | some l => exact itemFromCue_last items _ ho l
    cases hg : h.getProps cue.ctl (cue.order ++ cue.orderLast.toList) with
    | none =>
      cases hr : BMap.get (fromHistory M c h) cue.ctl with
      | none => rfl
      | some items =>
        simp only
        rw [hcue]
        cases hi : itemFromCue items (cue.order ++ cue.orderLast.toList) none with
        | none => rfl
        | some item => simp only [f2 hg items item hr hi]
    | some p =>
      obtain ⟨items, item, e1, e2, e3, e4⟩ := f1 p hg
      have hpos : cue.pos = key p := ((hgetProps_key h hh _ _ _ hg).1).symm
      rw [e1]
      simp only
      rw [hcue, e2]
      simp only
      rw [e3, e4, hpos]
      rfl

theorem split_order (p : Props) (hp : p.order ≠ []) : p.order = orderBase p ++ [orderLast p] := split_last p.order hp

/-- One round of the marking goes to the file of `Step`, which has a smaller rank. -/
theorem nextCue_step (M : Nat) (c : Bool) (h : FileHistory.History) (hh : HWF h) (p : Props) (hp : p.order ≠ [])
    (b : Bool) (hb : b = true ↔ Flagged M c h p) :
    (∀ cue, nextCue b p = some cue → (∀ q, find h cue = some q ↔ Step M c h p q) ∧
      (cue.order ++ cue.orderLast.toList).length ≤ p.order.length ∧
      rank (cue.order ++ cue.orderLast.toList) < rank p.order) ∧
    (nextCue b p = none → ∀ q, ¬ Step M c h p q) := by
  have hsp := split_order p hp
  have hrank : rank p.order = rank (orderBase p) + orderLast p + 1 := by
    conv_lhs => rw [hsp]
    simp [rank]; omega
  have hlen : p.order.length = (orderBase p).length + 1 := by
    conv_lhs => rw [hsp]
    simp
  unfold nextCue
  by_cases h1 : b = true ∧ orderLast p ≠ 0
  · rw [if_pos h1]
    refine ⟨fun cue hcue => ?_, fun hcue => by cases hcue⟩
    cases hcue
    refine ⟨fun q => ?_, by simp [hlen], ?_⟩
    · unfold find
      simp only [Option.toList_some]
      constructor
      · intro hq
        split at hq
        · cases hq
        · rename_i hne
          exact .sibling (hb.1 h1.1) h1.2 hne hq
      · intro hs
        cases hs with
        | sibling hf hl hne hq => rw [if_neg hne]; exact hq
        | parent hf hl hq => exact absurd ⟨hb.1 h1.1, h1.2⟩ hf
    · simp only [Option.toList_some]
      rw [hrank]
      have : orderLast p ≠ 0 := h1.2
      simp [rank]; omega
  · rw [if_neg h1]
    have hnf : ¬ (Flagged M c h p ∧ orderLast p ≠ 0) := fun hf => h1 ⟨hb.2 hf.1, hf.2⟩
    by_cases h2 : p.order.length ≠ 1
    · rw [if_pos h2]
      refine ⟨fun cue hcue => ?_, fun hcue => by cases hcue⟩
      cases hcue
      have hbne : orderBase p ≠ [] := by
        intro he
        rw [he] at hlen
        exact h2 hlen
      refine ⟨fun q => ?_, by simp [hlen], ?_⟩
      · unfold find
        simp only [Option.toList_none, List.append_nil]
        rw [if_neg hbne]
        constructor
        · intro hq; exact .parent hnf h2 hq
        · intro hs
          cases hs with
          | sibling hf hl hne hq => exact absurd ⟨hf, hl⟩ hnf
          | parent hf hl hq => exact hq
      · simp only [Option.toList_none, List.append_nil]
        rw [hrank]; omega
    · rw [if_neg h2]
      refine ⟨fun cue hcue => (by cases hcue), fun _ q hs => ?_⟩
      cases hs with
      | sibling hf hl hne hq => exact hnf ⟨hf, hl⟩
      | parent hf hl hq => exact h2 hl

theorem step_key (M : Nat) (c : Bool) (h : FileHistory.History) (hh : HWF h) (p q : Props) (hs : Step M c h p q) :
    q ∈ h.listFiles := by
  cases hs with
  | sibling hf hl hb hq => exact (mem_of_key h hh _ _ _ hq).1
  | parent hf hl hq => exact (mem_of_key h hh _ _ _ hq).1

theorem find_key (h : FileHistory.History) (hh : HWF h) (cue : Cue) (p : Props) (hp : find h cue = some p) :
    p ∈ h.listFiles ∧ p.order = cue.order ++ cue.orderLast.toList ∧ p.order ≠ [] := by
  unfold find at hp
  split at hp
  · cases hp
  · obtain ⟨h1, _, h3, h4⟩ := mem_of_key h hh _ _ _ hp
    exact ⟨h1, h3, by rw [h3]; exact h4⟩

theorem listed_inj (h : FileHistory.History) (hh : HWF h) (p q : Props) (hp : p ∈ h.listFiles) (hq : q ∈ h.listFiles)
    (hk : key p = key q) : p = q := by
  have h1 := (mem_listFiles h hh p).1 hp
  have h2 := (mem_listFiles h hh q).1 hq
  simp only [key, List.cons.injEq] at hk
  rw [hk.1, hk.2, h2] at h1
  exact (Option.some.inj h1).symm

/-- Everything the marked files of at most this rank depend on is marked. -/
def ClosedTo (M : Nat) (c : Bool) (h : FileHistory.History) (kept : List Pos) (r : Nat) : Prop :=
  ∀ p ∈ h.listFiles, key p ∈ kept → rank p.order ≤ r → ∀ q, Marks M c h p q → key q ∈ kept

theorem keepLoop_spec (M : Nat) (c : Bool) (h : FileHistory.History) (hh : HWF h) (fuel : Nat) (cue : Cue)
    (hl : (cue.order ++ cue.orderLast.toList).length ≤ M + 1)
    (hf : rank (cue.order ++ cue.orderLast.toList) < fuel) (kept : List Pos)
    (hk : ClosedTo M c h kept (rank (cue.order ++ cue.orderLast.toList))) (x : Pos) :
    x ∈ keepLoop (fromHistory M c h) fuel cue kept ↔
      x ∈ kept ∨ ∃ p q, find h cue = some p ∧ Marks M c h p q ∧ x = key q := by
  induction fuel generalizing cue kept with
  | zero => omega
  | succ fuel ih =>
    rw [keepLoop_succ M c h hh fuel cue hl kept]
    cases hfi : find h cue with
    | none => simp
    | some p =>
      obtain ⟨hpl, hpo, hpne⟩ := find_key h hh cue p hfi
      simp only
      by_cases hin : key p ∈ kept
      · rw [if_pos hin]
        constructor
        · exact Or.inl
        · rintro (hx | ⟨p', q, hp', hm, rfl⟩)
          · exact hx
          · cases hp'
            exact hk p hpl hin (by rw [hpo]) q hm
      · rw [if_neg hin]
        classical
        have hns := nextCue_step M c h hh p hpne (decide (Flagged M c h p)) (by simp)
        have hdec : ∀ (i j : Decidable (Flagged M c h p)), @decide _ i = @decide _ j := by
          intro i j; congr
        cases hnc : nextCue (decide (Flagged M c h p)) p with
        | none =>
          have hno := hns.2 (by rw [← hnc])
          simp only [List.mem_cons]
          constructor
          · rintro (rfl | hx)
            · exact Or.inr ⟨p, p, rfl, .self p, rfl⟩
            · exact Or.inl hx
          · rintro (hx | ⟨p', q, hp', hm, rfl⟩)
            · exact Or.inr hx
            · cases hp'
              cases hm with
              | self => exact Or.inl rfl
              | next _ q' _ hs _ => exact absurd hs (hno q')
        | some cue' =>
          obtain ⟨s1, s2, s3⟩ := hns.1 cue' (by rw [← hnc])
          simp only
          rw [ih cue' (by rw [hpo] at s2; omega) (by rw [hpo] at s3; omega)]
          · simp only [List.mem_cons]
            constructor
            · rintro ((rfl | hx) | ⟨q, r, hq, hm, rfl⟩)
              · exact Or.inr ⟨p, p, rfl, .self p, rfl⟩
              · exact Or.inl hx
              · exact Or.inr ⟨p, r, rfl, .next p q r ((s1 q).1 hq) hm, rfl⟩
            · rintro (hx | ⟨p', q, hp', hm, rfl⟩)
              · exact Or.inl (Or.inr hx)
              · cases hp'
                cases hm with
                | self => exact Or.inl (Or.inl rfl)
                | next _ q' _ hs hm => exact Or.inr ⟨q', q, (s1 q').2 hs, hm, rfl⟩
          · intro a ha hak har b hm
            rcases List.mem_cons.1 hak with hak | hak
            · have := listed_inj h hh a p ha hpl hak
              subst this
              omega
            · exact List.mem_cons_of_mem _ (hk a ha hak (by rw [hpo] at s3; omega) b hm)

/-- Everything the marked files depend on is marked. -/
def Closed (M : Nat) (c : Bool) (h : FileHistory.History) (kept : List Pos) : Prop :=
  ∀ p ∈ h.listFiles, key p ∈ kept → ∀ q, Marks M c h p q → key q ∈ kept

theorem Marks.trans {M : Nat} {c : Bool} {h : FileHistory.History} {p q r : Props} (h1 : Marks M c h p q)
    (h2 : Marks M c h q r) : Marks M c h p r := by
  induction h1 with
  | self => exact h2
  | next a b d hs _ ih => exact .next a b r hs (ih h2)

theorem Marks.listed {M : Nat} {c : Bool} {h : FileHistory.History} (hh : HWF h) {p q : Props} (h1 : Marks M c h p q)
    (hp : p ∈ h.listFiles) : q ∈ h.listFiles := by
  induction h1 with
  | self => exact hp
  | next a b d hs _ ih => exact ih (step_key M c h hh a b hs)

theorem keepFile_spec (M : Nat) (c : Bool) (h : FileHistory.History) (hh : HWF h) (hs : Shallow M h) (kept : List Pos)
    (hk : Closed M c h kept) (p : Props) (hp : p ∈ h.listFiles) (x : Pos) :
    x ∈ keepFile (fromHistory M c h) kept p ↔ x ∈ kept ∨ ∃ q, Marks M c h p q ∧ x = key q := by
  have hg := (mem_listFiles h hh p).1 hp
  have hne := (mem_of_key h hh _ _ _ hg).2.2.2
  unfold keepFile
  rw [keepLoop_spec M c h hh _ ⟨p.control, p.order, none⟩ (by simpa using hs p hp) (by simp [rank]) kept
    (fun a ha hak _ => hk a ha hak)]
  have hf : find h ⟨p.control, p.order, none⟩ = some p := by simp [find, hne, hg]
  rw [hf]
  constructor
  · rintro (hx | ⟨p', q, hp', hm, rfl⟩)
    · exact Or.inl hx
    · cases hp'; exact Or.inr ⟨q, hm, rfl⟩
  · rintro (hx | ⟨q, hm, rfl⟩)
    · exact Or.inl hx
    · exact Or.inr ⟨p, q, rfl, hm, rfl⟩

theorem keepAll_spec (M : Nat) (c : Bool) (h : FileHistory.History) (hh : HWF h) (hs : Shallow M h) (ks : List Props)
    (hks : ∀ p ∈ ks, p ∈ h.listFiles) (kept : List Pos) (hk : Closed M c h kept) :
    Closed M c h (ks.foldl (keepFile (fromHistory M c h)) kept) ∧ ∀ x,
    x ∈ ks.foldl (keepFile (fromHistory M c h)) kept ↔ x ∈ kept ∨ ∃ p ∈ ks, ∃ q, Marks M c h p q ∧ x = key q := by
  induction ks generalizing kept with
  | nil => exact ⟨hk, by simp⟩
  | cons p ks ih =>
    have hp := hks p (by simp)
    have hspec := keepFile_spec M c h hh hs kept hk p hp
    have hcl : Closed M c h (keepFile (fromHistory M c h) kept p) := by
      intro a ha hak b hm
      rcases (hspec _).1 hak with hak | ⟨q, hq, he⟩
      · exact (hspec _).2 (Or.inl (hk a ha hak b hm))
      · have := listed_inj h hh a q ha (hq.listed hh hp) he
        subst this
        exact (hspec _).2 (Or.inr ⟨b, hq.trans hm, rfl⟩)
    obtain ⟨i1, i2⟩ := ih (fun q hq => hks q (by simp [hq])) _ hcl
    refine ⟨i1, fun x => ?_⟩
    rw [List.foldl_cons, i2, hspec]
    simp only [List.mem_cons]
    constructor
    · rintro ((hx | hx) | ⟨a, ha, hx⟩)
      · exact Or.inl hx
      · exact Or.inr ⟨p, Or.inl rfl, hx⟩
      · exact Or.inr ⟨a, Or.inr ha, hx⟩
    · rintro (hx | ⟨a, rfl | ha, hx⟩)
      · exact Or.inl (Or.inl hx)
      · exact Or.inl (Or.inr hx)
      · exact Or.inr ⟨a, ha, hx⟩

/-! Reporting -/

theorem flatMap_congr' {α β : Type} {l : List α} {f g : α → List β} (h : ∀ x ∈ l, f x = g x) :
    l.flatMap f = l.flatMap g := by
  induction l with
  | nil => rfl
  | cons a l ih =>
    rw [List.flatMap_cons, List.flatMap_cons, h a (by simp), ih (fun x hx => h x (by simp [hx]))]

theorem removableAll_eq (kept : List Pos) (pos : Pos) (l : List (Nat × RItem)) :
    removableAll kept pos l = l.flatMap fun e => e.2.removable kept (pos ++ [e.1]) := by
  induction l with
  | nil => rw [removableAll]; rfl
  | cons e l ih => obtain ⟨i, x⟩ := e; rw [removableAll, ih]; rfl

theorem removable_node (M : Nat) (c : Bool) (kept : List Pos) (pos : Pos) (n : Node) (hn : WF pos n) (cur : Nat)
    (hd : ∀ o p, n.getProps o = some p → cur + o.length ≤ M + 1) :
    removableAll kept pos (composite M c n cur) = n.flatten.filter fun p => !decide (key p ∈ kept) := by
  induction hn generalizing cur with
  | mk pre ch it hch hit hitems hchild hne ih =>
    have hcur : cur ≤ M := by
      have hwf : WF pre (.mk ch it) := .mk pre ch it hch hit hitems hchild hne
      obtain ⟨p, _, hp, _⟩ := (lists pre _ hwf).2.2
      obtain ⟨o, _, ho⟩ := ((lists pre _ hwf).1 p).1 hp
      have h1 := hd o p ho
      have h2 := getProps_ne_nil _ _ _ ho
      have : 1 ≤ o.length := List.length_pos_iff.2 h2
      omega
    rw [composite_eq M c ch it hch hit cur hcur, removableAll_eq, Node.flatten, flattenAll_eq,
      zip_eq_merge it _ hit (ordered_map (fun n : Node => n.flatten) ch hch), merge_map (fun n : Node => n.flatten), List.flatMap_map,
      List.flatMap_map, List.filter_flatMap]
    refine flatMap_congr' (fun x hx => ?_)
    obtain ⟨k, m, p⟩ := x
    obtain ⟨e1, e2, _⟩ := ((merge_spec it ch hit.1 hch.1).2 k m p).1 hx
    have hprops : (if pre ++ [k] ∈ kept then [] else p.toList) = p.toList.filter fun p => !decide (key p ∈ kept) := by
      cases p with
      | none => simp
      | some p =>
        have := hitems (k, p) ((get_mem it hit.1 k p).1 e2.symm)
        simp only at this
        simp only [Option.toList_some, List.filter_cons, this, List.filter_nil]
        by_cases hm : pre ++ [k] ∈ kept <;> simp [hm]
    cases m with
    | none =>
      simp only [entryItem, RItem.removable, removableAll, List.append_nil, Option.map_none, Option.getD_none]
      exact hprops
    | some m =>
      have hmem := (get_mem ch hch.1 k m).1 e1.symm
      simp only [entryItem, RItem.removable, Option.map_some, Option.getD_some, List.filter_append]
      rw [hprops, ih (k, m) hmem (cur + 1)]
      intro o q hq
      have hone : o ≠ [] := getProps_ne_nil _ _ _ hq
      have := hd (k :: o) q (by
        cases o with
        | nil => exact absurd rfl hone
        | cons j r => rw [getProps_cons, ← e1]; exact hq)
      simp at this
      omega

theorem removable_eq (M : Nat) (c : Bool) (h : FileHistory.History) (hh : HWF h) (hs : Shallow M h) (kept : List Pos) :
    removableProps (fromHistory M c h) kept = h.listFiles.filter fun p => !decide (key p ∈ kept) := by
  unfold removableProps fromHistory FileHistory.History.listFiles
  rw [List.flatMap_map, List.filter_flatMap]
  refine flatMap_congr' (fun e he => ?_)
  obtain ⟨k, n⟩ := e
  refine removable_node M c kept [k] n (hh.2 _ he) 0 (fun o p hp => ?_)
  have hg : h.getProps k o = some p := by
    rw [hgetProps, (get_mem _ hh.1.1 k n).2 he]; exact hp
  obtain ⟨h1, _, h3, _⟩ := mem_of_key h hh _ _ _ hg
  have := hs p h1
  rw [h3] at this
  omega

theorem mem_latest (n : Nat) (l : List Props) (p : Props) (hp : p ∈ latest n l) : p ∈ l := List.mem_of_mem_drop hp

/-- What `get_removable_old_items` reports. -/
theorem removableOld_mem (M : Nat) (c : Bool) (h : FileHistory.History) (hh : HWF h) (hs : Shallow M h) (n : Nat)
    (p : Props) : p ∈ removableOldItems M c h n ↔
      p ∈ h.listFiles ∧ ¬ ∃ k ∈ latest n h.listFiles, Marks M c h k p := by
  unfold removableOldItems
  simp only
  rw [removable_eq M c h hh hs, List.mem_filter]
  obtain ⟨_, k2⟩ := keepAll_spec M c h hh hs (latest n h.listFiles) (fun q hq => mem_latest n _ q hq) []
    (fun a _ ha => by simp at ha)
  simp only [Bool.not_eq_eq_eq_not, Bool.not_true, decide_eq_false_iff_not, k2]
  constructor
  · rintro ⟨h1, h2⟩
    refine ⟨h1, ?_⟩
    rintro ⟨k, hk, hm⟩
    exact h2 (Or.inr ⟨k, hk, p, hm, rfl⟩)
  · rintro ⟨h1, h2⟩
    refine ⟨h1, ?_⟩
    rintro (hx | ⟨k, hk, q, hm, he⟩)
    · simp at hx
    · have := listed_inj h hh p q h1 (hm.listed hh (mem_latest n _ k hk)) he
      subst this
      exact h2 ⟨k, hk, hm⟩

end Verif.Remover
