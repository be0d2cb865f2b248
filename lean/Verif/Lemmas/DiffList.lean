import Verif.Lemmas.DiffRow
import Mathlib.Data.List.Perm.Basic
import Mathlib.Data.List.Nodup
/-! Applying the diff of a list gives the new list. -/
namespace Verif.Diff
open VarInt Codec Compaction LinkedMap

section
variable {V : Type}

theorem find_some {l : SList V} {id : Nat} {y : Nat × V} (h : l.find id = some y) : y ∈ l.items ∧ y.1 = id := by
  unfold SList.find at h
  exact ⟨List.mem_of_find?_eq_some h, by simpa using List.find?_some h⟩

theorem find_none {l : SList V} {id : Nat} : l.find id = none ↔ id ∉ l.ids := by
  unfold SList.find SList.ids
  rw [List.find?_eq_none]
  constructor
  · intro h hm
    obtain ⟨x, hx, rfl⟩ := List.mem_map.mp hm
    exact h x hx (by simp)
  · intro h x hx he
    exact h (List.mem_map.mpr ⟨x, hx, by simpa using he⟩)

theorem find_mem {l : SList V} (hnd : l.ids.Nodup) {x : Nat × V} (hx : x ∈ l.items) : l.find x.1 = some x := by
  cases h : l.find x.1 with
  | none => exact absurd (List.mem_map.mpr ⟨x, hx, rfl⟩) (find_none.mp h)
  | some y =>
    obtain ⟨hy, he⟩ := find_some h
    exact congrArg some (List.inj_on_of_nodup_map hnd hy hx he)

theorem mem_ids {l : SList V} {x : Nat × V} (hx : x ∈ l.items) : x.1 ∈ l.ids := List.mem_map.mpr ⟨x, hx, rfl⟩

theorem filter_ne_of_not_mem (A : List (Nat × V)) (id : Nat) (h : id ∉ A.map (·.1)) : A.filter (·.1 ≠ id) = A := by
  rw [List.filter_eq_self]
  intro y hy
  refine decide_eq_true ?_
  intro he
  exact h (List.mem_map.mpr ⟨y, hy, he⟩)

theorem map_set_of_not_mem (A : List (Nat × V)) (id : Nat) (v : V) (h : id ∉ A.map (·.1)) :
    (A.map fun x => if x.1 = id then (x.1, v) else x) = A := by
  conv_rhs => rw [← List.map_id A]
  refine List.map_congr_left ?_
  intro y hy
  rw [if_neg fun he => h (List.mem_map.mpr ⟨y, hy, he⟩)]
  rfl

theorem putAfter_of_not_mem (A : List (Nat × V)) (id : Nat) (x : Nat × V) (h : id ∉ A.map (·.1)) : putAfter id x A = A := by
  unfold putAfter
  induction A with
  | nil => rfl
  | cons y A ih =>
    have h' : id ≠ y.1 ∧ id ∉ A.map (·.1) := by simpa using h
    rw [List.flatMap_cons, if_neg (Ne.symm h'.1), ih h'.2]
    rfl

theorem putAfter_split (A B : List (Nat × V)) (y x : Nat × V) (h : ((A ++ y :: B).map (·.1)).Nodup) :
    putAfter y.1 x (A ++ y :: B) = A ++ y :: x :: B := by
  rw [List.map_append, List.map_cons, List.nodup_append, List.nodup_cons] at h
  have hA : y.1 ∉ A.map (·.1) := fun hm => h.2.2 _ hm _ (by simp) rfl
  have hB : y.1 ∉ B.map (·.1) := h.2.1.1
  have h1 := putAfter_of_not_mem A y.1 x hA
  have h2 := putAfter_of_not_mem B y.1 x hB
  unfold putAfter at *
  rw [List.flatMap_append, List.flatMap_cons, h1, h2, if_pos rfl]
  rfl

/-- Lists of pairs from one list without repeated ids are equal if their ids are. -/
theorem eq_of_keys {M : List (Nat × V)} (hM : (M.map (·.1)).Nodup) : ∀ {A B : List (Nat × V)}, (∀ x ∈ A, x ∈ M) → (∀ x ∈ B, x ∈ M) →
    A.map (·.1) = B.map (·.1) → A = B
  | [], [], _, _, _ => rfl
  | [], _ :: _, _, _, h => nomatch h
  | _ :: _, [], _, _, h => nomatch h
  | a :: A, b :: B, hA, hB, h => by
    rw [List.map_cons, List.map_cons, List.cons.injEq] at h
    rw [List.inj_on_of_nodup_map hM (hA a (by simp)) (hB b (by simp)) h.1,
      eq_of_keys hM (fun x hx => hA x (by simp [hx])) (fun x hx => hB x (by simp [hx])) h.2]

end

section
variable {S X D : Type}

theorem applyItems_append (ad : S → X → D → Res X) (dn : S → D → Res X) (tb : Table S) (xs ys : List (Nat × ItemDiff D))
    (l : SList (Row X)) : applyItems ad dn tb (xs ++ ys) l = (applyItems ad dn tb xs l).bind (applyItems ad dn tb ys) := by
  induction xs generalizing l with
  | nil => rfl
  | cons x xs ih =>
    rw [List.cons_append, applyItems, applyItems]
    cases applyItem ad dn tb l x with
    | ok l' => simp only [Res.bind_ok, ih]
    | err => rfl
    | panic => rfl

/-- The first part of a diff: items of the old list are modified or deleted. -/
theorem phase1 (ad : S → X → D → Res X) (dn : S → D → Res X) (tb : Table S) (em : Nat × Row X → Option (Nat × ItemDiff D))
    (k : Nat × Row X → Option (Nat × Row X)) (suf A : List (Nat × Row X)) (nx : Nat) (hnd : ((A ++ suf).map (·.1)).Nodup)
    (h : ∀ x ∈ suf, (em x = none ∧ k x = some x) ∨
      (∃ d row, em x = some (x.1, .modify d) ∧ modifyItem ad dn tb x.2 d = .ok row ∧ k x = some (x.1, row)) ∨
      (em x = some (x.1, .delete) ∧ k x = none)) :
    applyItems ad dn tb (suf.filterMap em) ⟨A ++ suf, nx⟩ = .ok ⟨A ++ suf.filterMap k, nx⟩ := by
  induction suf generalizing A with
  | nil => rfl
  | cons x suf ih =>
    have hnd' := hnd
    rw [List.map_append, List.map_cons, List.nodup_append, List.nodup_cons] at hnd'
    obtain ⟨hA, ⟨hx, hsuf⟩, hdis⟩ := hnd'
    have hxA : x.1 ∉ A.map (·.1) := fun hm => hdis _ hm _ (by simp) rfl
    rcases h x (by simp) with ⟨h1, h2⟩ | ⟨d, row, h1, h2, h3⟩ | ⟨h1, h2⟩
    · have := ih (A ++ [x]) (by simpa using hnd) fun y hy => h y (by simp [hy])
      rw [List.filterMap_cons, List.filterMap_cons, h1, h2]
      simpa using this
    · have := ih (A ++ [(x.1, row)]) (by simpa using hnd) fun y hy => h y (by simp [hy])
      rw [List.filterMap_cons, List.filterMap_cons, h1, h3]
      simp only
      rw [applyItems]
      have hfind : (SList.mk (A ++ x :: suf) nx).find x.1 = some x := find_mem (l := ⟨A ++ x :: suf, nx⟩) hnd (by simp)
      have hstep : applyItem ad dn tb ⟨A ++ x :: suf, nx⟩ (x.1, .modify d) = .ok ⟨A ++ (x.1, row) :: suf, nx⟩ := by
        unfold applyItem
        simp only [hfind, h2, Res.map_ok, SList.step]
        rw [List.map_append, List.map_cons, map_set_of_not_mem A x.1 row hxA, map_set_of_not_mem suf x.1 row hx, if_pos rfl]
      rw [hstep, Res.bind_ok]
      simpa using this
    · have := ih A (by
        rw [List.map_append, List.nodup_append]
        exact ⟨hA, hsuf, fun a ha b hb => hdis a ha b (by simp [hb])⟩) fun y hy => h y (by simp [hy])
      rw [List.filterMap_cons, List.filterMap_cons, h1, h2]
      simp only
      rw [applyItems]
      have hstep : applyItem ad dn tb ⟨A ++ x :: suf, nx⟩ (x.1, .delete) = .ok ⟨A ++ suf, nx⟩ := by
        unfold applyItem
        simp only [SList.step, SList.without]
        rw [List.filter_append, List.filter_cons, if_neg (by simp), filter_ne_of_not_mem A x.1 hxA,
          filter_ne_of_not_mem suf x.1 hx]
      rw [hstep, Res.bind_ok]
      exact this

/-- Insertion at the front or after an item. -/
def insertAt (prev : Option Nat) (x : Nat × Row X) (L : List (Nat × Row X)) : List (Nat × Row X) :=
  match prev with
  | none => x :: L
  | some p => putAfter p x L

/-- One insertion. -/
theorem applyItem_create (ad : S → X → D → Res X) (dn : S → D → Res X) (tb : Table S) (l : SList (Row X)) (id : Nat)
    (prev : Option Nat) (d : RowDiff D) (row : Row X) (hd : newItemFromDiff ad dn tb d = .ok row) (hid : id ∉ l.ids)
    (hp : ∀ p, prev = some p → p ∈ l.ids) :
    applyItem ad dn tb l (id, .create prev d) = .ok ⟨insertAt prev (id, row) l.items, l.nextId⟩ := by
  unfold applyItem
  simp only [hd, Res.bind_ok, SList.step, if_neg hid]
  cases prev with
  | none => rfl
  | some p =>
    have hpl := hp p rfl
    have hne : id ≠ p := by rintro rfl; exact hid hpl
    have hfind : (SList.mk ((id, row) :: l.items) l.nextId).find id = some (id, row) := by
      simp [SList.find]
    have hmem : p ∈ (SList.mk ((id, row) :: l.items) l.nextId).ids := by
      unfold SList.ids at hpl ⊢
      exact List.mem_cons_of_mem _ hpl
    simp only [hfind, if_pos (And.intro hne hmem)]
    have hw : (SList.mk ((id, row) :: l.items) l.nextId).without id = l.items := by
      unfold SList.without
      rw [List.filter_cons, if_neg (by simp)]
      exact filter_ne_of_not_mem _ _ hid
    rw [hw]
    rfl

/-- The second part of a diff, if the old items are in the order of the new list. -/
theorem phase2_sorted (ad : S → X → D → Res X) (dn : S → D → Res X) (tb : Table S) (old : Nat → Bool) (ni : Row X → RowDiff D)
    (Q P : List (Nat × Row X)) (nx : Nat) (hnd : ((P ++ Q).map (·.1)).Nodup)
    (hni : ∀ x ∈ Q, old x.1 = false → newItemFromDiff ad dn tb (ni x.2) = .ok x.2) :
    applyItems ad dn tb (creates old ni (P.getLast?.map (·.1)) Q) ⟨P ++ Q.filter (fun x => old x.1), nx⟩ = .ok ⟨P ++ Q, nx⟩ := by
  induction Q generalizing P with
  | nil => rfl
  | cons x Q ih =>
    have hlast : (P ++ [x]).getLast?.map (·.1) = some x.1 := by simp
    have := ih (P ++ [x]) (by simpa using hnd) fun y hy => hni y (by simp [hy])
    rw [hlast] at this
    rw [creates]
    cases ho : old x.1 with
    | true =>
      rw [List.filter_cons, if_pos ho]
      simpa using this
    | false =>
      have hfil : (x :: Q).filter (fun x => old x.1) = Q.filter fun x => old x.1 := by
        rw [List.filter_cons, if_neg (by simp [ho])]
      rw [hfil]
      simp only [Bool.false_eq_true, if_false, List.singleton_append]
      rw [applyItems]
      have hnd' := hnd
      rw [List.map_append, List.map_cons, List.nodup_append, List.nodup_cons] at hnd'
      obtain ⟨hP, ⟨hx, hQ⟩, hdis⟩ := hnd'
      have hsub : ∀ i ∈ (Q.filter fun x => old x.1).map (·.1), i ∈ Q.map (·.1) := by
        intro i hi
        obtain ⟨y, hy, rfl⟩ := List.mem_map.mp hi
        exact List.mem_map.mpr ⟨y, List.mem_of_mem_filter hy, rfl⟩
      have hid : x.1 ∉ (SList.mk (P ++ Q.filter fun x => old x.1) nx).ids := by
        unfold SList.ids
        simp only [List.map_append, List.mem_append, not_or]
        exact ⟨fun hm => hdis _ hm _ (by simp) rfl, fun hm => hx (hsub _ hm)⟩
      rw [applyItem_create ad dn tb _ x.1 _ _ x.2 (hni x (by simp) ho) hid (by
        intro p hp
        simp only [Option.map_eq_some_iff] at hp
        obtain ⟨y, hy, rfl⟩ := hp
        unfold SList.ids
        simp only [List.map_append, List.mem_append]
        left
        exact List.mem_map.mpr ⟨y, List.mem_of_getLast? hy, rfl⟩), Res.bind_ok]
      have hstate : insertAt (P.getLast?.map (·.1)) (x.1, x.2) (P ++ Q.filter fun x => old x.1) =
          (P ++ [x]) ++ Q.filter fun x => old x.1 := by
        unfold insertAt
        rcases List.eq_nil_or_concat P with rfl | ⟨P', y, rfl⟩
        · simp
        · simp only [List.getLast?_append, List.getLast?_singleton, Option.some_or, Option.map_some, List.concat_eq_append]
          rw [List.append_assoc, List.singleton_append, putAfter_split]
          · simp
          · have : (P' ++ y :: Q.filter fun x => old x.1).Sublist ((P'.concat y) ++ x :: Q) := by
              rw [List.concat_eq_append, List.append_assoc, List.singleton_append]
              exact (List.Sublist.refl P').append ((List.Sublist.cons x List.filter_sublist).cons_cons y)
            exact (this.map _).nodup hnd
      rw [hstate]
      simpa using this

/-- The second part of a diff, in general: the new items are added, the old ones keep their order. -/
theorem phase2_any (ad : S → X → D → Res X) (dn : S → D → Res X) (tb : Table S) (old : Nat → Bool) (ni : Row X → RowDiff D)
    (Q L : List (Nat × Row X)) (prev : Option Nat) (nx : Nat) (hQ : (Q.map (·.1)).Nodup) (hL : (L.map (·.1)).Nodup)
    (hin : ∀ x ∈ Q, old x.1 = true → x.1 ∈ L.map (·.1)) (hout : ∀ x ∈ Q, old x.1 = false → x.1 ∉ L.map (·.1))
    (hprev : ∀ p, prev = some p → p ∈ L.map (·.1))
    (hni : ∀ x ∈ Q, old x.1 = false → newItemFromDiff ad dn tb (ni x.2) = .ok x.2) :
    ∃ R, applyItems ad dn tb (creates old ni prev Q) ⟨L, nx⟩ = .ok ⟨R, nx⟩ ∧ R.Perm (L ++ Q.filter fun x => !old x.1) ∧
      R.filter (fun x => old x.1) = L.filter fun x => old x.1 := by
  induction Q generalizing L prev with
  | nil => exact ⟨L, rfl, by simp, rfl⟩
  | cons x Q ih =>
    rw [List.map_cons, List.nodup_cons] at hQ
    rw [creates]
    cases ho : old x.1 with
    | true =>
      obtain ⟨R, h1, h2, h3⟩ := ih L (some x.1) hQ.2 hL (fun y hy => hin y (by simp [hy])) (fun y hy => hout y (by simp [hy]))
        (by intro p hp; cases hp; exact hin x (by simp) ho) (fun y hy => hni y (by simp [hy]))
      refine ⟨R, by simpa using h1, ?_, h3⟩
      rw [List.filter_cons, if_neg (by simp [ho])]
      exact h2
    | false =>
      simp only [Bool.false_eq_true, if_false, List.singleton_append]
      rw [applyItems, applyItem_create ad dn tb ⟨L, nx⟩ x.1 prev _ x.2 (hni x (by simp) ho) (hout x (by simp) ho) hprev,
        Res.bind_ok]
      have hstate : ∃ L1 L2, L = L1 ++ L2 ∧ insertAt prev (x.1, x.2) L = L1 ++ x :: L2 := by
        cases prev with
        | none => exact ⟨[], L, rfl, rfl⟩
        | some p =>
          obtain ⟨y, hy, rfl⟩ := List.mem_map.mp (hprev p rfl)
          obtain ⟨A, B, rfl⟩ := List.append_of_mem hy
          exact ⟨A ++ [y], B, by simp, by unfold insertAt; simp only; rw [putAfter_split A B y _ hL]; simp⟩
      obtain ⟨L1, L2, rfl, hst⟩ := hstate
      simp only at hst ⊢
      rw [hst]
      have hx : x.1 ∉ (L1 ++ L2).map (·.1) := hout x (by simp) ho
      have hperm : (L1 ++ x :: L2).Perm (x :: (L1 ++ L2)) := List.perm_middle
      have hmemL : ∀ i, i ∈ (L1 ++ x :: L2).map (·.1) ↔ i = x.1 ∨ i ∈ (L1 ++ L2).map (·.1) := by
        intro i
        rw [(hperm.map (·.1)).mem_iff]
        simp
      obtain ⟨R, h1, h2, h3⟩ := ih (L1 ++ x :: L2) (some x.1) hQ.2 (by
          rw [(hperm.map (·.1)).nodup_iff, List.map_cons, List.nodup_cons]; exact ⟨hx, hL⟩)
        (fun y hy ho => (hmemL _).mpr (Or.inr (hin y (by simp [hy]) ho)))
        (fun y hy ho hm => by
          rcases (hmemL _).mp hm with he | hm
          · exact hQ.1 (List.mem_map.mpr ⟨y, hy, he⟩)
          · exact hout y (by simp [hy]) ho hm)
        (by intro p hp; cases hp; exact (hmemL _).mpr (Or.inl rfl))
        (fun y hy => hni y (by simp [hy]))
      refine ⟨R, h1, ?_, ?_⟩
      · rw [List.filter_cons, if_pos (by simp [ho])]
        refine h2.trans ((List.Perm.append_right _ hperm).trans ?_)
        rw [List.cons_append]
        exact List.perm_middle.symm
      · rw [h3, List.filter_append, List.filter_append, List.filter_cons, if_neg (by simp [ho])]

/-- Insertions depend on the new items only. -/
theorem creates_congr (old : Nat → Bool) (ni : Row X → RowDiff D) (g : Nat × Row X → Nat × Row X) (prev : Option Nat)
    (Q : List (Nat × Row X)) (hg : ∀ x ∈ Q, (g x).1 = x.1 ∧ (old x.1 = false → g x = x)) :
    creates old ni prev (Q.map g) = creates old ni prev Q := by
  induction Q generalizing prev with
  | nil => rfl
  | cons x Q ih =>
    obtain ⟨h1, h2⟩ := hg x (by simp)
    have ih := ih (some x.1) fun y hy => hg y (by simp [hy])
    rw [List.map_cons]
    cases hgx : g x with
    | mk i r =>
      rw [hgx] at h1 h2
      simp only at h1
      subst h1
      simp only [creates, ih]
      cases ho : old x.1 with
      | true => simp
      | false =>
        have := h2 ho
        rw [← this]

/-- What becomes of an item of the old list. -/
def kept (ptr : Ptr) (gd : Ptr → S → X → X → Option D) (nl : S → X → D) (ad : S → X → D → Res X) (dn : S → D → Res X)
    (tb : Table S) (dst : SList (Row X)) (x : Nat × Row X) : Option (Nat × Row X) :=
  match dst.find x.1 with
  | some y =>
    match compareItems (fun p => ptr (x.1 :: p)) gd nl tb x.2 y.2 with
    | none => some x
    | some d =>
      match modifyItem ad dn tb x.2 d with
      | .ok row => some (x.1, row)
      | _ => none
  | none => none

theorem kept_spec {ok : S → X → Prop} {st : X → X → Prop} {gd : Ptr → S → X → X → Option D} {nl : S → X → D}
    {ad : S → X → D → Res X} {dn : S → D → Res X} (hl : LevelOk ok st gd nl ad dn) {ptr : Ptr} {tb : Table S} {a b : SList (Row X)}
    (ha : ListOk ok tb a) (hb : ListOk ok tb b) (x : Nat × Row X) (hx : x ∈ a.items) :
    (oldItem ptr gd nl tb b x = none ∧ kept ptr gd nl ad dn tb b x = some x) ∨
      (∃ d row, oldItem ptr gd nl tb b x = some (x.1, .modify d) ∧ modifyItem ad dn tb x.2 d = .ok row ∧
        kept ptr gd nl ad dn tb b x = some (x.1, row)) ∨
      (oldItem ptr gd nl tb b x = some (x.1, .delete) ∧ kept ptr gd nl ad dn tb b x = none) := by
  unfold oldItem kept
  cases hf : b.find x.1 with
  | none => exact Or.inr (Or.inr ⟨rfl, rfl⟩)
  | some y =>
    obtain ⟨hy, he⟩ := find_some hf
    simp only
    cases hc : compareItems (fun p => ptr (x.1 :: p)) gd nl tb x.2 y.2 with
    | none => exact Or.inl ⟨rfl, rfl⟩
    | some d =>
      obtain ⟨r, hr⟩ := modifyItem_tot hl (ha.2.2.2.2.2.2 x hx) (hb.2.2.2.2.2.2 y hy) hc
      exact Or.inr (Or.inl ⟨d, r, rfl, hr, by simp only [hr]⟩)

theorem kept_id {ok : S → X → Prop} {st : X → X → Prop} {gd : Ptr → S → X → X → Option D} {nl : S → X → D}
    {ad : S → X → D → Res X} {dn : S → D → Res X} (hl : LevelOk ok st gd nl ad dn) {ptr : Ptr} {tb : Table S} {a b : SList (Row X)}
    (ha : ListOk ok tb a) (hb : ListOk ok tb b) (x : Nat × Row X) (hx : x ∈ a.items) :
    (kept ptr gd nl ad dn tb b x).map (·.1) = if x.1 ∈ b.ids then some x.1 else none := by
  unfold kept
  cases hf : b.find x.1 with
  | none => rw [if_neg (find_none.mp hf)]; rfl
  | some y =>
    obtain ⟨hy, he⟩ := find_some hf
    rw [if_pos (by rw [← he]; exact mem_ids hy)]
    simp only
    cases hc : compareItems (fun p => ptr (x.1 :: p)) gd nl tb x.2 y.2 with
    | none => rfl
    | some d =>
      obtain ⟨r, hr⟩ := modifyItem_tot hl (ha.2.2.2.2.2.2 x hx) (hb.2.2.2.2.2.2 y hy) hc
      simp only [hr]
      rfl

/-- Ids of what is left of the old list. -/
theorem kept_ids {ok : S → X → Prop} {st : X → X → Prop} {gd : Ptr → S → X → X → Option D} {nl : S → X → D}
    {ad : S → X → D → Res X} {dn : S → D → Res X} (hl : LevelOk ok st gd nl ad dn) {ptr : Ptr} {tb : Table S} {a b : SList (Row X)}
    (ha : ListOk ok tb a) (hb : ListOk ok tb b) :
    (a.items.filterMap (kept ptr gd nl ad dn tb b)).map (·.1) = a.ids.filter (· ∈ b.ids) := by
  have key : ∀ xs : List (Nat × Row X), (∀ x ∈ xs, x ∈ a.items) →
      (xs.filterMap (kept ptr gd nl ad dn tb b)).map (·.1) = (xs.map (·.1)).filter (· ∈ b.ids) := by
    intro xs
    induction xs with
    | nil => intro _; rfl
    | cons x xs ih =>
      intro hsub
      have hx := kept_id hl (ptr := ptr) ha hb x (hsub x (by simp))
      have ih := ih fun y hy => hsub y (by simp [hy])
      rw [List.filterMap_cons, List.map_cons, List.filter_cons]
      by_cases hm : x.1 ∈ b.ids
      · rw [if_pos hm] at hx
        obtain ⟨y, hy, hy1⟩ := Option.map_eq_some_iff.mp hx
        rw [hy, if_pos (by simpa using hm), ← ih]
        simp only [List.map_cons, hy1]
      · rw [if_neg hm] at hx
        rw [Option.map_eq_none_iff.mp hx, if_neg (by simpa using hm), ← ih]
  exact key a.items fun _ h => h

theorem getMListDiff_some {ptr : Ptr} {gd : Ptr → S → X → X → Option D} {nl : S → X → D} {tb : Table S} {a b : SList (Row X)}
    {d : ListDiff D} (h : getMListDiff ptr gd nl tb a b = some d) :
    d = ⟨a.items.filterMap (oldItem ptr gd nl tb b) ++ creates (fun id => decide (id ∈ a.ids)) (newItem nl tb) none b.items,
      b.nextId⟩ := by
  unfold getMListDiff at h
  simp only at h
  split at h
  · cases h
  · exact (Option.some.inj h).symm

/-- The first part of the diff of two lists. -/
theorem applyListDiff_phase1 {ok : S → X → Prop} {st : X → X → Prop} {gd : Ptr → S → X → X → Option D} {nl : S → X → D}
    {ad : S → X → D → Res X} {dn : S → D → Res X} (hl : LevelOk ok st gd nl ad dn) {ptr : Ptr} {tb : Table S} {a b : SList (Row X)}
    (ha : ListOk ok tb a) (hb : ListOk ok tb b) {d : ListDiff D} (h : getMListDiff ptr gd nl tb a b = some d) :
    applyListDiff ad dn tb a d = applyItems ad dn tb (creates (fun id => decide (id ∈ a.ids)) (newItem nl tb) none b.items)
      ⟨a.items.filterMap (kept ptr gd nl ad dn tb b), b.nextId⟩ := by
  rw [getMListDiff_some h, applyListDiff]
  simp only [SList.step]
  rw [applyItems_append]
  have := phase1 ad dn tb (oldItem ptr gd nl tb b) (kept ptr gd nl ad dn tb b) a.items [] b.nextId ha.2.2.1
    (fun x hx => kept_spec hl ha hb x hx)
  rw [List.nil_append, List.nil_append] at this
  rw [this, Res.bind_ok]

/-- Applying a list diff: the ids and the next id are those of the new list, whatever the two lists are. -/
theorem applyListDiff_any {ok : S → X → Prop} {st : X → X → Prop} {gd : Ptr → S → X → X → Option D} {nl : S → X → D}
    {ad : S → X → D → Res X} {dn : S → D → Res X} (hl : LevelOk ok st gd nl ad dn) {ptr : Ptr} {tb : Table S} {a b : SList (Row X)}
    (ha : ListOk ok tb a) (hb : ListOk ok tb b) {d : ListDiff D} (h : getMListDiff ptr gd nl tb a b = some d) :
    ∃ r, applyListDiff ad dn tb a d = .ok r ∧ r.nextId = b.nextId ∧ r.ids.Perm b.ids ∧
      r.ids.filter (· ∈ a.ids) = a.ids.filter (· ∈ b.ids) ∧ (∀ x ∈ b.items, x.1 ∉ a.ids → x ∈ r.items) := by
  have hids := kept_ids hl (ptr := ptr) ha hb
  have hmem : ∀ i, i ∈ (a.items.filterMap (kept ptr gd nl ad dn tb b)).map (·.1) ↔ i ∈ a.ids ∧ i ∈ b.ids := by
    intro i; rw [hids]; simp
  obtain ⟨R, h1, h2, h3⟩ := phase2_any ad dn tb (fun id => decide (id ∈ a.ids)) (newItem nl tb) b.items
    (a.items.filterMap (kept ptr gd nl ad dn tb b)) none b.nextId hb.2.2.1
    (by rw [hids]; exact List.Nodup.filter _ ha.2.2.1)
    (fun x hx ho => (hmem _).mpr ⟨of_decide_eq_true ho, mem_ids hx⟩)
    (fun x hx ho hm => absurd ((hmem _).mp hm).1 (of_decide_eq_false ho))
    (fun p hp => nomatch hp)
    (fun x hx _ => newItemFromDiff_newItem hl (hb.2.2.2.2.2.2 x hx))
  refine ⟨⟨R, b.nextId⟩, by rw [applyListDiff_phase1 hl ha hb h, h1], rfl, ?_, ?_, ?_⟩
  · have hR := h2.map (·.1)
    have hnd : ((a.items.filterMap (kept ptr gd nl ad dn tb b) ++ b.items.filter fun x => !decide (x.1 ∈ a.ids)).map (·.1)).Nodup := by
      rw [List.map_append, List.nodup_append]
      refine ⟨by rw [hids]; exact List.Nodup.filter _ ha.2.2.1, (List.filter_sublist.map _).nodup hb.2.2.1, ?_⟩
      rintro i hi j hj rfl
      obtain ⟨y, hy, rfl⟩ := List.mem_map.mp hj
      have := (List.mem_filter.mp hy).2
      exact absurd ((hmem _).mp hi).1 (by simpa using this)
    refine hR.trans ((List.perm_ext_iff_of_nodup hnd hb.2.2.1).mpr ?_)
    intro i
    rw [List.map_append, List.mem_append, hmem]
    constructor
    · rintro (hi | hi)
      · exact hi.2
      · obtain ⟨y, hy, rfl⟩ := List.mem_map.mp hi
        exact mem_ids (List.mem_of_mem_filter hy)
    · intro hi
      by_cases hia : i ∈ a.ids
      · exact Or.inl ⟨hia, hi⟩
      · obtain ⟨y, hy, rfl⟩ := List.mem_map.mp hi
        exact Or.inr (List.mem_map.mpr ⟨y, List.mem_filter.mpr ⟨hy, by simpa using hia⟩, rfl⟩)
  · have hmap : ∀ L : List (Nat × Row X), (L.map (·.1)).filter (· ∈ a.ids) = (L.filter fun x => decide (x.1 ∈ a.ids)).map (·.1) := by
      intro L; rw [List.filter_map]; rfl
    have hR : (SList.mk R b.nextId).ids = R.map (·.1) := rfl
    rw [hR, hmap, h3, ← hmap, hids, List.filter_filter]
    refine List.filter_congr ?_
    intro i hi
    simp only [hi, decide_true, Bool.true_and]
  · intro x hx hxa
    refine h2.mem_iff.mpr (List.mem_append_right _ (List.mem_filter.mpr ⟨hx, by simpa using hxa⟩))

/-- The ids come in the order of the new list if the common ones already do. -/
theorem applyListDiff_order {ok : S → X → Prop} {st : X → X → Prop} {gd : Ptr → S → X → X → Option D} {nl : S → X → D}
    {ad : S → X → D → Res X} {dn : S → D → Res X} (hl : LevelOk ok st gd nl ad dn) {ptr : Ptr} {tb : Table S} {a b : SList (Row X)}
    (ha : ListOk ok tb a) (hb : ListOk ok tb b) {d : ListDiff D} (h : getMListDiff ptr gd nl tb a b = some d)
    (hso : SameOrder a b) :
    ∃ r, applyListDiff ad dn tb a d = .ok r ∧ r.nextId = b.nextId ∧ r.ids = b.ids ∧
      r.items.filter (fun x => decide (x.1 ∈ a.ids)) = a.items.filterMap (kept ptr gd nl ad dn tb b) ∧
      r.items.filter (fun x => !decide (x.1 ∈ a.ids)) = b.items.filter (fun x => !decide (x.1 ∈ a.ids)) := by
  have hids := kept_ids hl (ptr := ptr) ha hb
  generalize hK : a.items.filterMap (kept ptr gd nl ad dn tb b) = K at hids
  let g : Nat × Row X → Nat × Row X := fun x => if x.1 ∈ a.ids then ((SList.mk K 0).find x.1).getD x else x
  have hKnd : (SList.mk K 0).ids.Nodup := by
    unfold SList.ids; simp only; rw [hids]; exact List.Nodup.filter _ ha.2.2.1
  have hg : ∀ x ∈ b.items, (g x).1 = x.1 ∧ (decide (x.1 ∈ a.ids) = false → g x = x) := by
    intro x hx
    constructor
    · simp only [g]
      split
      · cases hf : (SList.mk K 0).find x.1 with
        | none => rfl
        | some y => exact (find_some hf).2
      · rfl
    · intro ho
      exact if_neg (of_decide_eq_false ho)
  have hmapids : (b.items.map g).map (·.1) = b.ids := by
    unfold SList.ids
    rw [List.map_map]
    exact List.map_congr_left fun x hx => (hg x hx).1
  have hkey : (b.items.map g).filter (fun x => decide (x.1 ∈ a.ids)) = K := by
    have hmapf : ((b.items.map g).filter (fun x => decide (x.1 ∈ a.ids))).map (·.1) = K.map (·.1) := by
      rw [hids, hso, ← hmapids]
      exact (List.filter_map (f := fun x : Nat × Row X => x.1) (l := b.items.map g) (p := fun i => decide (i ∈ a.ids))).symm
    refine eq_of_keys hKnd ?_ (fun _ h => h) hmapf
    intro y hy
    obtain ⟨hy1, hy2⟩ := List.mem_filter.mp hy
    obtain ⟨x, hx, rfl⟩ := List.mem_map.mp hy1
    rw [(hg x hx).1] at hy2
    have hxa : x.1 ∈ a.ids := of_decide_eq_true hy2
    have hxK : x.1 ∈ (SList.mk K 0).ids := by
      have : x.1 ∈ K.map (·.1) := by rw [hids]; simp [hxa, mem_ids hx]
      exact this
    simp only [g, if_pos hxa]
    cases hf : (SList.mk K 0).find x.1 with
    | none => exact absurd hxK (find_none.mp hf)
    | some z => exact (find_some hf).1
  have := phase2_sorted ad dn tb (fun id => decide (id ∈ a.ids)) (newItem nl tb) (b.items.map g) [] b.nextId
    (by rw [List.nil_append, hmapids]; exact hb.2.2.1)
    (by
      intro y hy ho
      obtain ⟨x, hx, rfl⟩ := List.mem_map.mp hy
      rw [(hg x hx).1] at ho
      rw [(hg x hx).2 ho]
      exact newItemFromDiff_newItem hl (hb.2.2.2.2.2.2 x hx))
  rw [List.nil_append, List.nil_append, hkey, creates_congr _ _ g _ _ hg] at this
  refine ⟨⟨b.items.map g, b.nextId⟩, by rw [applyListDiff_phase1 hl ha hb h, hK]; exact this, rfl, hmapids, hkey, ?_⟩
  simp only
  rw [List.filter_map]
  have hc : (b.items.filter ((fun x => !decide (x.1 ∈ a.ids)) ∘ g)) = b.items.filter (fun x => !decide (x.1 ∈ a.ids)) := by
    refine List.filter_congr fun x hx => ?_
    simp only [Function.comp, (hg x hx).1]
  rw [hc]
  conv_rhs => rw [← List.map_id (b.items.filter _)]
  refine List.map_congr_left fun x hx => ?_
  obtain ⟨h1, h2⟩ := List.mem_filter.mp hx
  exact (hg x h1).2 (by simpa using h2)

/-- An item of the old list becomes the one of the new list. -/
theorem kept_step {ok : S → X → Prop} {st : X → X → Prop} {gd : Ptr → S → X → X → Option D} {nl : S → X → D}
    {ad : S → X → D → Res X} {dn : S → D → Res X} (hl : LevelOk ok st gd nl ad dn) {ptr : Ptr} {tb : Table S} {a b : SList (Row X)}
    (ha : ListOk ok tb a) (hb : ListOk ok tb b) (hst : ItemsStep st a b) (x : Nat × Row X) (hx : x ∈ a.items) :
    kept ptr gd nl ad dn tb b x = b.find x.1 := by
  unfold kept
  cases hf : b.find x.1 with
  | none => rfl
  | some y =>
    obtain ⟨hy, he⟩ := find_some hf
    have hrow := hst x hx y hy he.symm
    simp only
    cases hc : compareItems (fun p => ptr (x.1 :: p)) gd nl tb x.2 y.2 with
    | none =>
      have := compareItems_none hl (ha.2.2.2.2.2.2 x hx) (hb.2.2.2.2.2.2 y hy) hrow hc
      exact congrArg some (Prod.ext he.symm this)
    | some d =>
      have := modifyItem_mod hl (ha.2.2.2.2.2.2 x hx) (hb.2.2.2.2.2.2 y hy) hrow hc
      simp only [this]
      exact congrArg some (Prod.ext he.symm rfl)

/-- Applying a list diff gives the new list. -/
theorem applyListDiff_mod {ok : S → X → Prop} {st : X → X → Prop} {gd : Ptr → S → X → X → Option D} {nl : S → X → D}
    {ad : S → X → D → Res X} {dn : S → D → Res X} (hl : LevelOk ok st gd nl ad dn) {ptr : Ptr} {tb : Table S} {a b : SList (Row X)}
    (ha : ListOk ok tb a) (hb : ListOk ok tb b) (hst : SameOrder a b ∧ ItemsStep st a b) {d : ListDiff D}
    (h : getMListDiff ptr gd nl tb a b = some d) : applyListDiff ad dn tb a d = .ok b := by
  obtain ⟨r, h1, h2, h3, h4, h5⟩ := applyListDiff_order hl ha hb h hst.1
  have hsub : ∀ x ∈ r.items, x ∈ b.items := by
    intro x hx
    by_cases hxa : x.1 ∈ a.ids
    · have : x ∈ a.items.filterMap (kept ptr gd nl ad dn tb b) := by
        rw [← h4]; exact List.mem_filter.mpr ⟨hx, by simpa using hxa⟩
      obtain ⟨y, hy, hk⟩ := List.mem_filterMap.mp this
      rw [kept_step hl ha hb hst.2 y hy] at hk
      exact (find_some hk).1
    · have : x ∈ r.items.filter (fun x => !decide (x.1 ∈ a.ids)) := List.mem_filter.mpr ⟨hx, by simpa using hxa⟩
      rw [h5] at this
      exact List.mem_of_mem_filter this
  have hitems : r.items = b.items := eq_of_keys hb.2.2.1 hsub (fun _ h => h) h3
  rw [h1]
  cases r; cases b
  simp only at h2 hitems
  rw [h2, hitems]

theorem creates_nil {old : Nat → Bool} {ni : Row X → RowDiff D} {prev : Option Nat} {Q : List (Nat × Row X)}
    (h : (creates old ni prev Q).length = 0) : ∀ x ∈ Q, old x.1 = true := by
  induction Q generalizing prev with
  | nil => intro x hx; cases hx
  | cons y Q ih =>
    rw [creates, List.length_append] at h
    intro x hx
    rcases List.mem_cons.mp hx with rfl | hx
    · cases ho : old x.1 with
      | true => rfl
      | false => simp [ho] at h
    · exact ih (prev := some y.1) (by omega) x hx

/-- Lists without difference have the same items in the same order. -/
theorem getMListDiff_none {ok : S → X → Prop} {st : X → X → Prop} {gd : Ptr → S → X → X → Option D} {nl : S → X → D}
    {ad : S → X → D → Res X} {dn : S → D → Res X} (hl : LevelOk ok st gd nl ad dn) {ptr : Ptr} {tb : Table S} {a b : SList (Row X)}
    (ha : ListOk ok tb a) (hb : ListOk ok tb b) (hst : SameOrder a b ∧ ItemsStep st a b)
    (h : getMListDiff ptr gd nl tb a b = none) : a.items = b.items := by
  unfold getMListDiff at h
  simp only at h
  split at h
  · rename_i h0
    rw [List.length_append] at h0
    have hc := creates_nil (Nat.eq_zero_of_add_eq_zero_left h0)
    have hold := List.length_eq_zero_iff.mp (Nat.eq_zero_of_add_eq_zero_right h0)
    have hall : ∀ x ∈ a.items, oldItem ptr gd nl tb b x = none := List.filterMap_eq_nil_iff.mp hold
    have hfind : ∀ x ∈ a.items, x ∈ b.items := by
      intro x hx
      have h1 := hall x hx
      have h2 := kept_step (ad := ad) (dn := dn) hl (ptr := ptr) ha hb hst.2 x hx
      rcases kept_spec (ad := ad) (dn := dn) hl (ptr := ptr) ha hb x hx with ⟨_, h3⟩ | ⟨d, row, h3, _⟩ | ⟨h3, _⟩
      · rw [h3] at h2; exact (find_some h2.symm).1
      · rw [h1] at h3; cases h3
      · rw [h1] at h3; cases h3
    refine eq_of_keys hb.2.2.1 hfind (fun _ h => h) ?_
    have := hst.1
    unfold SameOrder at this
    rw [List.filter_eq_self.mpr, List.filter_eq_self.mpr] at this
    · exact this
    · intro i hi
      obtain ⟨x, hx, rfl⟩ := List.mem_map.mp hi
      exact hc x hx
    · intro i hi
      obtain ⟨x, hx, rfl⟩ := List.mem_map.mp hi
      exact decide_eq_true (mem_ids (hfind x hx))
  · cases h

/-- A whole list is restored. -/
theorem diffToNewList_newList {ok : S → X → Prop} {st : X → X → Prop} {gd : Ptr → S → X → X → Option D} {nl : S → X → D}
    {ad : S → X → D → Res X} {dn : S → D → Res X} (hl : LevelOk ok st gd nl ad dn) {tb : Table S} {b : SList (Row X)}
    (hb : ListOk ok tb b) : diffToNewList ad dn tb (newList nl tb b) = .ok b := by
  have := phase2_sorted ad dn tb (fun _ => false) (newItem nl tb) b.items [] b.nextId hb.2.2.1
    (fun x hx _ => newItemFromDiff_newItem hl (hb.2.2.2.2.2.2 x hx))
  rw [List.nil_append, List.nil_append, List.filter_false] at this
  unfold diffToNewList applyListDiff newList
  exact this

/-- The same holds one level up. -/
theorem LevelOk.succ {ok : S → X → Prop} {st : X → X → Prop} {gd : Ptr → S → X → X → Option D} {nl : S → X → D}
    {ad : S → X → D → Res X} {dn : S → D → Res X} (hl : LevelOk ok st gd nl ad dn) :
    LevelOk (ListOk ok) (ListStep st) (fun ptr tb a b => getMListDiff ptr gd nl tb a b) (fun tb b => newList nl tb b)
      (fun tb a d => applyListDiff ad dn tb a d) (fun tb d => diffToNewList ad dn tb d) where
  new := fun _ _ hb => diffToNewList_newList hl hb
  tot := fun _ _ _ _ _ ha hb h => by
    obtain ⟨r, hr, _⟩ := applyListDiff_any hl ha hb h
    exact ⟨r, hr⟩
  same := fun _ _ a b ha hb hst h => by
    have hi := getMListDiff_none hl ha hb ⟨hst.1, hst.2.2⟩ h
    have hn := hst.2.1 hi
    cases a; cases b
    simp only at hi hn
    rw [hi, hn]
  mod := fun _ _ _ _ _ ha hb hst h => applyListDiff_mod hl ha hb ⟨hst.1, hst.2.2⟩ h

end

theorem levelOk (n : Nat) : LevelOk (ObjOk n) (ObjStep n) (getDiffN n) (newListN n) (applyN n).2 (applyN n).1 := by
  induction n with
  | zero =>
    exact ⟨fun s => Empty.elim s, fun _ s => Empty.elim s, fun _ s => Empty.elim s, fun _ s => Empty.elim s⟩
  | succ n ih => exact ih.succ

end Verif.Diff
