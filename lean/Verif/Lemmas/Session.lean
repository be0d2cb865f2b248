import Verif.Spec.Session
import Verif.Lemmas.AMap
import Verif.Props.SourceLists
/-! # Lemmas about sessions -/
namespace Verif.Named
open Diff Core Source

/-- A list after changes keeps the order of the items it had; new items have ids from the next id on. -/
structure ListKeeps (l : List (Nat × Item)) (ln : Nat) (m : List (Nat × Item)) (mn : Nat) : Prop where
  order : SameOrderN l m
  next : ln ≤ mn
  new : ∀ i ∈ m.map (·.1), i ∈ l.map (·.1) ∨ ln ≤ i

inductive ItemKeeps : LDef → Item → Item → Prop
  | mk {d : LDef} {a b : Item} :
      (∀ k, (∀ id d', d.members.get k ≠ some (id, .cilDef d')) → b.values.get k = none → a.values.get k = none) →
      (∀ k id d' u l ln, d.members.get k = some (id, .milDef d' u) → a.values.get k = some (.mil l ln) →
        ∃ m mn, b.values.get k = some (.mil m mn) ∧ ListKeeps l ln m mn) →
      (∀ k id d' u l ln m mn, d.members.get k = some (id, .milDef d' u) → a.values.get k = some (.mil l ln) →
        b.values.get k = some (.mil m mn) → ∀ x ∈ l, ∀ y ∈ m, x.1 = y.1 → ItemKeeps d' x.2 y.2) →
      (∀ k, b.refs.get k = none → a.refs.get k = none) →
      ItemKeeps d a b

theorem sameOrder_refl (l : List (Nat × Item)) : SameOrderN l l := rfl

theorem listKeeps_refl (l : List (Nat × Item)) (n : Nat) : ListKeeps l n l n := ⟨rfl, le_refl _, fun _ h => .inl h⟩

theorem eq_of_nodup {l : List (Nat × Item)} (h : (l.map (·.1)).Nodup) {x y : Nat × Item} (hx : x ∈ l) (hy : y ∈ l) (he : x.1 = y.1) : x = y :=
  List.inj_on_of_nodup_map h hx hy he

theorem itemKeeps_refl {a : Item} (h : FreshItem a) : ∀ d, ItemKeeps d a a := by
  induction h with
  | @mk values refs _ h2 _ _ ih =>
    intro d
    refine .mk (fun _ _ h => h) (fun k id d' u l ln _ hl => ⟨l, ln, hl, listKeeps_refl l ln⟩) ?_ (fun _ h => h)
    intro k id d' u l ln m mn _ hl hm x hx y hy he
    rw [hl] at hm
    cases hm
    have hk := AMap.mem_of_get hl
    rw [← eq_of_nodup (h2 k l ln hk).1 hx hy he]
    exact ih k l ln hk x hx d'

theorem sameOrder_trans {a b c : List (Nat × Item)} (h1 : SameOrderN a b) (h2 : SameOrderN b c)
    (h : ∀ i ∈ a.map (·.1), i ∈ c.map (·.1) → i ∈ b.map (·.1)) : SameOrderN a c := by
  unfold SameOrderN at *
  generalize a.map (·.1) = A at *
  generalize b.map (·.1) = B at *
  generalize c.map (·.1) = C at *
  have e1 : A.filter (· ∈ C) = (A.filter (· ∈ B)).filter (· ∈ C) := by
    rw [List.filter_filter]
    refine List.filter_congr fun i hi => ?_
    by_cases hc : i ∈ C
    · simp [hc, h i hi hc]
    · simp [hc]
  have e2 : C.filter (· ∈ A) = (C.filter (· ∈ B)).filter (· ∈ A) := by
    rw [List.filter_filter]
    refine List.filter_congr fun i hi => ?_
    by_cases hc : i ∈ A
    · simp [hc, h i hc hi]
    · simp [hc]
  rw [e1, e2, h1, ← h2, List.filter_filter, List.filter_filter]
  refine List.filter_congr fun i _ => ?_
  rw [Bool.and_comm]

theorem ListKeeps.between {a b c : List (Nat × Item)} {an bn cn : Nat} (hf : FreshIds (a, an)) (h1 : ListKeeps a an b bn) (h2 : ListKeeps b bn c cn)
    (i : Nat) (hi : i ∈ a.map (·.1)) (hc : i ∈ c.map (·.1)) : i ∈ b.map (·.1) := by
  rcases h2.new i hc with h | h
  · exact h
  · have h3 := hf.2 i hi
    have h4 := h1.next
    simp only at h3
    omega

theorem ListKeeps.trans {a b c : List (Nat × Item)} {an bn cn : Nat} (hf : FreshIds (a, an)) (h1 : ListKeeps a an b bn) (h2 : ListKeeps b bn c cn) :
    ListKeeps a an c cn := by
  refine ⟨sameOrder_trans h1.order h2.order (ListKeeps.between hf h1 h2), le_trans h1.next h2.next, fun i hi => ?_⟩
  rcases h2.new i hi with h | h
  · exact h1.new i h
  · exact .inr (le_trans h1.next h)

theorem itemKeeps_trans {a : Item} (h : FreshItem a) : ∀ {d : LDef} {b c : Item}, ItemKeeps d a b → ItemKeeps d b c → ItemKeeps d a c := by
  induction h with
  | @mk values refs _ h2 _ _ ih =>
    intro d b c hab hbc
    cases hab with | mk p1 p2 p3 p4 =>
    cases hbc with | mk q1 q2 q3 q4 =>
    refine .mk (fun k hn h => p1 k hn (q1 k hn h)) ?_ ?_ (fun k h => p4 k (q4 k h))
    · intro k id d' u l ln hk hl
      obtain ⟨m, mn, hm, hlm⟩ := p2 k id d' u l ln hk hl
      obtain ⟨o, on, ho, hmo⟩ := q2 k id d' u m mn hk hm
      exact ⟨o, on, ho, ListKeeps.trans (h2 k l ln (AMap.mem_of_get hl)) hlm hmo⟩
    · intro k id d' u l ln o on hk hl ho x hx z hz he
      obtain ⟨m, mn, hm, hlm⟩ := p2 k id d' u l ln hk hl
      obtain ⟨o', on', ho', hmo⟩ := q2 k id d' u m mn hk hm
      rw [ho] at ho'
      cases ho'
      have hk' := AMap.mem_of_get hl
      have hy := ListKeeps.between (h2 k l ln hk') hlm hmo x.1 (List.mem_map.2 ⟨x, hx, rfl⟩) (List.mem_map.2 ⟨z, hz, he.symm⟩)
      obtain ⟨y, hy, hxy⟩ := List.mem_map.1 hy
      exact ih k l ln hk' x hx (p3 k id d' u l ln m mn hk hl hm x hx y hy hxy.symm) (q3 k id d' u m mn o on hk hm ho y hy z hz (hxy.trans he))

/-! ## Single changes -/

theorem freshItem_empty : FreshItem (.mk [] []) := .mk (fun _ _ h => nomatch h) (fun _ _ _ h => nomatch h) (fun _ _ _ h => nomatch h)

theorem freshIds_first {items : List (Nat × Item)} {next : Nat} (h : FreshIds (items, next)) (x : Item) : FreshIds ((next, x) :: items, next + 1) := by
  refine ⟨?_, fun i hi => ?_⟩
  · simp only [List.map_cons, List.nodup_cons]
    refine ⟨fun hc => ?_, h.1⟩
    have := h.2 _ hc
    simp only at this
    omega
  · simp only [List.map_cons, List.mem_cons] at hi
    rcases hi with rfl | hi
    · exact Nat.lt_succ_self _
    · exact Nat.lt_succ_of_lt (h.2 i hi)

theorem freshIds_last {items : List (Nat × Item)} {next : Nat} (h : FreshIds (items, next)) (x : Item) : FreshIds (items ++ [(next, x)], next + 1) := by
  have := freshIds_first h x
  refine ⟨?_, fun i hi => this.2 i ?_⟩
  · have hp : ((items ++ [(next, x)]).map (·.1)).Perm (((next, x) :: items).map (·.1)) := (List.perm_append_singleton _ _).map _
    exact hp.nodup_iff.2 this.1
  · simpa [or_comm] using hi

theorem freshIds_remove {a b : List (Nat × Item)} {x : Nat × Item} {next : Nat} (h : FreshIds (a ++ x :: b, next)) : FreshIds (a ++ b, next) := by
  have hs : (a ++ b).Sublist (a ++ x :: b) := List.Sublist.append_left (List.sublist_cons_self _ _) _
  exact ⟨h.1.sublist (hs.map _), fun i hi => h.2 i ((hs.map _).subset hi)⟩

theorem freshIds_inner {a b : List (Nat × Item)} {i : Nat} {x y : Item} {next : Nat} (h : FreshIds (a ++ (i, x) :: b, next)) :
    FreshIds (a ++ (i, y) :: b, next) := by
  unfold FreshIds at *
  simpa using h

theorem listKeeps_first {items : List (Nat × Item)} {next : Nat} (h : FreshIds (items, next)) (x : Item) :
    ListKeeps items next ((next, x) :: items) (next + 1) := by
  have hn : next ∉ items.map (·.1) := fun hc => by have := h.2 _ hc; simp only at this; omega
  refine ⟨?_, Nat.le_succ _, fun i hi => ?_⟩
  · unfold SameOrderN
    simp only [List.map_cons]
    rw [List.filter_cons_of_neg (by simpa using hn)]
    refine List.filter_congr fun i hi => ?_
    simp [hi]
  · rcases List.mem_cons.1 hi with rfl | hi
    · exact .inr (le_refl _)
    · exact .inl hi

theorem listKeeps_last {items : List (Nat × Item)} {next : Nat} (h : FreshIds (items, next)) (x : Item) :
    ListKeeps items next (items ++ [(next, x)]) (next + 1) := by
  have hn : next ∉ items.map (·.1) := fun hc => by have := h.2 _ hc; simp only at this; omega
  refine ⟨?_, Nat.le_succ _, fun i hi => ?_⟩
  · unfold SameOrderN
    simp only [List.map_append, List.map_cons, List.map_nil, List.filter_append]
    rw [List.filter_cons_of_neg (by simpa using hn)]
    simp only [List.filter_nil, List.append_nil]
    refine List.filter_congr fun i hi => ?_
    simp [hi]
  · simp only [List.map_append, List.map_cons, List.map_nil, List.mem_append, List.mem_singleton] at hi
    rcases hi with hi | rfl
    · exact .inl hi
    · exact .inr (le_refl _)

theorem listKeeps_remove {a b : List (Nat × Item)} {x : Nat × Item} {next : Nat} (h : FreshIds (a ++ x :: b, next)) :
    ListKeeps (a ++ x :: b) next (a ++ b) next := by
  have hn := h.1
  simp only [List.map_append, List.map_cons] at hn
  have hx : x.1 ∉ a.map (·.1) ++ b.map (·.1) := (List.nodup_middle.1 hn |> List.nodup_cons.1).1
  refine ⟨?_, le_refl _, fun i hi => .inl ?_⟩
  · unfold SameOrderN
    simp only [List.map_append, List.map_cons]
    rw [List.filter_append, List.filter_cons_of_neg (by simpa using hx), ← List.filter_append]
    refine List.filter_congr fun i hi => ?_
    have h1 : i ∈ a.map (·.1) ++ b.map (·.1) := hi
    have h2 : i ∈ a.map (·.1) ++ x.1 :: b.map (·.1) := by
      rw [List.mem_append] at h1 ⊢
      rcases h1 with h1 | h1
      · exact .inl h1
      · exact .inr (List.mem_cons_of_mem _ h1)
    rw [decide_eq_true h1, decide_eq_true h2]
  · simp only [List.map_append, List.map_cons, List.mem_append, List.mem_cons] at hi ⊢
    rcases hi with hi | hi
    · exact .inl hi
    · exact .inr (.inr hi)

theorem listKeeps_inner (a b : List (Nat × Item)) (i : Nat) (x y : Item) (next : Nat) : ListKeeps (a ++ (i, x) :: b) next (a ++ (i, y) :: b) next := by
  have e : (a ++ (i, x) :: b).map (·.1) = (a ++ (i, y) :: b).map (·.1) := by simp
  refine ⟨?_, le_refl _, fun j hj => .inl ?_⟩
  · unfold SameOrderN
    rw [e]
  · rw [e]; exact hj

theorem _root_.Verif.Source.FreshItem.vals {values : AMap SabVal} {refs : AMap (Qv String)} (h : FreshItem (.mk values refs)) :
    (∀ k items, (k, SabVal.cil items) ∈ values → ∀ i ∈ items, FreshItem i) ∧
    (∀ k items n, (k, SabVal.mil items n) ∈ values → FreshIds (items, n)) ∧
    (∀ k items n, (k, SabVal.mil items n) ∈ values → ∀ e ∈ items, FreshItem e.2) := by
  cases h with | mk h1 h2 h3 => exact ⟨h1, h2, h3⟩

theorem _root_.Verif.Source.FreshItem.refs {values : AMap SabVal} {refs : AMap (Qv String)} (h : FreshItem (.mk values refs)) (refs' : AMap (Qv String)) :
    FreshItem (.mk values refs') := .mk h.vals.1 h.vals.2.1 h.vals.2.2

/-- the value of a member is replaced -/
theorem _root_.Verif.Source.FreshItem.put {values : AMap SabVal} {refs : AMap (Qv String)} (h : FreshItem (.mk values refs)) (k : String) (v : SabVal)
    (hc : ∀ items, v ≠ .cil items) (hm : ∀ items n, v = .mil items n → FreshIds (items, n) ∧ ∀ e ∈ items, FreshItem e.2) :
    FreshItem (.mk (values.insert k v) refs) := by
  refine .mk ?_ ?_ ?_
  · intro k' items hk
    rcases mem_insert hk with hk | hk
    · exact h.vals.1 k' items hk
    · cases hk; exact absurd rfl (hc items)
  · intro k' items n hk
    rcases mem_insert hk with hk | hk
    · exact h.vals.2.1 k' items n hk
    · cases hk; exact (hm items n rfl).1
  · intro k' items n hk
    rcases mem_insert hk with hk | hk
    · exact h.vals.2.2 k' items n hk
    · cases hk; exact (hm items n rfl).2

theorem mem_middle {a b : List (Nat × Item)} {i : Nat} {x y : Item} {e : Nat × Item} (h : e ∈ a ++ (i, y) :: b) :
    e ∈ a ++ (i, x) :: b ∨ e = (i, y) := by
  simp only [List.mem_append, List.mem_cons] at h ⊢
  rcases h with h | h | h
  · exact .inl (.inl h)
  · exact .inr h
  · exact .inl (.inr (.inr h))

theorem mem_without {a b : List (Nat × Item)} {x e : Nat × Item} (h : e ∈ a ++ b) : e ∈ a ++ x :: b := by
  simp only [List.mem_append, List.mem_cons] at h ⊢
  rcases h with h | h
  · exact .inl h
  · exact .inr (.inr h)

theorem itemOp_fresh {d : LDef} {x y : Item} (h : ItemOp d x y) : FreshItem x → FreshItem y := by
  induction h with
  | set _ _ => exact fun h => h.put _ _ (fun _ h => nomatch h) (fun _ _ h => nomatch h)
  | ref _ _ => exact fun h => h.refs _
  | make _ _ =>
    refine fun h => h.put _ _ (fun _ h => nomatch h) ?_
    intro items n he
    cases he
    exact ⟨⟨List.nodup_nil, fun _ h => nomatch h⟩, fun _ h => nomatch h⟩
  | first _ hv _ _ =>
    intro h
    have hk := AMap.mem_of_get hv
    refine h.put _ _ (fun _ h => nomatch h) ?_
    intro items n he
    cases he
    refine ⟨freshIds_first (h.vals.2.1 _ _ _ hk) _, fun e he => ?_⟩
    rcases List.mem_cons.1 he with rfl | he
    · exact freshItem_empty
    · exact h.vals.2.2 _ _ _ hk e he
  | last _ hv _ _ =>
    intro h
    have hk := AMap.mem_of_get hv
    refine h.put _ _ (fun _ h => nomatch h) ?_
    intro items n he
    cases he
    refine ⟨freshIds_last (h.vals.2.1 _ _ _ hk) _, fun e he => ?_⟩
    rcases List.mem_append.1 he with he | he
    · exact h.vals.2.2 _ _ _ hk e he
    · cases List.mem_singleton.1 he; exact freshItem_empty
  | remove _ hv =>
    intro h
    have hk := AMap.mem_of_get hv
    refine h.put _ _ (fun _ h => nomatch h) ?_
    intro items n he
    cases he
    exact ⟨freshIds_remove (h.vals.2.1 _ _ _ hk), fun e he => h.vals.2.2 _ _ _ hk e (mem_without he)⟩
  | inner _ hv _ ih =>
    intro h
    have hk := AMap.mem_of_get hv
    refine h.put _ _ (fun _ h => nomatch h) ?_
    intro items n he
    cases he
    refine ⟨freshIds_inner (h.vals.2.1 _ _ _ hk), fun e he => ?_⟩
    rcases mem_middle he with he | rfl
    · exact h.vals.2.2 _ _ _ hk e he
    · exact ih (h.vals.2.2 _ _ _ hk _ (List.mem_append_right _ List.mem_cons_self))

/-- the value of one member is replaced -/
theorem itemKeeps_put {d : LDef} {values : AMap SabVal} {refs : AMap (Qv String)} (h : FreshItem (.mk values refs)) (k : String) (v : SabVal)
    (h1 : ∀ id d' u l ln, d.members.get k = some (id, .milDef d' u) → values.get k = some (.mil l ln) → ∃ m mn, v = .mil m mn ∧ ListKeeps l ln m mn)
    (h2 : ∀ id d' u l ln m mn, d.members.get k = some (id, .milDef d' u) → values.get k = some (.mil l ln) → v = .mil m mn →
      ∀ x ∈ l, ∀ y ∈ m, x.1 = y.1 → ItemKeeps d' x.2 y.2) :
    ItemKeeps d (.mk values refs) (.mk (values.insert k v) refs) := by
  have hr := itemKeeps_refl h d
  cases hr with | mk r1 r2 r3 r4 =>
  refine .mk ?_ ?_ ?_ (fun _ h => h)
  · intro k' _ hk
    by_cases he : k' = k
    · subst he
      rw [show (Item.mk (values.insert k' v) refs).values = values.insert k' v from rfl, AMap.get_insert_self] at hk
      cases hk
    · rw [show (Item.mk (values.insert k v) refs).values = values.insert k v from rfl, AMap.get_insert_ne _ _ he] at hk
      exact hk
  · intro k' id d' u l ln hk hl
    by_cases he : k' = k
    · subst he
      obtain ⟨m, mn, rfl, hm⟩ := h1 id d' u l ln hk hl
      exact ⟨m, mn, AMap.get_insert_self _ _ _, hm⟩
    · refine ⟨l, ln, ?_, listKeeps_refl l ln⟩
      rw [show (Item.mk (values.insert k v) refs).values = values.insert k v from rfl, AMap.get_insert_ne _ _ he]
      exact hl
  · intro k' id d' u l ln m mn hk hl hm
    by_cases he : k' = k
    · subst he
      rw [show (Item.mk (values.insert k' v) refs).values = values.insert k' v from rfl, AMap.get_insert_self] at hm
      exact h2 id d' u l ln m mn hk hl (Option.some.inj hm)
    · rw [show (Item.mk (values.insert k v) refs).values = values.insert k v from rfl, AMap.get_insert_ne _ _ he] at hm
      exact r3 k' id d' u l ln m mn hk hl hm

/-- items with the same id in a list with distinct ids, one of them perhaps replaced -/
theorem keeps_of_ids {d : LDef} {l : List (Nat × Item)} {n : Nat} (hf : FreshIds (l, n)) (hi : ∀ e ∈ l, FreshItem e.2) {x y : Nat × Item}
    (hx : x ∈ l) (hy : y ∈ l) (he : x.1 = y.1) : ItemKeeps d x.2 y.2 := by
  rw [← eq_of_nodup hf.1 hx hy he]
  exact itemKeeps_refl (hi x hx) d

theorem keeps_first {d : LDef} {l : List (Nat × Item)} {n : Nat} (hf : FreshIds (l, n)) (hi : ∀ e ∈ l, FreshItem e.2) {z : Item} :
    ∀ x ∈ l, ∀ y ∈ (n, z) :: l, x.1 = y.1 → ItemKeeps d x.2 y.2 := by
  intro x hx y hy he
  rcases List.mem_cons.1 hy with rfl | hy
  · have := hf.2 x.1 (List.mem_map.2 ⟨x, hx, rfl⟩)
    simp only at this he
    omega
  · exact keeps_of_ids hf hi hx hy he

theorem keeps_last {d : LDef} {l : List (Nat × Item)} {n : Nat} (hf : FreshIds (l, n)) (hi : ∀ e ∈ l, FreshItem e.2) {z : Item} :
    ∀ x ∈ l, ∀ y ∈ l ++ [(n, z)], x.1 = y.1 → ItemKeeps d x.2 y.2 := by
  intro x hx y hy he
  refine keeps_first hf hi (z := z) x hx y ?_ he
  simpa [or_comm] using hy

theorem keeps_remove {d : LDef} {a b : List (Nat × Item)} {z : Nat × Item} {n : Nat} (hf : FreshIds (a ++ z :: b, n))
    (hi : ∀ e ∈ a ++ z :: b, FreshItem e.2) : ∀ x ∈ a ++ z :: b, ∀ y ∈ a ++ b, x.1 = y.1 → ItemKeeps d x.2 y.2 :=
  fun _ hx _ hy he => keeps_of_ids hf hi hx (mem_without hy) he

theorem keeps_inner {d : LDef} {a b : List (Nat × Item)} {i : Nat} {z w : Item} {n : Nat} (hf : FreshIds (a ++ (i, z) :: b, n))
    (hi : ∀ e ∈ a ++ (i, z) :: b, FreshItem e.2) (h : ItemKeeps d z w) : ∀ x ∈ a ++ (i, z) :: b, ∀ y ∈ a ++ (i, w) :: b, x.1 = y.1 →
    ItemKeeps d x.2 y.2 := by
  intro x hx y hy he
  by_cases hyi : y = (i, w)
  · subst hyi
    have : x = (i, z) := eq_of_nodup hf.1 hx (List.mem_append_right _ List.mem_cons_self) he
    subst this
    exact h
  · rcases mem_middle (x := z) hy with hy | hy
    · exact keeps_of_ids hf hi hx hy he
    · exact absurd hy hyi

theorem itemOp_keeps {d : LDef} {x y : Item} (h : ItemOp d x y) : FreshItem x → ItemKeeps d x y := by
  induction h with
  | set hk _ =>
    refine fun h => itemKeeps_put h _ _ ?_ ?_
    · intro id d' u l ln hk'; rw [hk] at hk'; cases hk'
    · intro id d' u l ln m mn hk'; rw [hk] at hk'; cases hk'
  | @ref d values refs k id x q vt _ _ =>
    intro h
    have hr := itemKeeps_refl h d
    cases hr with | mk r1 r2 r3 r4 =>
    refine .mk r1 r2 r3 ?_
    intro k' hk
    by_cases he : k' = k
    · subst he
      rw [show (Item.mk values (refs.insert k' q)).refs = refs.insert k' q from rfl, AMap.get_insert_self] at hk
      cases hk
    · rw [show (Item.mk values (refs.insert k q)).refs = refs.insert k q from rfl, AMap.get_insert_ne _ _ he] at hk
      exact hk
  | make _ hv =>
    refine fun h => itemKeeps_put h _ _ ?_ ?_
    · intro id d' u l ln _ hl; rcases hv with hv | hv <;> rw [hv] at hl <;> cases hl
    · intro id d' u l ln m mn _ hl; rcases hv with hv | hv <;> rw [hv] at hl <;> cases hl
  | first _ hv _ _ =>
    intro h
    have hf := h.vals.2.1 _ _ _ (AMap.mem_of_get hv)
    have hi := h.vals.2.2 _ _ _ (AMap.mem_of_get hv)
    refine itemKeeps_put h _ _ ?_ ?_
    · intro id d' u l ln _ hl; rw [hv] at hl; cases hl; exact ⟨_, _, rfl, listKeeps_first hf _⟩
    · intro id d' u l ln m mn _ hl hm; rw [hv] at hl; cases hl; cases hm; exact keeps_first hf hi
  | last _ hv _ _ =>
    intro h
    have hf := h.vals.2.1 _ _ _ (AMap.mem_of_get hv)
    have hi := h.vals.2.2 _ _ _ (AMap.mem_of_get hv)
    refine itemKeeps_put h _ _ ?_ ?_
    · intro id d' u l ln _ hl; rw [hv] at hl; cases hl; exact ⟨_, _, rfl, listKeeps_last hf _⟩
    · intro id d' u l ln m mn _ hl hm; rw [hv] at hl; cases hl; cases hm; exact keeps_last hf hi
  | remove _ hv =>
    intro h
    have hf := h.vals.2.1 _ _ _ (AMap.mem_of_get hv)
    have hi := h.vals.2.2 _ _ _ (AMap.mem_of_get hv)
    refine itemKeeps_put h _ _ ?_ ?_
    · intro id d' u l ln _ hl; rw [hv] at hl; cases hl; exact ⟨_, _, rfl, listKeeps_remove hf⟩
    · intro id d' u l ln m mn _ hl hm; rw [hv] at hl; cases hl; cases hm; exact keeps_remove hf hi
  | inner hk hv _ ih =>
    intro h
    have hf := h.vals.2.1 _ _ _ (AMap.mem_of_get hv)
    have hi := h.vals.2.2 _ _ _ (AMap.mem_of_get hv)
    refine itemKeeps_put h _ _ ?_ ?_
    · intro id d' u l ln _ hl; rw [hv] at hl; cases hl; exact ⟨_, _, rfl, listKeeps_inner _ _ _ _ _ _⟩
    · intro id d' u l ln m mn hk' hl hm
      rw [hk] at hk'
      cases hk'
      rw [hv] at hl
      cases hl
      cases hm
      exact keeps_inner hf hi (ih (hi _ (List.mem_append_right _ List.mem_cons_self)))

end Verif.Named
