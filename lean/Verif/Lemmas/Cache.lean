import Verif.Spec.Cache
import Verif.Lemmas.Lost
/-! Helper lemmas: the phase cache. -/
namespace Verif.History
open VarInt FileName FileHistory Phase

/-! ## Chains are closed under going to the next ancestor -/

/-- One step down the chain. -/
theorem ancestorsRev_step (h : Hist) (hk : Keyed h) (m : Nat) (cu : Bool) (f q : Props) (t : List Props)
    (hne : f.order ≠ []) (hlen : f.order.length ≤ m + 1) (hr : ancestorsRev h f m cu = .ok (f :: q :: t)) :
    ancestorsRev h q m cu = .ok (q :: t) ∧ q.order ≠ [] ∧ q.order.length ≤ m + 1 ∧
      (q.order.length + 1 = f.order.length ∨ q.order.length = m + 1 ∧ f.order.length = m + 1) := by
  have h0 : f.order.length ≠ 0 := by simpa using hne
  have plain : ∀ f : Props, f.order ≠ [] → f.order.length ≤ m + 1 → par h f = .ok (q :: t) →
      ancestorsRev h q m cu = .ok (q :: t) ∧ q.order ≠ [] ∧ q.order.length ≤ m + 1 ∧ q.order.length + 1 = f.order.length := by
    intro f hne hlen hp
    have h2 : 2 ≤ f.order.length := by
      by_contra hc
      rw [par_short h hk f (by omega)] at hp
      cases hp
    obtain ⟨q', t', hq, ht, he⟩ := par_cons h hk f h2 _ hp
    cases he
    have ho := getParent_order h hk f q hq
    have hl : q.order.length = f.order.length - 1 := by rw [ho, List.length_dropLast]
    have hqne : q.order ≠ [] := by
      intro hc; rw [hc] at hl; simp at hl; omega
    refine ⟨?_, hqne, by omega, by omega⟩
    rw [ancestorsRev_plain h q hqne m cu (Or.inl (by omega)), ht]
    rfl
  by_cases hc : f.order.length - 1 = m ∧ cu = true
  · obtain ⟨hm, rfl⟩ := hc
    rw [ancestorsRev_cumulative h f hne m hm] at hr
    obtain ⟨sib, h1, h2⟩ := bind_ok_inv _ _ _ hr
    obtain ⟨pa, h3, h4⟩ := bind_ok_inv _ _ _ h2
    simp only [Res.ok.injEq, List.cons.injEq, true_and] at h4
    cases hl : orderLast f with
    | zero =>
      rw [hl] at h1
      cases h1
      simp only [List.nil_append] at h4
      subst h4
      obtain ⟨g1, g2, g3, g4⟩ := plain f hne hlen h3
      exact ⟨g1, g2, g3, Or.inl g4⟩
    | succ k =>
      rw [hl, siblings] at h1
      cases hq : h.getProps f.prevCtl (orderBase f ++ [k]) with
      | none => rw [hq] at h1; cases h1
      | some q' =>
        rw [hq] at h1
        simp only at h1
        cases hs : siblings h (orderBase f) k q' with
        | err => rw [hs] at h1; cases h1
        | panic => rw [hs] at h1; cases h1
        | ok sib' =>
          rw [hs] at h1
          cases h1
          simp only [List.cons_append, List.cons.injEq] at h4
          obtain ⟨rfl, h4⟩ := h4
          have ho := hk _ _ _ hq
          have hql : q'.order.length = f.order.length := by
            rw [ho]
            simp only [orderBase, List.length_append, List.length_dropLast, List.length_singleton]
            omega
          have hqne : q'.order ≠ [] := by
            intro hcc; rw [hcc] at hql; simp at hql; omega
          refine ⟨?_, hqne, by omega, Or.inr ⟨by omega, by omega⟩⟩
          rw [ancestorsRev_cumulative h q' hqne m (by omega)]
          have hb : orderBase q' = orderBase f := by simp [orderBase, ho]
          have hla : orderLast q' = k := by simp [orderLast, ho]
          rw [hb, hla, hs, Res.bind_ok]
          rw [List.getLastD_cons] at h3
          rw [hql, h3, Res.bind_ok, h4]
  · rw [ancestorsRev_plain h f hne m cu (Or.inl hc)] at hr
    obtain ⟨r, h1, h2⟩ := bind_ok_inv _ _ _ hr
    simp only [Res.ok.injEq, List.cons.injEq, true_and] at h2
    subst h2
    obtain ⟨g1, g2, g3, g4⟩ := plain f hne hlen h1
    exact ⟨g1, g2, g3, Or.inl g4⟩

/-- The chain starts with the file itself. -/
theorem ancestorsRev_head (h : Hist) (m : Nat) (cu : Bool) (f : Props) (l : List Props) (hr : ancestorsRev h f m cu = .ok l) :
    ∃ t, l = f :: t := by
  unfold ancestorsRev at hr
  split at hr
  · cases hr; exact ⟨[], rfl⟩
  · obtain ⟨sib, _, h2⟩ := bind_ok_inv _ _ _ hr
    obtain ⟨pa, _, h4⟩ := bind_ok_inv _ _ _ h2
    cases h4
    exact ⟨_, rfl⟩

/-- A chain of one file: the file has phase 0. -/
theorem ancestorsRev_single (h : Hist) (hk : Keyed h) (m : Nat) (cu : Bool) (f : Props) (hne : f.order ≠ [])
    (hr : ancestorsRev h f m cu = .ok [f]) : f.order.length = 1 := by
  have h0 : f.order.length ≠ 0 := by simpa using hne
  have plain : par h f = .ok [] → f.order.length = 1 := by
    intro hp
    by_contra hc
    obtain ⟨q, t, _, _, he⟩ := par_cons h hk f (by omega) _ hp
    cases he
  by_cases hc : f.order.length - 1 = m ∧ cu = true
  · obtain ⟨hm, rfl⟩ := hc
    rw [ancestorsRev_cumulative h f hne m hm] at hr
    obtain ⟨sib, h1, h2⟩ := bind_ok_inv _ _ _ hr
    obtain ⟨pa, h3, h4⟩ := bind_ok_inv _ _ _ h2
    simp only [Res.ok.injEq, List.cons.injEq, true_and, List.append_eq_nil_iff] at h4
    obtain ⟨rfl, rfl⟩ := h4
    exact plain h3
  · rw [ancestorsRev_plain h f hne m cu (Or.inl hc)] at hr
    obtain ⟨r, h1, h2⟩ := bind_ok_inv _ _ _ hr
    simp only [Res.ok.injEq, List.cons.injEq, true_and] at h2
    subst h2
    exact plain h1

/-- Phases along a chain. -/
theorem ancestorsRev_length (h : Hist) (hk : Keyed h) (m : Nat) (cu : Bool) (t : List Props) (f : Props)
    (hne : f.order ≠ []) (hlen : f.order.length ≤ m + 1) (hr : ancestorsRev h f m cu = .ok (f :: t)) :
    f.order.length = min (t.length + 1) (m + 1) := by
  induction t generalizing f with
  | nil =>
    rw [ancestorsRev_single h hk m cu f hne hr]
    simp
  | cons q t ih =>
    obtain ⟨h1, h2, h3, h4⟩ := ancestorsRev_step h hk m cu f q t hne hlen hr
    have := ih q h2 h3 h1
    simp only [List.length_cons]
    omega

/-- Every file of a chain has the rest of the chain as its own. -/
theorem ancestorsRev_suffix (h : Hist) (hk : Keyed h) (m : Nat) (cu : Bool) (pre : List Props) (f a : Props) (post : List Props)
    (hne : f.order ≠ []) (hlen : f.order.length ≤ m + 1) (hr : ancestorsRev h f m cu = .ok (pre ++ a :: post)) :
    ancestorsRev h a m cu = .ok (a :: post) ∧ a.order ≠ [] ∧ a.order.length ≤ m + 1 := by
  induction pre generalizing f with
  | nil =>
    obtain ⟨t, ht⟩ := ancestorsRev_head h m cu f _ hr
    simp only [List.nil_append, List.cons.injEq] at ht
    obtain ⟨rfl, rfl⟩ := ht
    exact ⟨hr, hne, hlen⟩
  | cons x pre ih =>
    obtain ⟨t, ht⟩ := ancestorsRev_head h m cu f _ hr
    simp only [List.cons_append, List.cons.injEq] at ht
    obtain ⟨rfl, _⟩ := ht
    cases pre with
    | nil =>
      simp only [List.nil_append, List.cons_append] at hr
      obtain ⟨h1, h2, h3, h4⟩ := ancestorsRev_step h hk m cu x a post hne hlen hr
      exact ⟨h1, h2, h3⟩
    | cons y pre =>
      simp only [List.cons_append] at hr
      obtain ⟨h1, h2, h3, h4⟩ := ancestorsRev_step h hk m cu x y _ hne hlen hr
      exact ih y h2 h3 (by simpa using h1)

/-- By position. -/
theorem ancestorsRev_get (h : Hist) (hk : Keyed h) (m : Nat) (cu : Bool) (f : Props) (rev : List Props) (hne : f.order ≠ [])
    (hlen : f.order.length ≤ m + 1) (hr : ancestorsRev h f m cu = .ok rev) (j : Nat) (a : Props)
    (ha : rev.reverse[j]? = some a) :
    ancestorsRev h a m cu = .ok (rev.reverse.take (j + 1)).reverse ∧ a.order.length = min (j + 1) (m + 1) := by
  have hj : j < rev.reverse.length := by
    by_contra hc
    rw [List.getElem?_eq_none (by omega)] at ha
    cases ha
  have hsplit : rev.reverse = rev.reverse.take j ++ a :: rev.reverse.drop (j + 1) := by
    rw [List.getElem?_eq_getElem hj] at ha
    have := List.drop_eq_getElem_cons hj
    rw [Option.some.inj ha] at this
    rw [← this, List.take_append_drop]
  have hrev : rev = (rev.reverse.drop (j + 1)).reverse ++ a :: (rev.reverse.take j).reverse := by
    have := congrArg List.reverse hsplit
    simpa using this
  have htake : (rev.reverse.take (j + 1)).reverse = a :: (rev.reverse.take j).reverse := by
    rw [List.take_succ_eq_append_getElem hj, List.reverse_append]
    rw [List.getElem?_eq_getElem hj] at ha
    rw [Option.some.inj ha]
    simp
  have hr' := hr
  rw [hrev] at hr'
  obtain ⟨h1, h2, h3⟩ := ancestorsRev_suffix h hk m cu _ f a _ hne hlen hr'
  refine ⟨by rw [htake]; exact h1, ?_⟩
  have := ancestorsRev_length h hk m cu _ a h2 h3 h1
  rw [this, List.length_reverse, List.length_take]
  congr 1
  omega

section
variable {S : Type}

/-! ## The invariant of the cache -/

/-- Every entry holds the object saved in its file, under the phase of the file. -/
structure CacheOk (log : List (Props × S)) (c : Cache S) : Prop where
  asc : (c.map (·.1)).Pairwise (· < ·)
  entry : ∀ x ∈ c, ∃ e ∈ log, e.1.filename = x.2.1 ∧ e.1.order.length = x.1 + 1 ∧ e.2 = x.2.2

theorem CacheOk.nil (log : List (Props × S)) : CacheOk log [] := ⟨by simp, by simp⟩

theorem CacheOk.mono {log log' : List (Props × S)} {c : Cache S} (h : CacheOk log c) (hs : ∀ e ∈ log, e ∈ log') :
    CacheOk log' c :=
  ⟨h.asc, fun x hx => by obtain ⟨e, he, h3⟩ := h.entry x hx; exact ⟨e, hs e he, h3⟩⟩

theorem removeUpper_sublist (c : Cache S) (n : Nat) : (removeUpper c n).Sublist c := by
  unfold removeUpper
  have := (List.dropWhile_sublist (fun e : Nat × Bytes × S => decide (n ≤ e.1)) (l := c.reverse)).reverse
  simpa using this

theorem CacheOk.removeUpper {log : List (Props × S)} {c : Cache S} (h : CacheOk log c) (n : Nat) :
    CacheOk log (removeUpper c n) :=
  ⟨h.asc.sublist ((removeUpper_sublist c n).map _), fun x hx => h.entry x ((removeUpper_sublist c n).subset hx)⟩

theorem CacheOk.insert {log : List (Props × S)} {c : Cache S} (h : CacheOk log c) (e : Props × S) (he : e ∈ log) (k : Nat)
    (hk : e.1.order.length = k + 1) : CacheOk log (BMap.insert c k (e.1.filename, e.2)) := by
  refine ⟨insert_ascending _ h.asc _ _, fun x hx => ?_⟩
  rcases mem_insert _ _ _ _ hx with rfl | hx
  · exact ⟨e, he, rfl, hk, rfl⟩
  · exact h.entry x hx

theorem mem_of_get (c : BMap α) (k : Nat) (v : α) (h : BMap.get c k = some v) : (k, v) ∈ c := by
  induction c with
  | nil => cases h
  | cons x c ih =>
    obtain ⟨a, y⟩ := x
    rw [BMap.get] at h
    split at h
    · rename_i he
      cases h
      subst he
      simp
    · simp [ih h]

theorem get_of_mem (c : BMap α) (ha : (c.map (·.1)).Pairwise (· < ·)) (k : Nat) (v : α) (h : (k, v) ∈ c) :
    BMap.get c k = some v := by
  induction c with
  | nil => cases h
  | cons x c ih =>
    obtain ⟨a, y⟩ := x
    rw [List.map_cons, List.pairwise_cons] at ha
    rw [BMap.get]
    rcases List.mem_cons.1 h with h | h
    · cases h; simp
    · have := ha.1 k (List.mem_map.2 ⟨(k, v), h, rfl⟩)
      rw [if_neg (by simp only at this; omega)]
      exact ih ha.2 h

/-- A chain, oldest file first: composing a beginning of it gives the object saved in the last file of that beginning. -/
def Good (o : Opts) (ops : Ops S) (dir : Dir) (log : List (Props × S)) (anc : List Props) : Prop :=
  ∀ (j : Nat) a, anc[j]? = some a → ∃ e ∈ log, e.1 = a ∧ compose ops dir (anc.take (j + 1)) ops.src = .ok e.2 ∧
    a.order.length = min (j + 1) (o.maxPhase + 1)

theorem Good.take {o : Opts} {ops : Ops S} {dir : Dir} {log : List (Props × S)} {anc : List Props}
    (h : Good o ops dir log anc) (n : Nat) : Good o ops dir log (anc.take n) := by
  intro j a ha
  rw [List.getElem?_take] at ha
  split at ha
  · rename_i hj
    obtain ⟨e, he, h1, h2, h3⟩ := h j a ha
    refine ⟨e, he, h1, ?_, h3⟩
    rw [List.take_take, Nat.min_eq_left (by omega)]
    exact h2
  · cases ha

/-- The chains of a reachable state are good. -/
theorem Reach.good {o : Opts} {ops : Ops S} (hlaw : ops.Lawful) {st : St} {log : List (Props × S)}
    (hr : Reach o ops st log) (h : Hist) (hh : st.history = .ok h) (f : Props × S) (hf : f ∈ log) (rev : List Props)
    (hrev : ancestorsRev h f.1 o.maxPhase o.cumulative.isSome = .ok rev) : Good o ops st.dir log rev.reverse := by
  obtain ⟨h', hh', hk⟩ := hr.inv.history
  rw [hh] at hh'
  cases hh'
  intro j a ha
  obtain ⟨_, hne, hlen, _⟩ := hr.inv.small f hf
  obtain ⟨h1, h2⟩ := ancestorsRev_get h (keyed_of_hwf h hk.1) _ _ f.1 rev hne hlen hrev j a ha
  have hmem : ∃ e ∈ log, e.1 = a := by
    have hin : a ∈ rev := List.mem_reverse.1 (List.mem_of_getElem? ha)
    obtain ⟨r, rfl, hshape⟩ := ancestorsRev_shape h f.1 _ _ rev hrev
    rcases List.mem_cons.1 hin with rfl | hin
    · exact ⟨f, hf, rfl⟩
    · obtain ⟨cc, oo, hp⟩ := hshape a hin
      exact ((hk.2 _ _ _).1 hp).1
  obtain ⟨e, he, rfl⟩ := hmem
  refine ⟨e, he, rfl, ?_, h2⟩
  rcases hr.loads hlaw h hh e he with ⟨rev', h3, h4⟩ | hlost
  · rw [h1] at h3
    cases h3
    rw [List.reverse_reverse] at h4
    exact h4
  · rw [lost_no_chain hr h hh e he hlost] at h1
    cases h1

theorem scan_some (c : Cache S) (paths : List Props) (m i : Nat) (h : scan c paths m = some i) :
    i < m ∧ ∃ e p, BMap.get c i = some e ∧ paths[i]? = some p ∧ e.1 = p.filename := by
  induction m with
  | zero => cases h
  | succ m ih =>
    rw [scan] at h
    split at h
    · rename_i e p he hp
      split at h
      · rename_i heq
        cases h
        exact ⟨by omega, e, p, he, hp, heq⟩
      · obtain ⟨h1, h2⟩ := ih h
        exact ⟨by omega, h2⟩
    · obtain ⟨h1, h2⟩ := ih h
      exact ⟨by omega, h2⟩

/-- What the cache gives for a good chain: the object after a beginning of the chain, and the rest of it. -/
theorem getCachedItem_spec {o : Opts} {ops : Ops S} {dir : Dir} {log : List (Props × S)} {anc : List Props} {c : Cache S}
    (hg : Good o ops dir log anc) (hc : CacheOk log c)
    (hu : ∀ e ∈ log, ∀ e' ∈ log, e.1 = e'.1 → e = e') :
    ∃ n root, getCachedItem ops.src c anc o.maxPhase = .ok (root, anc.drop n) ∧ n ≤ anc.length ∧
      compose ops dir (anc.take n) ops.src = .ok root := by
  unfold getCachedItem
  cases hp : getPhaseCache c anc o.maxPhase with
  | none => exact ⟨0, ops.src, by simp, by simp, by simp [compose]⟩
  | some i =>
    simp only
    have key : ∃ e : Bytes × S, BMap.get c i = some e ∧
        ∃ j, j < anc.length ∧ compose ops dir (anc.take (j + 1)) ops.src = .ok e.2 ∧
        (i = o.maxPhase → j + 1 = anc.length) ∧ (i ≠ o.maxPhase → j = i) := by
      have fin : ∀ (e : Bytes × S) (j : Nat) (a : Props), BMap.get c i = some e → anc[j]? = some a → e.1 = a.filename →
          compose ops dir (anc.take (j + 1)) ops.src = .ok e.2 ∧ i = min j o.maxPhase := by
        intro e j a he ha hf
        obtain ⟨x, hx, h1, h2, h3⟩ := hg j a ha
        obtain ⟨y, hy, g1, g2, g3⟩ := hc.entry (i, e) (mem_of_get _ _ _ he)
        simp only at g1 g2 g3
        have : y = x := hu y hy x hx (by
          apply filename_injective
          rw [g1, hf, h1])
        subst this
        refine ⟨by rw [h2, g3], ?_⟩
        rw [h1] at g2
        omega
      unfold getPhaseCache at hp
      split at hp
      · rename_i x p hx hl
        split at hp
        · rename_i heq
          cases hp
          have hget : BMap.get c x.1 = some x.2 := get_of_mem c hc.asc _ _ (List.mem_of_getLast? hx)
          have hne : anc ≠ [] := by rintro rfl; cases hl
          have hpos : 0 < anc.length := List.length_pos_iff.2 hne
          have ha : anc[anc.length - 1]? = some p := by
            rw [← List.getLast?_eq_getElem?]; exact hl
          obtain ⟨f1, f2⟩ := fin x.2 (anc.length - 1) p hget ha heq
          refine ⟨x.2, hget, anc.length - 1, by omega, f1, fun _ => by omega, fun hne => by omega⟩
        · obtain ⟨h1, e, q, h2, h3, h4⟩ := scan_some _ _ _ _ hp
          obtain ⟨f1, f2⟩ := fin e i q h2 h3 h4
          refine ⟨e, h2, i, ?_, f1, fun _ => by omega, fun _ => rfl⟩
          by_contra hcc
          rw [List.getElem?_eq_none (by omega)] at h3
          cases h3
      · cases hp
    obtain ⟨e, he, j, hj, hcomp, h1, h2⟩ := key
    rw [he]
    simp only
    by_cases him : i = o.maxPhase
    · rw [if_pos him]
      refine ⟨j + 1, e.2, ?_, by omega, hcomp⟩
      rw [h1 him, List.drop_length]
    · rw [if_neg him]
      have := h2 him
      subst this
      exact ⟨j + 1, e.2, rfl, by omega, hcomp⟩

theorem compose_take_drop (ops : Ops S) (dir : Dir) (anc : List Props) (n : Nat) (root : S)
    (h : compose ops dir (anc.take n) ops.src = .ok root) :
    compose ops dir (anc.drop n) root = compose ops dir anc ops.src := by
  conv => rhs; rw [← List.take_append_drop n anc]
  rw [compose_append, h, Res.bind_ok]

/-- Applying with the callback: the same result, and the cache stays good. -/
theorem applyCaching_spec {o : Opts} {ops : Ops S} {dir : Dir} {log : List (Props × S)} {anc : List Props}
    (hg : Good o ops dir log anc) (rest : List Props) (n cur : Nat) (root : S) (c : Cache S) (hr : anc.drop n = rest)
    (hcur : cur < o.maxPhase → cur = n)
    (hroot : compose ops dir (anc.take n) ops.src = .ok root) (hc : CacheOk log c) :
    (applyCaching ops dir o.maxPhase rest cur root c).2 = compose ops dir rest root ∧
      CacheOk log (applyCaching ops dir o.maxPhase rest cur root c).1 := by
  induction rest generalizing n cur root c with
  | nil => exact ⟨rfl, hc⟩
  | cons p rest ih =>
    have hn : n < anc.length := by
      by_contra hcc
      rw [List.drop_eq_nil_of_le (by omega)] at hr
      cases hr
    have hp : anc[n]? = some p := by
      have h0 := List.drop_eq_getElem_cons hn
      rw [hr] at h0
      rw [List.getElem?_eq_getElem hn]
      cases h0; rfl
    have hr' : anc.drop (n + 1) = rest := by
      have h0 := List.drop_eq_getElem_cons hn
      rw [hr] at h0
      cases h0; rfl
    have htake : anc.take (n + 1) = anc.take n ++ [p] := by
      rw [List.take_succ_eq_append_getElem hn]
      rw [List.getElem?_eq_getElem hn] at hp
      rw [Option.some.inj hp]
    rw [applyCaching, compose]
    cases hread : dir.read p.filename with
    | none => exact ⟨rfl, hc⟩
    | some f =>
      simp only
      cases happ : ops.app root f.2 with
      | err => exact ⟨rfl, hc⟩
      | panic => exact ⟨rfl, hc⟩
      | ok s' =>
        have hroot' : compose ops dir (anc.take (n + 1)) ops.src = .ok s' := by
          rw [htake, compose_append, hroot, Res.bind_ok, compose, hread]
          simp only
          rw [happ]
          rfl
        simp only [Res.bind_ok]
        split
        · rename_i hlt
          have := hcur hlt
          subst this
          obtain ⟨e, he, h1, h2, h3⟩ := hg cur p hp
          rw [hroot'] at h2
          cases h2
          subst h1
          exact ih (cur + 1) (cur + 1) e.2 _ hr' (fun _ => rfl) hroot' (hc.insert e he cur (by omega))
        · rename_i hlt
          exact ih (n + 1) cur s' c hr' (fun h => absurd h hlt) hroot' hc

theorem applyForSave_spec {o : Opts} {ops : Ops S} {dir : Dir} {log : List (Props × S)} {anc : List Props} {c : Cache S}
    (hg : Good o ops dir log anc) (hc : CacheOk log c) (hu : ∀ e ∈ log, ∀ e' ∈ log, e.1 = e'.1 → e = e') :
    (applyForSave o ops dir anc c).2 = compose ops dir anc ops.src ∧ CacheOk log (applyForSave o ops dir anc c).1 := by
  obtain ⟨n, root, h1, h2, h3⟩ := getCachedItem_spec hg hc hu
  unfold applyForSave
  rw [h1]
  simp only
  have hlen : anc.length - (anc.drop n).length = n := by rw [List.length_drop]; omega
  rw [hlen]
  obtain ⟨g1, g2⟩ := applyCaching_spec hg (anc.drop n) n n root (removeUpper c n) rfl (fun _ => rfl) h3 (hc.removeUpper n)
  exact ⟨by rw [g1, compose_take_drop ops dir anc n root h3], g2⟩

theorem applyForLoad_spec {o : Opts} {ops : Ops S} {dir : Dir} {log : List (Props × S)} {anc : List Props} {c : Cache S}
    (hg : Good o ops dir log anc) (hc : CacheOk log c) (hu : ∀ e ∈ log, ∀ e' ∈ log, e.1 = e'.1 → e = e') :
    applyForLoad o ops dir anc c = compose ops dir anc ops.src := by
  obtain ⟨n, root, h1, h2, h3⟩ := getCachedItem_spec hg hc hu
  unfold applyForLoad
  rw [h1, Res.bind_ok]
  exact compose_take_drop ops dir anc n root h3

/-- The newest entry of the cache is that of the file `p`. -/
def Top (p : Props) (s : S) (c : Cache S) : Prop :=
  BMap.get c (phase p) = some (p.filename, s) ∧ ∀ k v, BMap.get c k = some v → k ≤ phase p

/-- The order of a new file tells its phase. -/
theorem nextOrder_phase (o : Opts) (shift : Shift) (anc : List Props) (last : Props) (d : Data) (next : Nat)
    (hne : last.order ≠ []) (hlen : last.order.length ≤ o.maxPhase + 1) (hd : d.length = last.order.length)
    (hn : calcNextPhase o shift d = .ok next) (ord : List Nat) (prev : Nat)
    (h : nextOrder anc last next o.maxPhase = .ok (ord, prev)) : ord.length = next + 1 := by
  have h0 : last.order.length ≠ 0 := by simpa using hne
  unfold nextOrder at h
  split at h
  · rename_i h1
    cases h
    have hnx : next = d.length := by
      unfold calcNextPhase at hn
      rw [if_pos (by omega)] at hn
      cases hn; rfl
    simp only [List.length_append, List.length_singleton]
    omega
  · rename_i h1
    split at h
    · cases h
      rw [length_incLast _ hne]
      omega
    · split at h
      · cases h
      · rename_i h3
        split at h
        · cases h
          have htne : last.order.take (next + 1) ≠ [] := by
            intro hc
            have := congrArg List.length hc
            rw [List.length_take, List.length_nil] at this
            omega
          rw [length_incLast _ htne, List.length_take]
          omega
        · cases h

theorem setCache_ok {log : List (Props × S)} {c : Cache S} (hc : CacheOk log c) (p : Props) (s : S) (n : Nat)
    (hn : p.order.length = n + 1) : CacheOk ((p, s) :: log) (setCache c p.filename s n) :=
  ((hc.mono (fun e he => by simp [he])).removeUpper n).insert (p, s) (by simp) n hn

theorem Inv.unique {o : Opts} {st : St} {log : List (Props × S)} (hi : Inv o st log) :
    ∀ e ∈ log, ∀ e' ∈ log, e.1 = e'.1 → e = e' := by
  intro e he e' he' h
  exact key_inj_of_sorted log hi.sorted e e' he he' (by rw [h])

theorem dropWhile_desc (l : List (Nat × α)) (h : l.Pairwise (fun a b => b.1 < a.1)) (n : Nat) :
    l.dropWhile (fun e => decide (n ≤ e.1)) = l.filter fun e => decide (e.1 < n) := by
  induction l with
  | nil => rfl
  | cons x l ih =>
    rw [List.pairwise_cons] at h
    by_cases hx : n ≤ x.1
    · rw [List.dropWhile_cons_of_pos (by simpa using hx), ih h.2, List.filter_cons_of_neg (by simpa using hx)]
    · rw [List.dropWhile_cons_of_neg (by simpa using hx), List.filter_cons_of_pos (by simpa using hx)]
      congr 1
      symm
      rw [List.filter_eq_self]
      intro y hy
      have := h.1 y hy
      simp only [decide_eq_true_eq]
      omega

/-- Exactly the entries of lower phases stay. -/
theorem removeUpper_eq (c : Cache S) (h : (c.map (·.1)).Pairwise (· < ·)) (n : Nat) :
    removeUpper c n = c.filter fun e => decide (e.1 < n) := by
  unfold removeUpper
  rw [dropWhile_desc _ (by rw [List.pairwise_reverse]; exact List.pairwise_map.1 h), List.filter_reverse, List.reverse_reverse]

theorem setCache_top (c : Cache S) (h : (c.map (·.1)).Pairwise (· < ·)) (p : Bytes) (s : S) (n : Nat) :
    BMap.get (setCache c p s n) n = some (p, s) ∧ ∀ k v, BMap.get (setCache c p s n) k = some v → k ≤ n := by
  unfold setCache
  refine ⟨by rw [get_insert, if_pos rfl], fun k v hk => ?_⟩
  rw [get_insert] at hk
  split at hk
  · omega
  · have := mem_of_get _ _ _ hk
    rw [removeUpper_eq c h] at this
    have := (List.mem_filter.1 this).2
    simp only [decide_eq_true_eq] at this
    omega

/-- What is needed of a state: the chains of files that can be read are good. -/
structure Stands (o : Opts) (ops : Ops S) (st : St) (log : List (Props × S)) (h : Hist) : Prop where
  hist : st.history = .ok h
  good : ∀ f ∈ log, ∀ x, st.dir.read f.1.filename = some x → ∀ rev,
    ancestorsRev h f.1 o.maxPhase o.cumulative.isSome = .ok rev → Good o ops st.dir log rev.reverse
  unique : ∀ e ∈ log, ∀ e' ∈ log, e.1 = e'.1 → e = e'
  small : ∀ e ∈ log, e.1.order ≠ [] ∧ e.1.order.length ≤ o.maxPhase + 1
  head : ∀ e ∈ log, ∀ x, st.dir.read e.1.filename = some x → x.1.length = e.1.order.length
  fresh : log.length < 10 ^ 8 - 1 →
    analyze (calcFilename none (newControl h) none [0]) = .ok (some ⟨newControl h, newControl h, [0], none⟩)
  base : ∀ r p, st.base = some (r, p) → ∃ e ∈ log, e.1 = p
  comes : ∀ b newest f, (∃ e ∈ log, e.1 = b) → fromFile o h b newest = some f → ∃ e ∈ log, e.1 = f
  listed : ∀ p ∈ h.listFiles, ∃ e ∈ log, e.1 = p ∧ ∃ x, st.dir.read p.filename = some x
  named : ∀ e ∈ log, analyze e.1.filename = .ok (some e.1)

theorem Reach.stands {o : Opts} {ops : Ops S} (hlaw : ops.Lawful) {st : St} {log : List (Props × S)}
    (hr : Reach o ops st log) (h : Hist) (hh : st.history = .ok h) : Stands o ops st log h := by
  obtain ⟨h', hh', hk⟩ := hr.inv.history
  rw [hh] at hh'
  cases hh'
  refine ⟨hh, fun f hf _ _ rev hrev => hr.good hlaw h hh f hf rev hrev, hr.inv.unique, fun e he => ?_, fun e he x hx => ?_,
    fun hl => (start_new_props hr.inv hl h hk).1, hr.inv.base, fun b newest f hb hf => fromFile_mem h hk b newest f hb hf,
    fun p hp => ?_, hr.inv.analyze_file⟩
  · obtain ⟨_, h1, h2, _⟩ := hr.inv.small e he
    exact ⟨h1, h2⟩
  · obtain ⟨f, h1, h2⟩ := hr.inv.files e he
    rw [hx] at h1
    cases h1
    exact h2
  · rw [mem_listFiles h hk.1, hk.2] at hp
    obtain ⟨⟨e, he, rfl⟩, _⟩ := hp
    obtain ⟨f, h1, _⟩ := hr.inv.files e he
    exact ⟨e, he, rfl, f, h1⟩

/-- `derive_impl` with the cache does what it does without. -/
theorem deriveImplC_spec {o : Opts} {ops : Ops S} {st : St} {log : List (Props × S)} (h : Hist)
    (hr : Stands o ops st log h) (shift : Shift) (s : S) (c : Cache S) (hc : CacheOk log c)
    (f : Props × S) (hf : f ∈ log) :
    (deriveImplC o shift ops none s h st.dir c f.1).2 = deriveImpl o shift ops none s h st.dir f.1 ∧
      (∀ dir p, deriveImpl o shift ops none s h st.dir f.1 = .ok (dir, p) →
        CacheOk ((p, s) :: log) (deriveImplC o shift ops none s h st.dir c f.1).1 ∧
          Top p s (deriveImplC o shift ops none s h st.dir c f.1).1) ∧
      ((∀ x, deriveImpl o shift ops none s h st.dir f.1 ≠ .ok x) →
        CacheOk log (deriveImplC o shift ops none s h st.dir c f.1).1) := by
  unfold deriveImplC deriveImpl
  cases hnew : h.newest with
  | none => exact ⟨rfl, (fun _ _ h => nomatch h), fun _ => hc⟩
  | some np =>
    simp only
    cases hread : st.dir.read f.1.filename with
    | none => exact ⟨rfl, (fun _ _ h => nomatch h), fun _ => hc⟩
    | some file =>
      simp only
      cases hn : calcNextPhase o shift file.1 with
      | err => exact ⟨rfl, (fun _ _ h => nomatch h), fun _ => hc⟩
      | panic => exact ⟨rfl, (fun _ _ h => nomatch h), fun _ => hc⟩
      | ok next =>
        simp only [Res.bind_ok]
        cases hrev : ancestorsRev h f.1 o.maxPhase o.cumulative.isSome with
        | err => exact ⟨rfl, (fun _ _ h => nomatch h), fun _ => hc⟩
        | panic => exact ⟨rfl, (fun _ _ h => nomatch h), fun _ => hc⟩
        | ok rev =>
          simp only [Res.bind_ok]
          cases hdep : createDependencies rev.reverse next (if np = f.1 then np.control else np.control + 1) none o.maxPhase
              o.cumulative.isSome with
          | err => exact ⟨rfl, (fun _ _ h => nomatch h), fun _ => hc⟩
          | panic => exact ⟨rfl, (fun _ _ h => nomatch h), fun _ => hc⟩
          | ok dp =>
            obtain ⟨deps, p⟩ := dp
            simp only [Res.bind_ok]
            obtain ⟨hne, hlen⟩ := hr.small f hf
            have hgood := hr.good f hf file hread rev hrev
            obtain ⟨t, rfl⟩ := ancestorsRev_head _ _ _ _ _ hrev
            obtain ⟨ord, prev, h1, h2, h3⟩ := createDependencies_ok (f.1 :: t).reverse f.1 (by simp) _ _ _ _ _ _ _ hdep
            have hgd : Good o ops st.dir log deps := by
              rw [h3]
              split
              · exact hgood
              · exact hgood.take next
            obtain ⟨g1, g2⟩ := applyForSave_spec hgd hc hr.unique
            have hphase : p.order.length = next + 1 := by
              have hf2 := hr.head f hf file hread
              rw [h2]
              exact nextOrder_phase o shift _ f.1 file.1 next hne hlen hf2 hn ord prev h1
            rw [← g1]
            cases hap : applyForSave o ops st.dir deps c with
            | mk c' res =>
              rw [hap] at g2
              cases res with
              | err => exact ⟨rfl, (fun _ _ h => nomatch h), fun _ => g2⟩
              | panic => exact ⟨rfl, (fun _ _ h => nomatch h), fun _ => g2⟩
              | ok composed =>
                simp only [Res.bind_ok]
                cases hdi : ops.diff composed s with
                | err => exact ⟨rfl, (fun _ _ h => nomatch h), fun _ => g2⟩
                | panic => exact ⟨rfl, (fun _ _ h => nomatch h), fun _ => g2⟩
                | ok d =>
                  refine ⟨rfl, fun dir q hq => ?_, fun hno => absurd rfl (hno _)⟩
                  simp only [Res.bind_ok, Res.ok.injEq, Prod.mk.injEq] at hq
                  rw [← hq.2]
                  refine ⟨setCache_ok g2 p s next hphase, ?_⟩
                  have hph : phase p = next := by unfold phase; omega
                  rw [Top, hph]
                  exact setCache_top c' g2.asc _ s next

/-- `save` with the cache does what it does without. -/
theorem Stands.saveC_spec {o : Opts} {ops : Ops S} {st : St} {log : List (Props × S)} {h : Hist}
    (hr : Stands o ops st log h) (hl : log.length < 10 ^ 8 - 1) (shift : Shift) (rid : Nat) (s : S) (c : Cache S)
    (hc : CacheOk log c) :
    (saveC o shift ops st c rid none s).2 = save o shift ops st rid none s ∧
      (∀ st' p, save o shift ops st rid none s = (st', .ok p) → CacheOk ((p, s) :: log) (saveC o shift ops st c rid none s).1 ∧
        Top p s (saveC o shift ops st c rid none s).1) ∧
      ((∀ p, (save o shift ops st rid none s).2 ≠ .ok p) → CacheOk log (saveC o shift ops st c rid none s).1) := by
  have hh := hr.hist
  have hnew : (saveNewC o ops st c h rid none s).2 = saveNew ops st h rid none s ∧
      (∀ st' p, saveNew ops st h rid none s = (st', .ok p) → CacheOk ((p, s) :: log) (saveNewC o ops st c h rid none s).1 ∧
        Top p s (saveNewC o ops st c h rid none s).1) ∧
      ((∀ p, (saveNew ops st h rid none s).2 ≠ .ok p) → CacheOk log (saveNewC o ops st c h rid none s).1) := by
    obtain ⟨g1, g2⟩ := applyForSave_spec (o := o) (ops := ops) (dir := st.dir) (log := log) (anc := []) (c := c)
      (by intro j a ha; simp at ha) hc hr.unique
    rw [compose] at g1
    unfold saveNewC saveNew writePhase0C writePhase0
    cases hap : applyForSave o ops st.dir [] c with
    | mk c' res =>
      rw [hap] at g1 g2
      simp only at g1
      subst g1
      simp only
      cases hd : ops.diff ops.src s with
      | err => exact ⟨rfl, (fun _ _ h => nomatch h), fun _ => g2⟩
      | panic => exact ⟨rfl, (fun _ _ h => nomatch h), fun _ => g2⟩
      | ok d =>
        simp only [hr.fresh hl, Res.bind_ok]
        refine ⟨by trivial, fun st' p hp => ?_, fun hno => absurd rfl (hno _)⟩
        simp only [Prod.mk.injEq, Res.ok.injEq] at hp
        rw [← hp.2]
        have h1 := setCache_ok g2 (⟨newControl h, newControl h, [0], none⟩ : Props) s 0 (by simp)
        have h2 : Top (⟨newControl h, newControl h, [0], none⟩ : Props) s _ := setCache_top c' g2.asc _ s 0
        simp only [Props.filename, if_true] at h1 h2
        exact ⟨h1, h2⟩
  unfold saveC save
  rw [hh]
  simp only
  cases hb : st.baseFor rid with
  | none => exact hnew
  | some b =>
    cases hn : h.newest with
    | none => exact hnew
    | some newest =>
      simp only
      unfold saveDerivedC saveDerived
      cases hfr : fromFile o h b newest with
      | none => exact ⟨rfl, (fun _ _ h => nomatch h), fun _ => hc⟩
      | some f =>
        simp only
        have hbl : ∃ e ∈ log, e.1 = b := by
          unfold St.baseFor at hb
          split at hb
          · rename_i r q hq
            split at hb
            · cases hb; exact hr.base _ _ hq
            · cases hb
          · cases hb
        obtain ⟨e, he, rfl⟩ := hr.comes b newest f hbl hfr
        obtain ⟨g1, g2, g3⟩ := deriveImplC_spec h hr shift s c hc e he
        cases hder : deriveImplC o shift ops none s h st.dir c e.1 with
        | mk c' res =>
          rw [hder] at g1 g2 g3
          simp only at g1 g2 g3
          rw [← g1] at g2 g3 ⊢
          cases res with
          | err => exact ⟨rfl, (fun _ _ h => nomatch h), fun _ => g3 (by simp)⟩
          | panic => exact ⟨rfl, (fun _ _ h => nomatch h), fun _ => g3 (by simp)⟩
          | ok x =>
            obtain ⟨dir, p⟩ := x
            refine ⟨rfl, fun st' q hq => ?_, fun hno => absurd rfl (hno _)⟩
            simp only [Prod.mk.injEq, Res.ok.injEq] at hq
            rw [← hq.2]
            exact g2 dir p rfl

theorem saveC_spec {o : Opts} {ops : Ops S} (hlaw : ops.Lawful) {st : St} {log : List (Props × S)}
    (hr : Reach o ops st log) (hl : log.length < 10 ^ 8 - 1) (shift : Shift) (rid : Nat) (s : S) (c : Cache S)
    (hc : CacheOk log c) :
    (saveC o shift ops st c rid none s).2 = save o shift ops st rid none s ∧
      (∀ st' p, save o shift ops st rid none s = (st', .ok p) → CacheOk ((p, s) :: log) (saveC o shift ops st c rid none s).1 ∧
        Top p s (saveC o shift ops st c rid none s).1) ∧
      ((∀ p, (save o shift ops st rid none s).2 ≠ .ok p) → CacheOk log (saveC o shift ops st c rid none s).1) := by
  obtain ⟨h, hh, _⟩ := hr.inv.history
  exact (hr.stands hlaw h hh).saveC_spec hl shift rid s c hc

theorem Stands.loadC_spec {o : Opts} {ops : Ops S} {st : St} {log : List (Props × S)} {h : Hist}
    (hr : Stands o ops st log h) (c : Cache S) (hc : CacheOk log c) (p : Props)
    (hp : p ∈ h.listFiles) : loadC o ops st.dir c h p = load o ops st.dir h p := by
  obtain ⟨e, he, rfl, x, hx⟩ := hr.listed p hp
  unfold loadC load
  rw [hr.named e he]
  simp only [Res.bind_ok]
  cases hrev : ancestorsRev h e.1 o.maxPhase o.cumulative.isSome with
  | err => rfl
  | panic => rfl
  | ok rev =>
    simp only [Res.bind_ok]
    exact applyForLoad_spec (hr.good e he x hx rev hrev) hc hr.unique

theorem Stands.loadFileC_spec {o : Opts} {ops : Ops S} {st : St} {log : List (Props × S)} {h : Hist}
    (hr : Stands o ops st log h) (c : Cache S) (hc : CacheOk log c) (p : Props)
    (hp : p ∈ h.listFiles) (rid : Nat) : loadFileC o ops st c h p rid = loadFile o ops st h p rid := by
  unfold loadFileC loadFile
  rw [hr.loadC_spec c hc p hp]
  cases load o ops st.dir h p <;> rfl

theorem loadFileC_spec {o : Opts} {ops : Ops S} (hlaw : ops.Lawful) {st : St} {log : List (Props × S)}
    (hr : Reach o ops st log) (h : Hist) (hh : st.history = .ok h) (c : Cache S) (hc : CacheOk log c) (p : Props)
    (hp : p ∈ h.listFiles) (rid : Nat) : loadFileC o ops st c h p rid = loadFile o ops st h p rid :=
  (hr.stands hlaw h hh).loadFileC_spec c hc p hp rid

/-- States reached with the cache are reached without it. -/
theorem ReachC.reach {o : Opts} {ops : Ops S} (hlaw : ops.Lawful) {st : St} {c : Cache S} {log : List (Props × S)}
    (hr : ReachC o ops st c log) : Reach o ops st log ∧ CacheOk log c := by
  induction hr with
  | start dir hn hf => exact ⟨.start dir hn hf, .nil _⟩
  | save shift st st' c c' log rid s p hr hl hs ih =>
    obtain ⟨h1, h2, h3⟩ := saveC_spec hlaw ih.1 hl shift rid s c ih.2
    rw [hs] at h1 h2
    exact ⟨.save shift st st' log rid s p ih.1 hl h1.symm, (h2 st' p h1.symm).1⟩
  | fail shift st st' c c' log rid s r hr hl hs hf ih =>
    obtain ⟨h1, h2, h3⟩ := saveC_spec hlaw ih.1 hl shift rid s c ih.2
    rw [hs] at h1 h3
    refine ⟨.fail shift st st' log rid s r ih.1 hl h1.symm hf, h3 ?_⟩
    rw [← h1]
    exact hf
  | load st c log h p rid hr hh hp ih =>
    rw [loadFileC_spec hlaw ih.1 h hh c ih.2 p hp rid]
    exact ⟨.load st log h p rid ih.1 hh hp, ih.2⟩
  | list st c dir log hr hp ih => exact ⟨.list st dir log ih.1 hp, ih.2⟩
  | restart st c log hr ih => exact ⟨.restart st log ih.1, .nil _⟩

end
end Verif.History
