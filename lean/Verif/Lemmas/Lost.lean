import Verif.Lemmas.Chain
/-! Helper lemmas: lost files cannot be loaded. -/
namespace Verif.History
open VarInt FileName FileHistory Phase

section
variable {S : Type}

/-- A file derived from another control number has no ancestor in its own control number. -/
def Forked (log : List (Props × S)) : Prop :=
  ∀ q ∈ log, q.1.prevCtl ≠ q.1.control → ∀ i, i < q.1.order.length → ∀ e ∈ log, key e.1 ≠ q.1.control :: q.1.order.take i

/-- Where the control number changes along a chain, there is a derived file. -/
theorem par_control (h : Hist) {log : List (Props × S)} (hk : Knows h log) (n : Nat) (z : Props) (hn : z.order.length = n)
    (hz : ∃ e ∈ log, e.1 = z) (t : List Props) (ht : par h z = .ok t) (a : Props) (ha : a ∈ t) :
    (a.control = z.control ∧ ∃ e ∈ log, e.1 = a) ∨
      ∃ x ∈ log, x.1.control = z.control ∧ x.1.prevCtl ≠ x.1.control ∧ a.order.length < x.1.order.length ∧
        x.1.order <+: z.order := by
  induction n generalizing z t with
  | zero =>
    rw [par_short h (keyed_of_hwf h hk.1) z (by omega)] at ht
    cases ht
    simp at ha
  | succ n ih =>
    by_cases h2 : 2 ≤ z.order.length
    · have hkd := keyed_of_hwf h hk.1
      obtain ⟨q, t', hq, ht', rfl⟩ := par_cons h hkd z h2 t ht
      obtain ⟨hql, hqk⟩ := (hk.2 _ _ _).1 hq
      have hqo := getParent_order h hkd z q hq
      have hqc : q.control = z.prevCtl := by
        simp only [key, List.cons.injEq] at hqk
        exact hqk.1
      obtain ⟨ez, hez, rfl⟩ := hz
      have hlen : q.order.length = n := by rw [hqo, List.length_dropLast, hn]; rfl
      have hal : a.order.length < ez.1.order.length := by
        rcases List.mem_cons.1 ha with rfl | ha
        · omega
        · obtain ⟨i, hi⟩ := List.getElem?_of_mem (List.mem_reverse.2 ha)
          have := ((par_struct h hkd _ q rfl t' ht').2 i a hi).1
          have h3 := congrArg List.length this
          rw [List.length_take] at h3
          omega
      by_cases hc : ez.1.prevCtl = ez.1.control
      · rcases List.mem_cons.1 ha with rfl | ha
        · left
          exact ⟨by rw [hqc, hc], hql⟩
        · rcases ih q hlen hql t' ht' ha with ⟨h3, h4⟩ | ⟨x, hx, x1, x2, x3, x4⟩
          · left; exact ⟨by rw [h3, hqc, hc], h4⟩
          · right
            refine ⟨x, hx, by rw [x1, hqc, hc], x2, x3, x4.trans ?_⟩
            rw [hqo]
            exact List.dropLast_prefix _
      · right
        exact ⟨ez, hez, rfl, hc, hal, List.prefix_refl _⟩
    · rw [par_short h (keyed_of_hwf h hk.1) z (by omega)] at ht
      cases ht
      simp at ha

/-- A chain consists of the file, its siblings if the last phase is cumulative, and the parents of the last of them. -/
theorem ancestorsRev_parts (h : Hist) (hk : Keyed h) (p : Props) (hp : p.order ≠ []) (m : Nat) (cu : Bool) (l : List Props)
    (hl : ancestorsRev h p m cu = .ok l) : ∃ sib t, l = p :: (sib ++ t) ∧ (sib = [] ∨ siblings h (orderBase p) (orderLast p) p = .ok sib) ∧
      par h (sib.getLastD p) = .ok t ∧ (sib.getLastD p).order.length = p.order.length ∧ (sib.getLastD p).order.dropLast = p.order.dropLast := by
  by_cases hc : p.order.length - 1 = m ∧ cu = true
  · obtain ⟨h1, rfl⟩ := hc
    rw [ancestorsRev_cumulative h p hp m h1] at hl
    obtain ⟨sib, hs, hl⟩ := bind_ok_inv _ _ _ hl
    obtain ⟨t, ht, hl⟩ := bind_ok_inv _ _ _ hl
    cases hl
    have hlen : p.order.length = (orderBase p).length + 1 := by
      have : p.order.length ≠ 0 := by simpa using hp
      rw [orderBase, List.length_dropLast]; omega
    obtain ⟨s1, s2⟩ := siblings_order h hk (orderBase p) (orderLast p) p rfl hlen sib hs
    refine ⟨sib, t, rfl, .inr hs, ?_, by omega, s1⟩
    unfold par
    rw [s2, ← hlen]
    exact ht
  · rw [ancestorsRev_plain h p hp m cu (.inl hc)] at hl
    obtain ⟨t, ht, hl⟩ := bind_ok_inv _ _ _ hl
    cases hl
    exact ⟨[], t, rfl, .inl rfl, ht, rfl, rfl⟩

/-- Where the control number changes among siblings, there is a derived file. -/
theorem sib_control (h : Hist) {log : List (Props × S)} (hk : Knows h log) (base : List Nat) (k : Nat) (p : Props) (hp : ∃ e ∈ log, e.1 = p)
    (ho : p.order.dropLast = base) (hn : p.order ≠ []) (l : List Props) (hl : siblings h base k p = .ok l) :
    (∃ e ∈ log, e.1 = l.getLastD p) ∧ (((l.getLastD p).control = p.control ∧ (l ≠ [] → (l.getLastD p).control = p.prevCtl)) ∨
      (∃ x ∈ log, x.1.control = p.control ∧ x.1.prevCtl ≠ x.1.control ∧ x.1.order.dropLast = base ∧ x.1.order ≠ [])) := by
  induction k generalizing p l with
  | zero => cases hl; exact ⟨hp, .inl ⟨rfl, fun h => absurd rfl h⟩⟩
  | succ k ih =>
    rw [siblings] at hl
    cases hq : h.getProps p.prevCtl (base ++ [k]) with
    | none => rw [hq] at hl; cases hl
    | some q =>
      rw [hq] at hl
      simp only at hl
      obtain ⟨r, hr, hl⟩ : ∃ r, siblings h base k q = .ok r ∧ q :: r = l := by
        cases hr : siblings h base k q with
        | ok r => rw [hr] at hl; cases hl; exact ⟨r, rfl, rfl⟩
        | err => rw [hr] at hl; cases hl
        | panic => rw [hr] at hl; cases hl
      subst hl
      obtain ⟨hql, hqk⟩ := (hk.2 _ _ _).1 hq
      simp only [key, List.cons.injEq] at hqk
      obtain ⟨i1, i2⟩ := ih q hql (by rw [hqk.2]; simp) (by rw [hqk.2]; simp) r hr
      rw [List.getLastD_cons]
      refine ⟨i1, ?_⟩
      by_cases hc : p.prevCtl = p.control
      · rcases i2 with ⟨i2, i3⟩ | ⟨x, hx, x1, x2⟩
        · exact .inl ⟨by rw [i2, hqk.1, hc], fun _ => by rw [i2, hqk.1]⟩
        · exact .inr ⟨x, hx, by rw [x1, hqk.1, hc], x2⟩
      · obtain ⟨e, he, rfl⟩ := hp
        exact .inr ⟨e, he, rfl, hc, ho, hn⟩

theorem take_of_dropLast {a b : List Nat} (h : a.dropLast = b.dropLast) (i : Nat) (ha : i < a.length) (hb : i < b.length) : a.take i = b.take i := by
  have := congrArg (List.take i) h
  rw [List.dropLast_eq_take, List.dropLast_eq_take, List.take_take, List.take_take, Nat.min_eq_left (by omega), Nat.min_eq_left (by omega)] at this
  exact this

/-- Where the control number changes along any chain, there is a derived file. -/
theorem chain_control (h : Hist) {log : List (Props × S)} (hk : Knows h log) (z : Props) (hz : ∃ e ∈ log, e.1 = z) (hne : z.order ≠ []) (m : Nat) (cu : Bool)
    (l : List Props) (hl : ancestorsRev h z m cu = .ok l) (i : Nat) (hi : i + 1 < z.order.length) (a : Props) (ha : l.reverse[i]? = some a) :
    a.order = z.order.take (i + 1) ∧ ((a.control = z.control ∧ ∃ e ∈ log, e.1 = a) ∨
      ∃ x ∈ log, x.1.control = z.control ∧ x.1.prevCtl ≠ x.1.control ∧ i + 1 < x.1.order.length ∧
        ∀ j, j ≤ i + 1 → x.1.order.take j = z.order.take j) := by
  have hkd := keyed_of_hwf h hk.1
  obtain ⟨sib, t, rfl, hs, ht, w1, w2⟩ := ancestorsRev_parts h hkd z hne m cu l hl
  obtain ⟨t1, t2⟩ := par_struct h hkd _ _ rfl t ht
  rw [w1] at t1
  have hti : i < t.reverse.length := by rw [List.length_reverse]; omega
  rw [List.reverse_cons, List.reverse_append, List.append_assoc, List.getElem?_append_left hti] at ha
  obtain ⟨a1, _⟩ := t2 i a ha
  have hao : a.order = z.order.take (i + 1) := by
    rw [a1]
    by_cases hii : i + 1 < z.order.length
    · exact take_of_dropLast w2 _ (by omega) hii
    · omega
  have ham : a ∈ t := List.mem_reverse.1 (List.mem_of_getElem? ha)
  refine ⟨hao, ?_⟩
  have hsib : (∃ e ∈ log, e.1 = sib.getLastD z) ∧ ((sib.getLastD z).control = z.control ∨
      (∃ x ∈ log, x.1.control = z.control ∧ x.1.prevCtl ≠ x.1.control ∧ x.1.order.dropLast = z.order.dropLast ∧ x.1.order ≠ [])) := by
    rcases hs with rfl | hs
    · exact ⟨hz, .inl rfl⟩
    · obtain ⟨b1, b2⟩ := sib_control h hk _ _ z hz rfl hne sib hs
      refine ⟨b1, ?_⟩
      rcases b2 with b2 | b2
      · exact .inl b2.1
      · exact .inr b2
  obtain ⟨hw, hc | ⟨x, hx, x1, x2, x3, x4⟩⟩ := hsib
  · rcases par_control h hk _ _ rfl hw t ht a ham with ⟨c1, c2⟩ | ⟨x, hx, x1, x2, x3, x4⟩
    · exact .inl ⟨c1.trans hc, c2⟩
    · refine .inr ⟨x, hx, x1.trans hc, x2, ?_, fun j hj => ?_⟩
      · rw [hao, List.length_take] at x3; omega
      · obtain ⟨y, hy⟩ := x4
        rw [hao, List.length_take] at x3
        have : (sib.getLastD z).order.take j = x.1.order.take j := by rw [← hy, List.take_append_of_le_length (by omega)]
        rw [← this]
        exact take_of_dropLast w2 j (by omega) (by omega)
  · have hxl : x.1.order.length = z.order.length := by
      have := congrArg List.length x3
      rw [List.length_dropLast, List.length_dropLast] at this
      have e1 : x.1.order.length ≠ 0 := by simpa using x4
      have e2 : z.order.length ≠ 0 := by simpa using hne
      omega
    exact .inr ⟨x, hx, x1, x2, by omega, fun j hj => take_of_dropLast x3 j (by omega) (by omega)⟩

theorem forked_start : Forked ([] : List (Props × S)) := by intro q hq; simp at hq

theorem take_lt (o : List Nat) (i : Nat) (hi : i < o.length) : o.take i < o := by
  have := lt_append (o.take i) [] (o.drop i) (by
    cases h : o.drop i with
    | nil => simp at h; omega
    | cons x xs => exact List.nil_lt_cons x xs)
  simpa using this

theorem forked_save {o : Opts} {st st' : St} {log : List (Props × S)} (hi : Inv o st log)
    (hl : log.length < 10 ^ 8 - 1) (hfk : Forked log) (shift : Shift) (ops : Ops S) (rid : Nat) (s : S) (p : Props)
    (hs : save o shift ops st rid none s = (st', .ok p)) : Forked ((p, s) :: log) := by
  have hi' := (save_inv hi hl shift ops rid s p hs).2.1
  have hnew : ∀ e ∈ log, key e.1 < key p := (List.pairwise_cons.1 hi'.sorted).1
  have hself : ∀ i, i < p.order.length → key p ≠ p.control :: p.order.take i := by
    intro i hi hc
    simp only [key, List.cons.injEq, true_and] at hc
    have := congrArg List.length hc
    rw [List.length_take] at this
    omega
  intro q hq hne i hil e he
  rcases List.mem_cons.1 hq with rfl | hq
  · simp only at hne hil ⊢
    rcases List.mem_cons.1 he with rfl | he
    · exact hself i hil
    obtain ⟨h, hh, hk, ⟨f, dir', hf, hd, rfl, b, newest, hb, hnewest, hff⟩ | ⟨d, hd, hp, rfl⟩⟩ := save_ok hi hl shift ops rid s p hs
    · obtain ⟨np, file, next, rev, deps, c, d, h1, h2, h3, h4, h5, h6, h7, rfl⟩ := deriveImpl_ok _ _ _ _ _ _ _ _ _ _ hd
      obtain ⟨e0, he0, rfl⟩ := hf
      obtain ⟨r, rfl, hr⟩ := ancestorsRev_shape _ _ _ _ _ h4
      obtain ⟨ord, prev, hno, hpe, hdeps⟩ := createDependencies_ok _ e0.1 (by simp) _ _ _ _ _ _ _ h5
      obtain ⟨s1, s2, s3, _⟩ := hi.small e0 he0
      by_cases hnp : np = e0.1
      · rw [if_pos hnp] at hpe
        unfold nextOrder at hno
        split at hno
        · cases hno
          rw [hpe, hnp] at hne
          exact absurd rfl hne
        · split at hno
          · cases hno
            rw [hpe, hnp] at hne
            exact absurd rfl hne
          · split at hno
            · cases hno
            · rename_i g1 g2 g3
              split at hno
              · rename_i a ha
                cases hno
                -- the phase shift: look at the ancestor whose place is taken
                have hlen0 : e0.1.order.length ≠ 0 := by simpa using s2
                have hnb : next + 1 < e0.1.order.length := by
                  by_contra hge
                  have : next = e0.1.order.length - 1 := by omega
                  omega
                obtain ⟨a1, hac⟩ := chain_control h hk e0.1 ⟨e0, he0, rfl⟩ s2 _ _ _ h4 next hnb a ha
                have htne : e0.1.order.take (next + 1) ≠ [] := by
                  intro hc
                  have := congrArg List.length hc
                  rw [List.length_take, List.length_nil] at this
                  omega
                have hpo : p.order = incLast (e0.1.order.take (next + 1)) := by rw [hpe]
                have hpc : p.control = e0.1.control := by rw [hpe, hnp]
                have hpp : p.prevCtl = a.prevCtl := by rw [hpe]
                have hpl : p.order.length = next + 1 := by
                  rw [hpo, length_incLast _ htne, List.length_take]; omega
                have htk : p.order.take i = e0.1.order.take i := by
                  have hin : i ≤ next := by omega
                  have e1 : (incLast (e0.1.order.take (next + 1))).take i = (e0.1.order.take (next + 1)).dropLast.take i := by
                    rw [incLast, List.take_append_of_le_length]
                    rw [List.length_dropLast, List.length_take]; omega
                  rw [hpo, e1, List.dropLast_eq_take, List.take_take, List.take_take]
                  congr 1
                  rw [List.length_take]; omega
                rw [htk, hpc]
                rcases hac with ⟨c1, ea, hea, rfl⟩ | ⟨x, hx, x1, x2, x3, x4⟩
                · have hane : ea.1.prevCtl ≠ ea.1.control := by
                    rw [c1, ← hpc, ← hpp]; exact hne
                  have := hfk ea hea hane i (by rw [a1, List.length_take]; omega) e he
                  rw [a1, List.take_take, c1] at this
                  rwa [Nat.min_eq_left (by omega)] at this
                · have := hfk x hx x2 i (by omega) e he
                  rw [x1, x4 i (by omega)] at this
                  exact this
              · cases hno
      · -- a fresh control number
        rw [if_neg hnp] at hpe
        have hnw := hk.newest hi.sorted
        rw [h1] at hnw
        rcases head_max log hi.sorted np hnw.symm e he with hle | hle
        · intro hc
          rw [hle, hpe] at hc
          simp only [key, List.cons.injEq] at hc
          omega
        · intro hc
          rw [hc, hpe] at hle
          unfold key at hle
          rw [List.cons_lt_cons_iff] at hle
          simp only at hle
          omega
    · rw [hp] at hne
      exact absurd rfl hne
  · rcases List.mem_cons.1 he with rfl | he
    · intro hc
      have h1 := hnew q hq
      rw [hc] at h1
      unfold key at h1
      rw [List.cons_lt_cons_iff] at h1
      rcases h1 with h1 | ⟨_, h1⟩
      · omega
      · exact absurd (List.lt_trans h1 (take_lt q.1.order i hil)) (List.lt_irrefl _)
    · exact hfk q hq hne i hil e he

theorem Reach.forked {o : Opts} {ops : Ops S} {st : St} {log : List (Props × S)}
    (hr : Reach o ops st log) : Forked log := by
  induction hr with
  | start => exact forked_start
  | save shift st st' log rid s p hr hl hs ih => exact forked_save hr.inv hl ih shift ops rid s p hs
  | unfinished shift st st' log rid s p hr hl hs ih => exact forked_save hr.inv hl ih shift ops rid s p hs
  | fail _ _ _ _ _ _ _ _ _ _ _ ih => exact ih
  | load _ _ _ _ _ _ _ _ ih => exact ih
  | list _ _ _ _ _ ih => exact ih
  | restart _ _ _ ih => exact ih
  | other _ _ _ _ _ _ ih => exact ih

/-- The parent of a lost file is not found. -/
theorem lost_no_parent {o : Opts} {ops : Ops S} {st : St} {log : List (Props × S)} (hr : Reach o ops st log) (h : Hist)
    (hh : st.history = .ok h) (p : Props) (hlost : Lost o log p) : h.getParent p = none := by
  obtain ⟨hcu, hm, hpc, q, hq, q1, q2, q3, q4⟩ := hlost
  replace q4 : p.order = incLast q.1.order := q4
  have hf := hr.forked
  obtain ⟨h', hh', hk⟩ := hr.inv.history
  rw [hh] at hh'
  cases hh'
  cases hg : h.getParent p with
  | none => rfl
  | some x =>
    exfalso
    obtain ⟨⟨x', hx', rfl⟩, hkey⟩ := (hk.2 _ _ _).1 hg
    refine hf q hq q2 (q.1.order.length - 1) (by omega) x' hx' ?_
    rw [hkey, hpc, q1]
    simp only [orderBase, q4, incLast, List.dropLast_concat]
    rw [List.dropLast_eq_take]

/-- The chain of a lost file cannot be built. -/
theorem lost_no_chain {o : Opts} {ops : Ops S} {st : St} {log : List (Props × S)} (hr : Reach o ops st log) (h : Hist)
    (hh : st.history = .ok h) (e : Props × S) (he : e ∈ log) (hlost : Lost o log e.1) :
    ancestorsRev h e.1 o.maxPhase o.cumulative.isSome = .err := by
  have hnone := lost_no_parent hr h hh e.1 hlost
  obtain ⟨hcu, hm, hpc, q, hq, q1, q2, q3, q4⟩ := hlost
  replace q4 : e.1.order = incLast q.1.order := q4
  obtain ⟨h', hh', hk⟩ := hr.inv.history
  rw [hh] at hh'
  cases hh'
  have hne : e.1.order ≠ [] := (hr.inv.small e he).2.1
  have hqne : q.1.order ≠ [] := (hr.inv.small q hq).2.1
  have hl : e.1.order.length = o.maxPhase + 1 := by rw [q4, length_incLast _ hqne, q3]
  rw [hcu, Option.isSome_none, ancestorsRev_plain h e.1 hne _ _ (Or.inl (by simp)),
    par_eq h (keyed_of_hwf h hk.1), if_pos (by omega), hnone]
  rfl

theorem lost_not_loaded {o : Opts} {ops : Ops S} {st : St} {log : List (Props × S)} (hr : Reach o ops st log) (h : Hist)
    (hh : st.history = .ok h) (e : Props × S) (he : e ∈ log) (hlost : Lost o log e.1) : load o ops st.dir h e.1 = .err := by
  unfold load
  rw [hr.inv.analyze_file e he]
  simp only [Res.bind_ok]
  rw [lost_no_chain hr h hh e he hlost]
  rfl

end
end Verif.History
