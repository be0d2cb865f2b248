import Verif.Lemmas.RemoverDir
/-! Helper lemmas: the histories for which the removal of old files is right. -/
namespace Verif.Remover
open VarInt FileName FileHistory Phase History

/-- The files of a chain below the last phase, phase by phase. -/
theorem chain_take (h : Hist) (hk : Keyed h) (m : Nat) (cu : Bool) (f : Props) (hne : f.order ≠ [])
    (hmax : f.order.length = m + 1) (rev : List Props) (hrev : ancestorsRev h f m cu = .ok rev) (i : Nat) (hi : i < m)
    (a : Props) (ha : rev.reverse[i]? = some a) : a.order = f.order.take (i + 1) := by
  have hz : ∃ (z : Props) (sib t : List Props), z.order.length = f.order.length ∧
      z.order.dropLast = f.order.dropLast ∧ par h z = .ok t ∧ rev = (sib ++ t : List Props) := by
    by_cases hcu : cu = true
    · rw [hcu, ancestorsRev_cumulative h f hne _ (by omega)] at hrev
      obtain ⟨sib, h5, h6⟩ := bind_ok_inv _ _ _ hrev
      obtain ⟨pa, h7, h8⟩ := bind_ok_inv _ _ _ h6
      have hso := siblings_order h hk _ _ f rfl (by simp; omega) sib h5
      have hzl : (sib.getLastD f).order.length = f.order.length := by
        rw [hso.2]; simp; omega
      refine ⟨sib.getLastD f, f :: sib, pa, hzl, hso.1, ?_, ?_⟩
      · unfold par
        rw [hzl]; exact h7
      · cases h8; rfl
    · have hcu' : cu = false := by simpa using hcu
      rw [hcu', ancestorsRev_plain h f hne _ _ (Or.inl (by simp))] at hrev
      obtain ⟨t, ht, hrt⟩ := bind_ok_inv _ _ _ hrev
      cases hrt
      exact ⟨f, [f], t, rfl, rfl, ht, rfl⟩
  obtain ⟨z, sib, t, hzl, hzd, ht, rfl⟩ := hz
  obtain ⟨t1, t2⟩ := par_struct h hk _ z rfl t ht
  have hnt : i < t.reverse.length := by rw [List.length_reverse, t1]; omega
  rw [List.reverse_append, List.getElem?_append_left hnt] at ha
  rw [(t2 i a ha).1]
  have e1 : z.order.take (i + 1) = z.order.dropLast.take (i + 1) := by
    rw [List.dropLast_eq_take, List.take_take]; congr 1; omega
  have e2 : f.order.take (i + 1) = f.order.dropLast.take (i + 1) := by
    rw [List.dropLast_eq_take, List.take_take]; congr 1; omega
  rw [e1, e2, hzd]

section
variable {S : Type}

/-- What a save adds: a first file of a series, a file that continues the newest file in the last phase, or a file that
continues a series of an earlier phase. -/
theorem save_shape {o : Opts} {st st' : St} {log : List (Props × S)} (hi : Inv o st log) (hl : log.length < 10 ^ 8 - 1)
    (shift : Shift) (ops : Ops S) (rid : Nat) (s : S) (p : Props)
    (hs : save o shift ops st rid none s = (st', .ok p)) :
    orderLast p = 0 ∨
    (p.prevCtl = p.control ∧ p.order.length = o.maxPhase + 1 ∧ ∃ e ∈ log, e.1.control = p.control ∧ p.order = incLast e.1.order) ∨
    (p.order.length ≤ o.maxPhase ∧ ∃ e ∈ log, p.prevCtl = e.1.prevCtl ∧ p.order = incLast e.1.order) := by
  obtain ⟨h, hh, hk, ⟨f, dir', hf, hd, rfl, b, newest, hb, hn, hff⟩ | ⟨d, hd, rfl, rfl⟩⟩ := save_ok hi hl shift ops rid s p hs
  · obtain ⟨np, file, next, rev, deps, c, d, h1, h2, h3, h4, h5, h6, h7, rfl⟩ := deriveImpl_ok _ _ _ _ _ _ _ _ _ _ hd
    obtain ⟨e0, he0, rfl⟩ := hf
    obtain ⟨r, rfl, hr⟩ := ancestorsRev_shape _ _ _ _ _ h4
    obtain ⟨s1, s2, s3, s4, s5, s6⟩ := hi.small e0 he0
    obtain ⟨ord, prev, hno, rfl, hdeps⟩ := createDependencies_ok _ e0.1 (by simp) _ _ _ _ _ _ _ h5
    rw [hn] at h1
    cases h1
    unfold nextOrder at hno
    have h0 : e0.1.order.length ≠ 0 := by simpa using s2
    by_cases c1 : e0.1.order.length - 1 < o.maxPhase
    · rw [if_pos c1] at hno
      cases hno
      left
      simp [orderLast]
    · rw [if_neg c1] at hno
      have hmax : e0.1.order.length = o.maxPhase + 1 := by omega
      have hnew : newest = e0.1 := by
        unfold fromFile at hff
        split at hff
        · rename_i hc
          exfalso
          have hq := (hk.2 _ _ _).1 hff
          have hkey := hq.2
          simp only [key, List.cons.injEq] at hkey
          have := congrArg List.length hkey.2
          simp only [orderBase, List.length_dropLast] at this
          have hph := hc.1
          unfold phase at hph
          omega
        · rename_i hc
          cases hff
          by_contra hne
          refine hc ⟨?_, fun he => hne he.symm⟩
          unfold phase; omega
      rw [if_pos hnew]
      by_cases c2 : next = o.maxPhase
      · rw [if_pos c2] at hno
        cases hno
        right; left
        refine ⟨by rw [hnew], ?_, e0, he0, by rw [hnew], rfl⟩
        rw [length_incLast _ s2, hmax]
      · rw [if_neg c2] at hno
        by_cases c3 : e0.1.order.length < next + 1
        · rw [if_pos c3] at hno; cases hno
        · rw [if_neg c3] at hno
          cases ha : (e0.1 :: r).reverse[next]? with
          | none => rw [ha] at hno; cases hno
          | some a =>
            rw [ha] at hno
            cases hno
            right; right
            have hao := chain_take h (keyed_of_hwf h hk.1) _ _ e0.1 s2 hmax _ h4 next (by omega) a ha
            have htne : e0.1.order.take (next + 1) ≠ [] := by rw [← hao]; intro hc; rw [hc] at hao; have := congrArg List.length hao; simp at this; omega
            have hal : ∃ e ∈ log, e.1 = a := by
              have hm := List.mem_of_getElem? ha
              rw [List.mem_reverse] at hm
              rcases List.mem_cons.1 hm with rfl | hm
              · exact ⟨e0, he0, rfl⟩
              · obtain ⟨c', o', hq⟩ := hr a hm
                exact ((hk.2 _ _ _).1 hq).1
            obtain ⟨e1, he1, rfl⟩ := hal
            refine ⟨?_, e1, he1, rfl, by rw [hao]⟩
            simp only
            rw [length_incLast _ htne, List.length_take]
            omega
  · left; rfl

/-- What is true of every run. -/
theorem Reach.last_phase {o : Opts} {ops : Ops S} {st : St} {log : List (Props × S)} (hr : Reach o ops st log) :
    ∀ e ∈ log, e.1.order.length = o.maxPhase + 1 → orderLast e.1 ≠ 0 → e.1.prevCtl = e.1.control := by
  induction hr with
  | start => intro e he; simp at he
  | save shift st st' log rid s p hr hl hs ih =>
    intro e he hlen hne
    rcases List.mem_cons.1 he with rfl | he
    · rcases save_shape hr.inv hl shift ops rid s p hs with h | h | h
      · exact absurd h hne
      · exact h.1
      · have := h.1
        simp only at hlen
        omega
    · exact ih e he hlen hne
  | unfinished shift st st' log rid s p hr hl hs ih =>
    intro e he hlen hne
    rcases List.mem_cons.1 he with rfl | he
    · rcases save_shape hr.inv hl shift ops rid s p hs with h | h | h
      · exact absurd h hne
      · exact h.1
      · have := h.1
        simp only at hlen
        omega
    · exact ih e he hlen hne
  | fail _ _ _ _ _ _ _ _ _ _ _ ih => exact ih
  | load _ _ _ _ _ _ _ _ ih => exact ih
  | list _ _ _ _ _ ih => exact ih
  | restart _ _ _ ih => exact ih
  | other _ _ _ _ _ _ ih => exact ih

/-- Without derivations from older files, series have no gaps. -/
theorem Reach.series {o : Opts} {ops : Ops S} {st : St} {log : List (Props × S)} (hr : Reach o ops st log)
    (hnd : ∀ e ∈ log, e.1.prevCtl = e.1.control) :
    ∀ e ∈ log, orderLast e.1 ≠ 0 → ∃ e' ∈ log, e'.1.control = e.1.control ∧ e.1.order = incLast e'.1.order := by
  induction hr with
  | start => intro e he; simp at he
  | save shift st st' log rid s p hr hl hs ih =>
    intro e he hne
    rcases List.mem_cons.1 he with rfl | he
    · rcases save_shape hr.inv hl shift ops rid s p hs with h | ⟨_, _, e1, h1, h2, h3⟩ | ⟨_, e1, h1, h2, h3⟩
      · exact absurd h hne
      · exact ⟨e1, by simp [h1], h2, h3⟩
      · refine ⟨e1, by simp [h1], ?_, h3⟩
        rw [← hnd e1 (by simp [h1]), ← h2]
        exact hnd (p, s) (by simp)
    · obtain ⟨e', h1, h2⟩ := ih (fun x hx => hnd x (by simp [hx])) e he hne
      exact ⟨e', by simp [h1], h2⟩
  | unfinished shift st st' log rid s p hr hl hs ih =>
    intro e he hne
    rcases List.mem_cons.1 he with rfl | he
    · rcases save_shape hr.inv hl shift ops rid s p hs with h | ⟨_, _, e1, h1, h2, h3⟩ | ⟨_, e1, h1, h2, h3⟩
      · exact absurd h hne
      · exact ⟨e1, by simp [h1], h2, h3⟩
      · refine ⟨e1, by simp [h1], ?_, h3⟩
        rw [← hnd e1 (by simp [h1]), ← h2]
        exact hnd (p, s) (by simp)
    · obtain ⟨e', h1, h2⟩ := ih (fun x hx => hnd x (by simp [hx])) e he hne
      exact ⟨e', by simp [h1], h2⟩
  | fail _ _ _ _ _ _ _ _ _ _ _ ih => exact ih hnd
  | load _ _ _ _ _ _ _ _ ih => exact ih hnd
  | list _ _ _ _ _ ih => exact ih hnd
  | restart _ _ _ ih => exact ih hnd
  | other _ _ _ _ _ _ ih => exact ih hnd

theorem knows_listed {h : Hist} {log : List (Props × S)} (hk : Knows h log) (p : Props) :
    p ∈ h.listFiles ↔ ∃ e ∈ log, e.1 = p := by
  rw [mem_listFiles h hk.1, hk.2]
  simp [key]

theorem Reach.shallow {o : Opts} {ops : Ops S} {st : St} {log : List (Props × S)} (hr : Reach o ops st log) (h : Hist)
    (hh : st.history = .ok h) : Shallow o.maxPhase h := by
  obtain ⟨h', hh', hk⟩ := hr.inv.history
  rw [hh] at hh'
  cases hh'
  intro p hp
  obtain ⟨e, he, rfl⟩ := (knows_listed hk p).1 hp
  exact (hr.inv.small e he).2.2.1

/-- Runs with two phases, and runs without derivations from older files, give sound histories. -/
theorem Reach.sound {o : Opts} {ops : Ops S} {st : St} {log : List (Props × S)} (hr : Reach o ops st log) (h : Hist)
    (hh : st.history = .ok h) (hm : o.maxPhase ≠ 0)
    (hc : o.maxPhase = 1 ∨ ∀ e ∈ log, e.1.prevCtl = e.1.control) : Sound o.maxPhase o.cumulative.isSome h := by
  obtain ⟨h', hh', hk⟩ := hr.inv.history
  rw [hh] at hh'
  cases hh'
  intro _
  refine ⟨hm, fun p hp hlen hne => ?_, fun p hp hlen hb _ j hj => ?_⟩
  · obtain ⟨e, he, rfl⟩ := (knows_listed hk p).1 hp
    exact Reach.last_phase hr e he hlen hne
  · obtain ⟨e, he, rfl⟩ := (knows_listed hk p).1 hp
    have hene := (hr.inv.small e he).2.1
    have hsp := split_order e.1 hene
    rcases hc with hc | hnd
    · exfalso
      have := congrArg List.length hsp
      rw [hlen, hc, List.length_append] at this
      rw [List.length_singleton] at this
      exact hb (List.length_eq_zero_iff.1 (by omega))
    · have key : ∀ d (e1 : Props × S), e1 ∈ log → e1.1.control = e.1.control → e1.1.order = orderBase e.1 ++ [j + d] →
          ∃ q, h.getProps e.1.control (orderBase e.1 ++ [j]) = some q ∧ q.prevCtl = e.1.prevCtl := by
        intro d
        induction d with
        | zero =>
          intro e1 he1 h1 h2
          refine ⟨e1.1, (hk.2 _ _ _).2 ⟨⟨e1, he1, rfl⟩, ?_⟩, ?_⟩
          · simp only [FileHistory.key, h1, h2, Nat.add_zero]
          · rw [hnd e1 he1, hnd e he, h1]
        | succ d ih =>
          intro e1 he1 h1 h2
          have hbl := base_last _ _ _ h2
          obtain ⟨e2, he2, h3, h4⟩ := Reach.series hr hnd e1 he1 (by rw [hbl.2]; omega)
          refine ih e2 he2 (by rw [h3, h1]) ?_
          have hs2 := split_last e2.1.order (hr.inv.small e2 he2).2.1
          rw [hs2, incLast_append, h2] at h4
          obtain ⟨g1, g2⟩ := List.append_inj' h4 rfl
          simp only [List.cons.injEq, and_true] at g2
          rw [hs2, ← g1]
          congr 2
          omega
      refine key (orderLast e.1 - j) e he rfl ?_
      conv_lhs => rw [hsp]
      congr 2
      omega

end
end Verif.Remover
