import Verif.Spec.Overlap
import Verif.Lemmas.Lost
import Mathlib.Data.List.Lex
/-! Helper lemmas: saves that overlap. -/
namespace Verif.Overlap
open VarInt FileName FileHistory Phase History

section
variable {S : Type}

theorem key_ne_of_fresh {log : List (Props × S)} {p : Props} (h : Fresh log p) : ∀ e ∈ log, key e.1 ≠ key p := by
  intro e he hk
  simp only [key, List.cons.injEq] at hk
  exact h e he hk

theorem insert_sorted (x : Props × S) (l : List (Props × S)) (hs : l.Pairwise (fun a b => key b.1 < key a.1))
    (hf : ∀ e ∈ l, key e.1 ≠ key x.1) : ∃ l' : List (Props × S), l'.Perm (x :: l) ∧ l'.Pairwise (fun a b => key b.1 < key a.1) := by
  induction l with
  | nil => exact ⟨[x], List.Perm.refl _, by simp⟩
  | cons y ys ih =>
    rw [List.pairwise_cons] at hs
    rcases lt_trichotomy (key y.1) (key x.1) with h | h | h
    · refine ⟨x :: y :: ys, List.Perm.refl _, List.pairwise_cons.2 ⟨fun z hz => ?_, List.pairwise_cons.2 hs⟩⟩
      rcases List.mem_cons.1 hz with rfl | hz
      · exact h
      · exact List.lt_trans (hs.1 z hz) h
    · exact absurd h (hf y (by simp))
    · obtain ⟨l', h1, h2⟩ := ih hs.2 (fun e he => hf e (by simp [he]))
      refine ⟨y :: l', (h1.cons y).trans (List.Perm.swap x y ys), List.pairwise_cons.2 ⟨fun z hz => ?_, h2⟩⟩
      rcases List.mem_cons.1 (h1.mem_iff.1 hz) with rfl | hz
      · exact h
      · exact hs.1 z hz

/-- A file with a new key may be added anywhere. -/
theorem inv_insert {o : Opts} {dir : Dir} {log : List (Props × S)} (hi : Inv o ⟨dir, none⟩ log) (hl : log.length < 10 ^ 8 - 1)
    (p : Props) (s : S) (f : File) (ht : p.tag = none) (ho : p.order ≠ [])
    (hlen : p.order.length ≤ o.maxPhase + 1) (hc : p.control < log.length + 1) (hpc : p.prevCtl < log.length + 1)
    (hx : ∀ x ∈ p.order, x < log.length + 1) (hf : f.1.length = p.order.length) (hnew : ∀ e ∈ log, key e.1 ≠ key p) :
    p.filename ∉ dir.map (·.1) ∧ ∃ log' : List (Props × S), log'.Perm ((p, s) :: log) ∧ Inv o ⟨dir.write p.filename f, none⟩ log' := by
  have han : analyze p.filename = .ok (some p) := by
    rw [analyze_untagged p ht ho (by omega), if_pos ⟨by omega, fun x hx' => by have := hx x hx'; omega⟩]
  have hfresh : p.filename ∉ dir.map (·.1) := by
    intro hm
    rcases hi.names _ hm with h | ⟨e, he, h⟩
    · rw [h] at han; cases han
    · have := filename_injective _ _ h
      exact hnew e he (by rw [this])
  refine ⟨hfresh, ?_⟩
  obtain ⟨log', h1, h2⟩ := insert_sorted (p, s) log hi.sorted hnew
  have hlen' : log'.length = log.length + 1 := by rw [h1.length_eq]; rfl
  refine ⟨log', h1, ?_⟩
  constructor
  · simp only
    rw [write_fresh _ _ _ hfresh, List.map_append, List.nodup_append]
    refine ⟨hi.nodup, by simp, ?_⟩
    intro a ha b hb
    simp at hb
    subst hb
    intro hab
    subst hab
    exact hfresh ha
  · intro n hn
    simp only at hn
    rw [write_fresh _ _ _ hfresh, List.map_append, List.mem_append] at hn
    rcases hn with hn | hn
    · rcases hi.names n hn with h | ⟨e, he, h⟩
      · exact Or.inl h
      · exact Or.inr ⟨e, h1.mem_iff.2 (by simp [he]), h⟩
    · simp at hn
      exact Or.inr ⟨(p, s), h1.mem_iff.2 (by simp), hn⟩
  · intro e he
    simp only
    rcases List.mem_cons.1 (h1.mem_iff.1 he) with rfl | he
    · exact ⟨f, by rw [read_write, if_pos rfl], hf⟩
    · obtain ⟨g, h1, h2⟩ := hi.files e he
      refine ⟨g, ?_, h2⟩
      rw [read_write, if_neg, h1]
      intro hc
      rw [hc] at hfresh
      exact hfresh (mem_of_read _ _ _ h1)
  · intro e he
    rcases List.mem_cons.1 (h1.mem_iff.1 he) with rfl | he
    · exact ⟨ht, ho, hlen, by rw [hlen']; exact hc, by rw [hlen']; exact hpc, by rw [hlen']; exact hx⟩
    · obtain ⟨h1, h2, h3, h4, h5, h6⟩ := hi.small e he
      rw [hlen']
      exact ⟨h1, h2, h3, by omega, by omega, fun x hx' => by have := h6 x hx'; omega⟩
  · omega
  · exact h2
  · intro r q hq
    cases hq

/-- What holds of a plan as long as it is not written. -/
structure PlanOk (o : Opts) (ops : Ops S) (dir : Dir) (log : List (Props × S)) (x : Plan S) : Prop where
  tag : x.props.tag = none
  ne : x.props.order ≠ []
  len : x.props.order.length ≤ o.maxPhase + 1
  ctl : x.props.control < log.length + 1
  prev : x.props.prevCtl < log.length + 1
  ord : ∀ n ∈ x.props.order, n < log.length + 1
  file : x.file.1.length = x.props.order.length
  chain : (∃ deps c h1, ∃ log1 : List (Props × S), Knows h1 log1 ∧ (∀ e ∈ log1, e ∈ (x.props, x.obj) :: log) ∧
      ancestorsRev h1 x.props o.maxPhase o.cumulative.isSome = .ok (x.props :: deps.reverse) ∧
      compose ops dir deps ops.src = .ok c ∧ ops.diff c x.obj = .ok x.file.2) ∨ Lost o ((x.props, x.obj) :: log) x.props

theorem PlanOk.mono {o : Opts} {ops : Ops S} {dir dir' : Dir} {log log' : List (Props × S)} {x : Plan S} (h : PlanOk o ops dir log x)
    (hd : ∀ n f, dir.read n = some f → dir'.read n = some f) (hs : ∀ e ∈ log, e ∈ log') (hl : log.length ≤ log'.length) :
    PlanOk o ops dir' log' x := by
  obtain ⟨h1, h2, h3, h4, h5, h6, h7, h8⟩ := h
  have hs' : ∀ e ∈ (x.props, x.obj) :: log, e ∈ (x.props, x.obj) :: log' := by
    intro e he
    rcases List.mem_cons.1 he with rfl | he
    · simp
    · exact List.mem_cons_of_mem _ (hs e he)
  refine ⟨h1, h2, h3, by omega, by omega, fun n hn => by have := h6 n hn; omega, h7, ?_⟩
  rcases h8 with ⟨deps, c, g, log1, k1, k2, k3, k4, k5⟩ | h8
  · exact Or.inl ⟨deps, c, g, log1, k1, fun e he => hs' e (k2 e he), k3, compose_congr ops dir dir' hd _ _ _ k4, k5⟩
  · exact Or.inr (h8.mono hs')

/-- A plan that has just been made. -/
theorem plan_ok {o : Opts} {ops : Ops S} {st st' : St} {log : List (Props × S)} (hi : Inv o st log) (hl : log.length < 10 ^ 8 - 1)
    (shift : Shift) (rid : Nat) (s : S) (p : Props) (f : File) (hs : save o shift ops st rid none s = (st', .ok p))
    (hf : st'.dir.read p.filename = some f) : PlanOk o ops st.dir log ⟨p, f, s⟩ := by
  obtain ⟨hfresh, hi', _⟩ := save_inv hi hl shift ops rid s p hs
  obtain ⟨s1, s2, s3, s4, s5, s6⟩ := hi'.small (p, s) (by simp)
  obtain ⟨g, hg1, hg2⟩ := hi'.files (p, s) (by simp)
  simp only at s1 s2 s3 s4 s5 s6 hg1 hg2
  rw [hf] at hg1
  cases hg1
  refine ⟨s1, s2, s3, by simpa using s4, by simpa using s5, by simpa using s6, hg2, ?_⟩
  obtain ⟨h, hh, hk⟩ := hi.history
  obtain ⟨h', hh', hk'⟩ := hi'.history
  rcases save_chain hi hl shift ops rid s p hs h h' hh hh' with ⟨deps, c, d, data, h1, h2, h3, h4, _⟩ | hlost
  · refine Or.inl ⟨deps, c, h', (p, s) :: log, hk', fun e he => he, h1, h2, ?_⟩
    rw [h4, read_write, if_pos rfl] at hf
    cases hf
    exact h3
  · exact Or.inr hlost

theorem Lost.perm {o : Opts} {log log' : List (Props × S)} (hp : log'.Perm log) {p : Props} : Lost o log' p ↔ Lost o log p :=
  ⟨fun h => h.mono (fun _ he => hp.mem_iff.1 he), fun h => h.mono (fun _ he => hp.mem_iff.2 he)⟩

/-- The invariant of overlapping saves. -/
structure OInv (o : Opts) (ops : Ops S) (dir : Dir) (plans : List (Plan S)) (log : List (Props × S)) : Prop where
  inv : ∃ log' : List (Props × S), log'.Perm log ∧ Inv o ⟨dir, none⟩ log'
  loads : ∀ h, St.history ⟨dir, none⟩ = .ok h → ∀ e ∈ log, Loads o ops dir h e.1 e.2 ∨ Lost o log e.1
  plans : ∀ x ∈ plans, PlanOk o ops dir log x

theorem Knows.perm {h : Hist} {log log' : List (Props × S)} (hp : log'.Perm log) (hk : Knows h log') : Knows h log :=
  ⟨hk.1, fun c o p => by
    rw [hk.2]
    constructor
    · rintro ⟨⟨e, he, h1⟩, h2⟩; exact ⟨⟨e, hp.mem_iff.1 he, h1⟩, h2⟩
    · rintro ⟨⟨e, he, h1⟩, h2⟩; exact ⟨⟨e, hp.mem_iff.2 he, h1⟩, h2⟩⟩

theorem OReach.inv {o : Opts} {ops : Ops S} (hlaw : ops.Lawful) {dir : Dir} {plans : List (Plan S)} {log : List (Props × S)}
    (hr : OReach Fresh o ops dir plans log) : OInv o ops dir plans log := by
  induction hr with
  | start dir hn hf => exact ⟨⟨[], List.Perm.refl _, inv_start o dir hn hf⟩, by simp, by simp⟩
  | plan shift dir plans log base rid s st' p f hr hl hb hs hf ih =>
    refine ⟨ih.inv, ih.loads, fun x hx => ?_⟩
    rcases List.mem_cons.1 hx with rfl | hx
    · obtain ⟨log', hp, hi⟩ := ih.inv
      have hi2 : Inv o ⟨dir, base⟩ log' := ⟨hi.nodup, hi.names, hi.files, hi.small, hi.len, hi.sorted, fun r q h => by
        obtain ⟨e, he, h2⟩ := hb r q h
        exact ⟨e, hp.mem_iff.2 he, h2⟩⟩
      have := plan_ok hi2 (by rw [hp.length_eq]; exact hl) shift rid s p f hs hf
      exact this.mono (fun n f h => h) (fun e he => hp.mem_iff.1 he) (by rw [hp.length_eq])
    · exact ih.plans x hx
  | write dir plans log x hr hl hx hk ih =>
    obtain ⟨log', hp, hi⟩ := ih.inv
    have hpl := ih.plans x hx
    obtain ⟨hfresh, log2, hp2, hi2⟩ := inv_insert hi (by rw [hp.length_eq]; exact hl) x.props x.obj x.file hpl.tag hpl.ne hpl.len
      (by rw [hp.length_eq]; exact hpl.ctl) (by rw [hp.length_eq]; exact hpl.prev) (by rw [hp.length_eq]; exact hpl.ord) hpl.file
      (fun e he => key_ne_of_fresh hk e (hp.mem_iff.1 he))
    have hp3 : log2.Perm ((x.props, x.obj) :: log) := hp2.trans (hp.cons _)
    have hrd : ∀ n g, dir.read n = some g → (dir.write x.props.filename x.file).read n = some g := by
      intro n g hg
      rw [read_write, if_neg, hg]
      rintro rfl
      exact hfresh (mem_of_read _ _ _ hg)
    refine ⟨⟨log2, hp3, hi2⟩, fun h hh e he => ?_, fun y hy => ?_⟩
    · obtain ⟨h2, hh2, hk2⟩ := hi2.history
      rw [hh] at hh2
      cases hh2
      have hkn := Knows.perm hp3 hk2
      rcases List.mem_cons.1 he with rfl | he
      · rcases hpl.chain with ⟨deps, c, h1, log1, k1, k2, k3, k4, k5⟩ | hlost
        · left
          refine ⟨_, ancestorsRev_mono h1 h (k1.extends hkn k2) _ _ _ _ k3, ?_⟩
          rw [List.reverse_cons, List.reverse_reverse, compose_append, compose_congr ops dir _ hrd deps _ _ k4]
          simp only [Res.bind_ok, compose]
          rw [read_write, if_pos rfl]
          simp only
          rw [hlaw _ _ _ k5]
          rfl
        · exact Or.inr hlost
      · obtain ⟨h0, hh0, hk0⟩ := hi.history
        rcases ih.loads h0 hh0 e he with hlo | hlo
        · exact Or.inl (hlo.mono ((Knows.perm hp hk0).extends hkn (fun e he => by simp [he])) hrd)
        · exact Or.inr (hlo.mono (fun e he => by simp [he]))
    · exact (ih.plans y hy).mono hrd (fun e he => by simp [he]) (by simp)
  | list dir dir' plans log hr hpm ih =>
    obtain ⟨log', hp, hi⟩ := ih.inv
    have hrd : ∀ n, dir'.read n = dir.read n := read_perm _ _ hpm hi.nodup
    have hi2 : Inv o ⟨dir', none⟩ log' := by
      refine ⟨?_, ?_, ?_, hi.small, hi.len, hi.sorted, fun r q h => by cases h⟩
      · exact (hpm.map (·.1)).nodup_iff.2 hi.nodup
      · intro n hn
        exact hi.names n ((hpm.map (·.1)).mem_iff.1 hn)
      · intro e he
        simp only
        rw [hrd]
        exact hi.files e he
    refine ⟨⟨log', hp, hi2⟩, fun h hh e he => ?_, fun x hx => (ih.plans x hx).mono (fun n f h => by rw [hrd]; exact h) (fun e he => he) (Nat.le_refl _)⟩
    obtain ⟨h0, hh0, hk0⟩ := hi.history
    obtain ⟨h2, hh2, hk2⟩ := hi2.history
    rw [hh] at hh2
    cases hh2
    rcases ih.loads h0 hh0 e he with hlo | hlo
    · exact Or.inl (hlo.mono (hk0.extends hk2 (fun e he => he)) (fun n f h => by rw [hrd]; exact h))
    · exact Or.inr hlo

end
end Verif.Overlap
