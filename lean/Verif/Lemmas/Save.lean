import Verif.Lemmas.Chain
import Verif.Lemmas.Phase
/-! Helper lemmas: when saving succeeds; running a list of commands. -/
namespace Verif.History
open VarInt FileName FileHistory Phase

theorem phaseLoop_ne_err (o : Opts) (shift : Shift) (d : Data) (rem i : Nat) : phaseLoop o shift d rem i ≠ .err := by
  have hu : ∀ c, unwrap (d.climb c) ≠ .err := by
    intro c
    unfold Data.climb
    split
    · simp [unwrap]
    · cases d[d.length - 1 - c]? <;> simp [unwrap]
  induction rem generalizing i with
  | zero => simp [phaseLoop]
  | succ rem ih =>
    rw [phaseLoop]
    cases h1 : unwrap (d.climb i) with
    | err => exact absurd h1 (hu i)
    | panic => simp
    | ok cur =>
      simp only [Res.bind_ok]
      cases h2 : unwrap (d.climb (i + 1)) with
      | err => exact absurd h2 (hu (i + 1))
      | panic => simp
      | ok pa =>
        simp only [Res.bind_ok]
        split
        · split
          · have hc : cumulativeFull o d pa ≠ .err := by
              unfold cumulativeFull
              split
              · simp
              · split
                · simp
                · split
                  · simp
                  · rename_i nth _
                    have hm : d.nthLargest nth ≠ .err := by
                      unfold Data.nthLargest
                      dsimp only
                      generalize (if nth = 0 then 1 else nth) = k
                      split <;> simp
                    cases h4 : d.nthLargest nth with
                    | err => exact absurd h4 hm
                    | panic => simp
                    | ok x => simp
            cases h3 : cumulativeFull o d pa with
            | err => exact absurd h3 hc
            | panic => simp
            | ok full =>
              simp only [Res.bind_ok]
              split
              · exact ih (i + 1)
              · simp
          · simp
        · exact ih (i + 1)

theorem calcNextPhase_ne_err (o : Opts) (shift : Shift) (d : Data) : calcNextPhase o shift d ≠ .err := by
  unfold calcNextPhase
  split
  · simp
  · exact phaseLoop_ne_err o shift d _ 0

section
variable {S : Type}

theorem compose_prefix (ops : Ops S) (dir : Dir) (l m : List Props) (s r : S)
    (h : compose ops dir (l ++ m) s = .ok r) : ∃ c, compose ops dir l s = .ok c := by
  rw [compose_append] at h
  obtain ⟨c, h1, _⟩ := bind_ok_inv _ _ _ h
  exact ⟨c, h1⟩

/-- Deriving from a file that can be loaded succeeds. -/
theorem derive_succeeds {o : Opts} (ho : o.build = .ok o) {st : St} {log : List (Props × S)} (hi : Inv o st log) (h : Hist)
    (hk : Knows h log) (shift : Shift) (ops : Ops S) (ht : ops.Total) (s : S) (f : Props × S) (hf : f ∈ log)
    (hp : ∀ d, calcNextPhase o shift d ≠ .panic) (sf : S) (hl : Loads o ops st.dir h f.1 sf) :
    ∃ r, deriveImpl o shift ops none s h st.dir f.1 = .ok r := by
  obtain ⟨rev, h1, h2⟩ := hl
  obtain ⟨file, h3, h4⟩ := hi.files f hf
  obtain ⟨s1, s2, s3, _⟩ := hi.small f hf
  have h0 : f.1.order.length ≠ 0 := by simpa using s2
  have hnew := hk.newest hi.sorted
  unfold deriveImpl
  cases log with
  | nil => simp at hf
  | cons e l =>
    simp only [List.head?_cons, Option.map_some] at hnew
    rw [hnew]
    simp only
    rw [h3]
    simp only
    cases hn : calcNextPhase o shift file.1 with
    | err => exact absurd hn (calcNextPhase_ne_err _ _ _)
    | panic => exact absurd hn (hp _)
    | ok next =>
      simp only [Res.bind_ok]
      rw [h1]
      simp only [Res.bind_ok]
      obtain ⟨b1, b2, _⟩ := calcNextPhase_bound o (build_ok o o ho).1 shift file.1 next (by omega) (by omega) hn
      obtain ⟨r, rfl, _⟩ := ancestorsRev_shape _ _ _ _ _ h1
      have hanc : f.1.order.length ≤ (f.1 :: r).length := by
        have hkd := keyed_of_hwf h hk.1
        by_cases hc : f.1.order.length - 1 = o.maxPhase ∧ o.cumulative.isSome = true
        · rw [hc.2, ancestorsRev_cumulative h f.1 s2 _ hc.1] at h1
          obtain ⟨sib, h5, h6⟩ := bind_ok_inv _ _ _ h1
          obtain ⟨pa, h7, h8⟩ := bind_ok_inv _ _ _ h6
          simp only [Res.ok.injEq, List.cons.injEq, true_and] at h8
          have hso := siblings_order h hkd _ _ f.1 rfl (by simp; omega) sib h5
          have hzl : (sib.getLastD f.1).order.length = f.1.order.length := by
            rw [hso.2]; simp; omega
          rw [← hzl] at h7
          have := (par_struct h hkd _ _ rfl pa h7).1
          rw [← h8]
          simp only [List.length_cons, List.length_append]
          omega
        · rw [ancestorsRev_plain h f.1 s2 _ _ (Or.inl hc)] at h1
          obtain ⟨t, h5, h6⟩ := bind_ok_inv _ _ _ h1
          simp only [Res.ok.injEq, List.cons.injEq, true_and] at h6
          have := (par_struct h hkd _ _ rfl t h5).1
          rw [← h6]
          simp only [List.length_cons]
          omega
      have hcd : ∀ ctl, ∃ deps p rest, createDependencies (f.1 :: r).reverse next ctl none o.maxPhase o.cumulative.isSome =
          .ok (deps, p) ∧ (f.1 :: r).reverse = deps ++ rest := by
        intro ctl
        have hno : ∃ op, nextOrder (f.1 :: r).reverse f.1 next o.maxPhase = .ok op := by
          unfold nextOrder
          split
          · exact ⟨_, rfl⟩
          · split
            · exact ⟨_, rfl⟩
            · rw [if_neg (by omega)]
              have : next < (f.1 :: r).reverse.length := by rw [List.length_reverse]; omega
              rw [List.getElem?_eq_getElem this]
              exact ⟨_, rfl⟩
        obtain ⟨op, hop⟩ := hno
        unfold createDependencies
        have hgl : (f.1 :: r).reverse.getLast? = some f.1 := by simp
        rw [hgl]
        simp only
        rw [hop]
        simp only [Res.bind_ok]
        split
        · exact ⟨_, _, [], rfl, by simp⟩
        · rw [if_pos (by rw [List.length_reverse]; omega)]
          exact ⟨_, _, (f.1 :: r).reverse.drop next, rfl, (List.take_append_drop _ _).symm⟩
      obtain ⟨deps, p, rest, h5, h6⟩ := hcd (if e.1 = f.1 then e.1.control else e.1.control + 1)
      rw [h5]
      simp only [Res.bind_ok]
      rw [h6] at h2
      obtain ⟨c, hc⟩ := compose_prefix ops st.dir deps rest _ _ h2
      rw [hc]
      simp only [Res.bind_ok]
      obtain ⟨d, hd⟩ := ht c s
      rw [hd]
      exact ⟨_, rfl⟩

/-- If nothing was derived from an older file, every file of a later phase has a parent. -/
theorem parent_exists {o : Opts} {st : St} {log : List (Props × S)} (h : Hist) (hk : Knows h log)
    (hnd : ∀ e ∈ log, e.1.prevCtl = e.1.control) (ops : Ops S) (b : Props × S) (h2 : 2 ≤ b.1.order.length)
    (s : S) (hl : Loads o ops st.dir h b.1 s) : ∃ f, h.getParent b.1 = some f := by
  have hkd := keyed_of_hwf h hk.1
  have hne : b.1.order ≠ [] := by
    intro hc; rw [hc] at h2; simp at h2
  obtain ⟨rev, h1, _⟩ := hl
  by_cases hc : b.1.order.length - 1 = o.maxPhase ∧ o.cumulative.isSome = true
  · rw [hc.2, ancestorsRev_cumulative h b.1 hne _ hc.1] at h1
    obtain ⟨sib, h5, h6⟩ := bind_ok_inv _ _ _ h1
    obtain ⟨pa, h7, h8⟩ := bind_ok_inv _ _ _ h6
    have hso := siblings_order h hkd _ _ b.1 rfl (by simp; omega) sib h5
    have hzl : (sib.getLastD b.1).order.length = b.1.order.length := by
      rw [hso.2]; simp; omega
    have hctl : ∀ (base : List Nat) (k : Nat) (p : Props) (l : List Props), p.prevCtl = b.1.prevCtl →
        siblings h base k p = .ok l → (l.getLastD p).prevCtl = b.1.prevCtl := by
      intro base k
      induction k with
      | zero => intro p l hp hl; cases hl; exact hp
      | succ k ih =>
        intro p l hp hl
        rw [siblings] at hl
        cases hq : h.getProps p.prevCtl (base ++ [k]) with
        | none => rw [hq] at hl; cases hl
        | some q =>
          rw [hq] at hl
          simp only at hl
          cases hr : siblings h base k q with
          | ok r =>
            rw [hr] at hl
            cases hl
            rw [List.getLastD_cons]
            refine ih q r ?_ hr
            obtain ⟨⟨e, he, rfl⟩, hkey⟩ := (hk.2 _ _ _).1 hq
            rw [hnd e he]
            simp only [key, List.cons.injEq] at hkey
            rw [hkey.1, hp]
          | err => rw [hr] at hl; cases hl
          | panic => rw [hr] at hl; cases hl
    have hz := hctl _ _ b.1 sib rfl h5
    rw [← hzl] at h7
    obtain ⟨q, t, hq, _⟩ := par_cons h hkd _ (by omega) pa h7
    refine ⟨q, ?_⟩
    unfold FileHistory.History.getParent at hq ⊢
    rw [hz] at hq
    simp only [orderBase] at hq hso ⊢
    rw [hso.1] at hq
    exact hq
  · rw [ancestorsRev_plain h b.1 hne _ _ (Or.inl hc)] at h1
    obtain ⟨t, h5, h6⟩ := bind_ok_inv _ _ _ h1
    obtain ⟨q, _, hq, _⟩ := par_cons h hkd b.1 h2 t h5
    exact ⟨q, hq⟩

/-! Commands -/

/-- A command: save an object, or load the file with the given control number and order. -/
inductive Cmd (S : Type) where
  | save (rid : Nat) (s : S)
  | load (ctl : Nat) (order : List Nat) (rid : Nat)

def playOne (o : Opts) (shift : Shift) (ops : Ops S) (x : St × List (Props × S)) : Cmd S → St × List (Props × S)
  | .save rid s =>
    match save o shift ops x.1 rid none s with
    | (st', .ok p) => (st', (p, s) :: x.2)
    | (st', .err) => (st', x.2)
    | (st', .panic) => (st', x.2)
  | .load c ord rid =>
    match x.1.history with
    | .ok h =>
      match h.getProps c ord with
      | some p => ((loadFile o ops x.1 h p rid).1, x.2)
      | none => x
    | .err => x
    | .panic => x

def play (o : Opts) (shift : Shift) (ops : Ops S) (cmds : List (Cmd S)) : St × List (Props × S) :=
  cmds.foldl (playOne o shift ops) (⟨[], none⟩, [])

theorem playOne_reach (o : Opts) (shift : Shift) (ops : Ops S) (x : St × List (Props × S)) (c : Cmd S)
    (hr : Reach o ops x.1 x.2) (hl : x.2.length < 10 ^ 8 - 1) :
    Reach o ops (playOne o shift ops x c).1 (playOne o shift ops x c).2 ∧
      (playOne o shift ops x c).2.length ≤ x.2.length + 1 := by
  cases c with
  | save rid s =>
    rw [playOne]
    split
    · rename_i st' p hs
      exact ⟨.save shift x.1 st' x.2 rid s p hr hl hs, by simp⟩
    · rename_i st' hs
      exact ⟨.fail shift x.1 st' x.2 rid s .err hr hl hs (by simp), by simp⟩
    · rename_i st' hs
      exact ⟨.fail shift x.1 st' x.2 rid s .panic hr hl hs (by simp), by simp⟩
  | load c ord rid =>
    rw [playOne]
    split
    · rename_i h hh
      split
      · rename_i p hp
        obtain ⟨h', hh', hk⟩ := hr.inv.history
        rw [hh] at hh'
        cases hh'
        refine ⟨.load x.1 x.2 h p rid hr hh ?_, by simp⟩
        rw [mem_listFiles h hk.1]
        have := (hgetProps_key h hk.1 _ _ _ hp).1
        simp only [key, List.cons.injEq] at this
        rw [this.1, this.2]
        exact hp
      · exact ⟨hr, by simp⟩
    · exact ⟨hr, by simp⟩
    · exact ⟨hr, by simp⟩

theorem play_reach (o : Opts) (shift : Shift) (ops : Ops S) (cmds : List (Cmd S)) (hl : cmds.length < 10 ^ 8 - 1) :
    Reach o ops (play o shift ops cmds).1 (play o shift ops cmds).2 := by
  unfold play
  have : ∀ (cmds : List (Cmd S)) (x : St × List (Props × S)), Reach o ops x.1 x.2 → x.2.length + cmds.length < 10 ^ 8 - 1 →
      Reach o ops (cmds.foldl (playOne o shift ops) x).1 (cmds.foldl (playOne o shift ops) x).2 := by
    intro cmds
    induction cmds with
    | nil => intro x hx _; exact hx
    | cons c cmds ih =>
      intro x hx hl
      obtain ⟨h1, h2⟩ := playOne_reach o shift ops x c hx (by simp at hl; omega)
      exact ih _ h1 (by simp at hl; omega)
  exact this cmds _ (.start [] (by simp) (by simp)) (by simpa using hl)

end
end Verif.History
