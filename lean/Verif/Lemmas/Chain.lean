import Verif.Lemmas.History
/-! Helper lemmas: dependency chains of history files. -/
namespace Verif.History
open VarInt FileName FileHistory Phase

abbrev Hist := FileHistory.History

/-- Stored files have the order they are stored under. -/
def Keyed (h : Hist) : Prop := ∀ c o q, h.getProps c o = some q → q.order = o

theorem keyed_of_hwf (h : Hist) (hh : HWF h) : Keyed h := by
  intro c o q hq
  have := (hgetProps_key h hh c o q hq).1
  simp only [key, List.cons.injEq] at this
  exact this.2

/-- `h'` knows everything `h` knows. -/
def Extends (h h' : Hist) : Prop := ∀ c o q, h.getProps c o = some q → h'.getProps c o = some q

theorem siblings_mono (h h' : Hist) (hx : Extends h h') (base : List Nat) (k : Nat) (p : Props) (l : List Props)
    (hl : siblings h base k p = .ok l) : siblings h' base k p = .ok l := by
  induction k generalizing p l with
  | zero => exact hl
  | succ k ih =>
    rw [siblings] at hl ⊢
    cases hq : h.getProps p.prevCtl (base ++ [k]) with
    | none => rw [hq] at hl; cases hl
    | some q =>
      rw [hq] at hl
      rw [hx _ _ _ hq]
      simp only at hl ⊢
      cases hr : siblings h base k q with
      | ok r => rw [hr] at hl; rw [ih q r hr]; exact hl
      | err => rw [hr] at hl; cases hl
      | panic => rw [hr] at hl; cases hl

theorem parents_mono (h h' : Hist) (hx : Extends h h') (fuel : Nat) (p : Props) (l : List Props)
    (hl : parents h fuel p = .ok l) : parents h' fuel p = .ok l := by
  induction fuel generalizing p l with
  | zero => exact hl
  | succ k ih =>
    rw [parents] at hl ⊢
    by_cases h2 : 2 ≤ p.order.length
    · rw [if_pos h2] at hl ⊢
      cases hq : h.getParent p with
      | none => rw [hq] at hl; cases hl
      | some q =>
        rw [hq] at hl
        have hq' : h'.getParent p = some q := hx _ _ _ hq
        rw [hq']
        simp only at hl ⊢
        cases hr : parents h k q with
        | ok r => rw [hr] at hl; rw [ih q r hr]; exact hl
        | err => rw [hr] at hl; cases hl
        | panic => rw [hr] at hl; cases hl
    · rw [if_neg h2] at hl ⊢
      exact hl

/-- the chain of parents -/
def par (h : Hist) (p : Props) : Res (List Props) := parents h p.order.length p

theorem getParent_order (h : Hist) (hk : Keyed h) (p q : Props) (hq : h.getParent p = some q) :
    q.order = p.order.dropLast := hk _ _ _ hq

theorem parents_fuel (h : Hist) (hk : Keyed h) (n m : Nat) (p : Props) (hn : p.order.length ≤ n) (hm : p.order.length ≤ m) :
    parents h n p = parents h m p := by
  induction n generalizing m p with
  | zero =>
    cases m with
    | zero => rfl
    | succ m => rw [parents, parents, if_neg (by omega)]
  | succ n ih =>
    cases m with
    | zero => rw [parents, parents, if_neg (by omega)]
    | succ m =>
      rw [parents, parents]
      split
      · cases hq : h.getParent p with
        | none => rfl
        | some q =>
          simp only
          have := getParent_order h hk p q hq
          have hl : q.order.length = p.order.length - 1 := by rw [this, List.length_dropLast]
          rw [ih m q (by omega) (by omega)]
      · rfl

theorem par_eq (h : Hist) (hk : Keyed h) (p : Props) :
    par h p = if 2 ≤ p.order.length then
        match h.getParent p with
        | some q => (par h q).map (q :: ·)
        | none => .err
      else .ok [] := by
  unfold par
  cases hn : p.order.length with
  | zero => rw [parents, if_neg (by omega)]
  | succ n =>
    rw [parents, hn]
    split
    · cases hq : h.getParent p with
      | none => rfl
      | some q =>
        simp only
        have := getParent_order h hk p q hq
        have hl : q.order.length = p.order.length - 1 := by rw [this, List.length_dropLast]
        rw [parents_fuel h hk n q.order.length q (by omega) (by omega)]
    · rfl

theorem par_congr (h : Hist) (hk : Keyed h) (p q : Props) (hl : p.order.length = q.order.length)
    (hp : 2 ≤ p.order.length → h.getParent p = h.getParent q) : par h p = par h q := by
  rw [par_eq h hk, par_eq h hk q, ← hl]
  split
  · rename_i h2; rw [hp h2]
  · rfl

theorem par_cons (h : Hist) (hk : Keyed h) (p : Props) (h2 : 2 ≤ p.order.length) (r : List Props) (hr : par h p = .ok r) :
    ∃ q t, h.getParent p = some q ∧ par h q = .ok t ∧ r = q :: t := by
  rw [par_eq h hk, if_pos h2] at hr
  cases hq : h.getParent p with
  | none => rw [hq] at hr; cases hr
  | some q =>
    rw [hq] at hr
    simp only at hr
    cases ht : par h q with
    | ok t => rw [ht] at hr; cases hr; exact ⟨q, t, rfl, ht, rfl⟩
    | err => rw [ht] at hr; cases hr
    | panic => rw [ht] at hr; cases hr

theorem par_short (h : Hist) (hk : Keyed h) (p : Props) (h2 : p.order.length ≤ 1) : par h p = .ok [] := by
  rw [par_eq h hk, if_neg (by omega)]

/-- The chain of parents, phase by phase. -/
theorem par_struct (h : Hist) (hk : Keyed h) (n : Nat) (p : Props) (hn : p.order.length = n) (r : List Props)
    (hr : par h p = .ok r) :
    r.length = n - 1 ∧ ∀ i a, r.reverse[i]? = some a →
      a.order = p.order.take (i + 1) ∧ par h a = .ok (r.reverse.take i).reverse := by
  induction n generalizing p r with
  | zero =>
    rw [par_short h hk p (by omega)] at hr
    cases hr
    simp
  | succ n ih =>
    by_cases h2 : 2 ≤ p.order.length
    · obtain ⟨q, t, hq, ht, rfl⟩ := par_cons h hk p h2 r hr
      have ho := getParent_order h hk p q hq
      have hl : q.order.length = n := by rw [ho, List.length_dropLast, hn]; rfl
      obtain ⟨i1, i2⟩ := ih q hl t ht
      refine ⟨by simp [i1]; omega, ?_⟩
      intro i a ha
      rw [List.reverse_cons] at ha ⊢
      by_cases hi : i < t.reverse.length
      · rw [List.getElem?_append_left hi] at ha
        obtain ⟨j1, j2⟩ := i2 i a ha
        rw [List.length_reverse] at hi
        refine ⟨?_, ?_⟩
        · rw [j1, ho, List.dropLast_eq_take, List.take_take]
          congr 1
          omega
        · rw [j2, List.take_append_of_le_length (by rw [List.length_reverse]; omega)]
      · have hil : i = t.reverse.length := by
          by_contra hne
          rw [List.getElem?_eq_none (by simp at hi hne ⊢; omega)] at ha
          cases ha
        subst hil
        rw [List.getElem?_append_right (Nat.le_refl _)] at ha
        simp only [Nat.sub_self, List.getElem?_cons_zero, Option.some.injEq] at ha
        subst ha
        refine ⟨?_, ?_⟩
        · rw [ho, List.dropLast_eq_take]
          congr 1
          rw [List.length_reverse]
          omega
        · rw [List.take_left, List.reverse_reverse]
          exact ht
    · rw [par_short h hk p (by omega)] at hr
      cases hr
      exact ⟨by simp; omega, by simp⟩

/-- The siblings all have the same order up to the last number. -/
theorem siblings_order (h : Hist) (hk : Keyed h) (base : List Nat) (k : Nat) (p : Props) (hp : p.order.dropLast = base)
    (hpl : p.order.length = base.length + 1) (l : List Props)
    (hl : siblings h base k p = .ok l) : (l.getLastD p).order.dropLast = base ∧ (l.getLastD p).order.length = base.length + 1 := by
  induction k generalizing p l with
  | zero => cases hl; exact ⟨hp, hpl⟩
  | succ k ih =>
    rw [siblings] at hl
    cases hq : h.getProps p.prevCtl (base ++ [k]) with
    | none => rw [hq] at hl; cases hl
    | some q =>
      rw [hq] at hl
      simp only at hl
      cases hr : siblings h base k q with
      | ok r =>
        rw [hr] at hl
        cases hl
        have ho := hk _ _ _ hq
        have := ih q (by rw [ho]; simp) (by rw [ho]; simp) r hr
        rw [List.getLastD_cons]
        exact this
      | err => rw [hr] at hl; cases hl
      | panic => rw [hr] at hl; cases hl

/-- `create_ancestors_rev` without a cumulative part -/
theorem ancestorsRev_plain (h : Hist) (p : Props) (hp : p.order ≠ []) (m : Nat) (cu : Bool)
    (hc : ¬ (p.order.length - 1 = m ∧ cu = true) ∨ orderLast p = 0) :
    ancestorsRev h p m cu = (par h p).bind fun r => .ok (p :: r) := by
  unfold ancestorsRev
  have h0 : p.order.length ≠ 0 := by simpa using hp
  rw [if_neg h0]
  have hs : (if p.order.length - 1 = m ∧ cu = true then siblings h (orderBase p) (orderLast p) p else .ok []) = .ok [] := by
    split
    · rename_i h1
      rcases hc with hc | hc
      · exact absurd h1 hc
      · rw [hc]; rfl
    · rfl
  rw [hs]
  rfl

theorem ancestorsRev_cumulative (h : Hist) (p : Props) (hp : p.order ≠ []) (m : Nat) (hm : p.order.length - 1 = m) :
    ancestorsRev h p m true = (siblings h (orderBase p) (orderLast p) p).bind fun sib =>
      (parents h p.order.length (sib.getLastD p)).bind fun par => .ok (p :: (sib ++ par)) := by
  unfold ancestorsRev
  have h0 : p.order.length ≠ 0 := by simpa using hp
  rw [if_neg h0, if_pos ⟨hm, rfl⟩]

theorem bind_ok_inv {α β : Type} (r : Res α) (f : α → Res β) (b : β) (h : r.bind f = .ok b) :
    ∃ a, r = .ok a ∧ f a = .ok b := by
  cases r with
  | ok a => exact ⟨a, rfl, h⟩
  | err => cases h
  | panic => cases h

theorem ancestorsRev_mono (h h' : Hist) (hx : Extends h h') (p : Props) (m : Nat) (cu : Bool) (l : List Props)
    (hl : ancestorsRev h p m cu = .ok l) : ancestorsRev h' p m cu = .ok l := by
  unfold ancestorsRev at hl ⊢
  split
  · rename_i h0; rw [if_pos h0] at hl; exact hl
  · rename_i h0
    rw [if_neg h0] at hl
    obtain ⟨sib, h1, h2⟩ := bind_ok_inv _ _ _ hl
    obtain ⟨pa, h3, h4⟩ := bind_ok_inv _ _ _ h2
    have h1' : (if p.order.length - 1 = m ∧ cu = true then siblings h' (orderBase p) (orderLast p) p else .ok []) = .ok sib := by
      split
      · rename_i hc; rw [if_pos hc] at h1; exact siblings_mono h h' hx _ _ _ _ h1
      · rename_i hc; rw [if_neg hc] at h1; exact h1
    rw [h1']
    simp only [Res.bind_ok]
    rw [parents_mono h h' hx _ _ _ h3]
    exact h4

/-- The chain of a new file is what its diff was made against, followed by itself. The excepted case is the
continuation, in the last phase and without the cumulative option, of a file whose parent has another control number. -/
theorem new_chain (h h' : Hist) (hx : Extends h h') (hk : Keyed h) (hk' : Keyed h') (o : Opts) (shift : Shift)
    (f p : Props) (d : Data) (next ctl : Nat) (hf : h.getProps f.control f.order = some f) (hne : f.order ≠ [])
    (hlen : f.order.length ≤ o.maxPhase + 1) (hd : d.length = f.order.length)
    (hn : calcNextPhase o shift d = .ok next) (rev deps : List Props)
    (hrev : ancestorsRev h f o.maxPhase o.cumulative.isSome = .ok rev)
    (hdep : createDependencies rev.reverse next ctl none o.maxPhase o.cumulative.isSome = .ok (deps, p))
    (hok : o.cumulative.isSome = true ∨ f.order.length ≤ o.maxPhase ∨ next ≠ o.maxPhase ∨ o.maxPhase = 0 ∨
      f.prevCtl = f.control) :
    ancestorsRev h' p o.maxPhase o.cumulative.isSome = .ok (p :: deps.reverse) := by
  have h0 : f.order.length ≠ 0 := by simpa using hne
  obtain ⟨r, rfl, _⟩ := ancestorsRev_shape _ _ _ _ _ hrev
  obtain ⟨ord, prev, hno, rfl, hdeps⟩ := createDependencies_ok _ f (by simp) _ _ _ _ _ _ _ hdep
  have hparmono : ∀ q l, par h q = .ok l → par h' q = .ok l := fun q l hl => parents_mono h h' hx _ _ _ hl
  unfold nextOrder at hno
  by_cases h1 : f.order.length - 1 < o.maxPhase
  · rw [if_pos h1] at hno
    cases hno
    have hnx : next = d.length := by
      unfold calcNextPhase at hn
      rw [if_pos (by omega)] at hn
      cases hn; rfl
    rw [ancestorsRev_plain h f hne _ _ (Or.inl (by omega))] at hrev
    obtain ⟨t, ht, hrt⟩ := bind_ok_inv _ _ _ hrev
    simp only [Res.ok.injEq, List.cons.injEq, true_and] at hrt
    subst hrt
    obtain ⟨t1, _⟩ := par_struct h hk _ f rfl t ht
    have hdr : deps.reverse = f :: t := by
      rw [hdeps]
      split
      · rw [List.reverse_reverse]
      · rw [List.take_of_length_le (by simp only [List.length_reverse, List.length_cons]; omega), List.reverse_reverse]
    rw [ancestorsRev_plain h' _ (by simp) _ _ (Or.inr (by simp [orderLast])), par_eq h' hk']
    simp only [List.length_append, List.length_cons, List.length_nil]
    rw [if_pos (by omega)]
    have hp : h'.getParent ⟨ctl, f.control, f.order ++ [0], none⟩ = some f := by
      simp only [FileHistory.History.getParent, orderBase, List.dropLast_concat]
      exact hx _ _ _ hf
    rw [hp]
    simp only
    rw [hparmono f t ht, hdr]
    rfl
  · rw [if_neg h1] at hno
    have hmax : f.order.length = o.maxPhase + 1 := by omega
    have hs := split_last f.order hne
    by_cases h2 : next = o.maxPhase
    · rw [if_pos h2] at hno
      cases hno
      have hbase : orderBase ⟨ctl, f.control, incLast f.order, none⟩ = f.order.dropLast := by simp [orderBase, incLast]
      have hlast : orderLast ⟨ctl, f.control, incLast f.order, none⟩ = f.order.getLastD 0 + 1 := by
        simp [orderLast, incLast]
      have hlen' : (incLast f.order).length = o.maxPhase + 1 := by rw [length_incLast _ hne, hmax]
      by_cases hcu : o.cumulative.isSome = true
      · rw [hcu] at hrev hdeps ⊢
        rw [if_pos ⟨h2, rfl⟩] at hdeps
        rw [ancestorsRev_cumulative h f hne _ (by omega)] at hrev
        obtain ⟨sib, h3, h4⟩ := bind_ok_inv _ _ _ hrev
        obtain ⟨pa, h5, h6⟩ := bind_ok_inv _ _ _ h4
        simp only [Res.ok.injEq, List.cons.injEq, true_and] at h6
        rw [ancestorsRev_cumulative h' _ (incLast_ne_nil _) _ (by simp only; omega), hbase, hlast, siblings]
        simp only
        rw [← hs, hx _ _ _ hf]
        simp only
        have h3' := siblings_mono h h' hx _ _ _ _ h3
        simp only [orderBase, orderLast] at h3'
        rw [h3']
        simp only [Res.map_ok, Res.bind_ok]
        rw [List.getLastD_cons, hlen', ← hmax, parents_mono h h' hx _ _ _ h5]
        simp only [Res.bind_ok]
        rw [hdeps, List.reverse_reverse, ← h6]
        simp
      · have hcu' : o.cumulative.isSome = false := by simpa using hcu
        rw [hcu'] at hrev hdeps ⊢
        rw [if_neg (by simp)] at hdeps
        rw [ancestorsRev_plain h f hne _ _ (Or.inl (by simp))] at hrev
        obtain ⟨t, ht, hrt⟩ := bind_ok_inv _ _ _ hrev
        simp only [Res.ok.injEq, List.cons.injEq, true_and] at hrt
        subst hrt
        obtain ⟨t1, _⟩ := par_struct h hk _ f rfl t ht
        rw [ancestorsRev_plain h' _ (incLast_ne_nil _) _ _ (Or.inl (by simp))]
        have hpc : par h' ⟨ctl, f.control, incLast f.order, none⟩ = par h' f := by
          refine par_congr h' hk' _ _ (length_incLast _ hne) ?_
          intro h2'
          simp only at h2'
          simp only [FileHistory.History.getParent, hbase]
          rcases hok with hok | hok | hok | hok | hok
          · exact absurd hok hcu
          · omega
          · exact absurd h2 hok
          · omega
          · rw [hok]; rfl
        rw [hpc, hparmono f t ht]
        simp only [Res.bind_ok]
        rw [hdeps, List.reverse_cons, List.take_append_of_le_length (by rw [List.length_reverse]; omega),
          List.take_of_length_le (by rw [List.length_reverse]; omega), List.reverse_reverse]
    · rw [if_neg h2] at hno
      by_cases h3 : f.order.length < next + 1
      · rw [if_pos h3] at hno; cases hno
      · rw [if_neg h3] at hno
        rw [if_neg (by simp [h2])] at hdeps
        cases ha : (f :: r).reverse[next]? with
        | none => rw [ha] at hno; cases hno
        | some a =>
          rw [ha] at hno
          cases hno
          -- the chain ends with the parents of a file `z` of the last phase
          have hz : ∃ (z : Props) (sib t : List Props), z.order.length = f.order.length ∧
              z.order.dropLast = f.order.dropLast ∧ par h z = .ok t ∧ f :: r = (sib ++ t : List Props) := by
            by_cases hcu : o.cumulative.isSome = true
            · rw [hcu] at hrev
              rw [ancestorsRev_cumulative h f hne _ (by omega)] at hrev
              obtain ⟨sib, h5, h6⟩ := bind_ok_inv _ _ _ hrev
              obtain ⟨pa, h7, h8⟩ := bind_ok_inv _ _ _ h6
              have hso := siblings_order h hk _ _ f rfl (by simp; omega) sib h5
              have hzl : (sib.getLastD f).order.length = f.order.length := by
                rw [hso.2]; simp; omega
              refine ⟨sib.getLastD f, f :: sib, pa, hzl, hso.1, ?_, ?_⟩
              · unfold par
                rw [hzl]; exact h7
              · simp only [Res.ok.injEq, List.cons.injEq, true_and] at h8
                rw [← h8]; rfl
            · have hcu' : o.cumulative.isSome = false := by simpa using hcu
              rw [hcu', ancestorsRev_plain h f hne _ _ (Or.inl (by simp))] at hrev
              obtain ⟨t, ht, hrt⟩ := bind_ok_inv _ _ _ hrev
              simp only [Res.ok.injEq, List.cons.injEq, true_and] at hrt
              exact ⟨f, [f], t, rfl, rfl, ht, by rw [← hrt]; rfl⟩
          obtain ⟨z, sib, t, hzl, hzd, ht, hft⟩ := hz
          obtain ⟨t1, t2⟩ := par_struct h hk _ z rfl t ht
          have hnt : next < t.reverse.length := by rw [List.length_reverse, t1]; omega
          rw [hft, List.reverse_append] at ha hdeps
          rw [List.getElem?_append_left hnt] at ha
          rw [List.take_append_of_le_length (by omega)] at hdeps
          obtain ⟨a1, a2⟩ := t2 next a ha
          have htake : ∀ n, n ≤ o.maxPhase → z.order.take n = f.order.take n := by
            intro n hn
            have e1 : z.order.take n = z.order.dropLast.take n := by
              rw [List.dropLast_eq_take, List.take_take]; congr 1; omega
            have e2 : f.order.take n = f.order.dropLast.take n := by
              rw [List.dropLast_eq_take, List.take_take]; congr 1; omega
            rw [e1, e2, hzd]
          have htne : f.order.take (next + 1) ≠ [] := by
            intro hc
            have := congrArg List.length hc
            rw [List.length_take, List.length_nil] at this
            omega
          have htl : (f.order.take (next + 1)).length = next + 1 := by rw [List.length_take]; omega
          rw [htake _ (by omega)] at a1
          have hil : (incLast (f.order.take (next + 1))).length = next + 1 := by rw [length_incLast _ htne, htl]
          rw [ancestorsRev_plain h' _ (incLast_ne_nil _) _ _ (Or.inl (by simp only; omega))]
          have hpc : par h' ⟨ctl, a.prevCtl, incLast (f.order.take (next + 1)), none⟩ = par h' a := by
            refine par_congr h' hk' _ _ (by rw [a1, htl]; exact hil) ?_
            intro _
            simp only [FileHistory.History.getParent, orderBase, a1]
            simp [incLast]
          rw [hpc, hparmono a _ a2]
          simp only [Res.bind_ok]
          rw [hdeps]

section
variable {S : Type}

/-! Composing -/

theorem compose_append (ops : Ops S) (dir : Dir) (l m : List Props) (s : S) :
    compose ops dir (l ++ m) s = (compose ops dir l s).bind (compose ops dir m) := by
  induction l generalizing s with
  | nil => rfl
  | cons p l ih =>
    rw [List.cons_append, compose, compose]
    cases dir.read p.filename with
    | none => rfl
    | some f =>
      simp only
      cases ops.app s f.2 with
      | ok t => simp only [Res.bind_ok]; exact ih t
      | err => rfl
      | panic => rfl

theorem compose_congr (ops : Ops S) (dir dir' : Dir) (hd : ∀ n f, dir.read n = some f → dir'.read n = some f)
    (l : List Props) (s r : S) (hl : compose ops dir l s = .ok r) : compose ops dir' l s = .ok r := by
  induction l generalizing s with
  | nil => exact hl
  | cons p l ih =>
    rw [compose] at hl ⊢
    cases hr : dir.read p.filename with
    | none => rw [hr] at hl; cases hl
    | some f =>
      rw [hr] at hl
      rw [hd _ _ hr]
      simp only at hl ⊢
      obtain ⟨t, h1, h2⟩ := bind_ok_inv _ _ _ hl
      rw [h1]
      exact ih t h2

/-- Loading the file gives the object. -/
def Loads (o : Opts) (ops : Ops S) (dir : Dir) (h : Hist) (p : Props) (s : S) : Prop :=
  ∃ rev, ancestorsRev h p o.maxPhase o.cumulative.isSome = .ok rev ∧ compose ops dir rev.reverse ops.src = .ok s

theorem Loads.mono {o : Opts} {ops : Ops S} {dir dir' : Dir} {h h' : Hist} {p : Props} {s : S}
    (hl : Loads o ops dir h p s) (hx : Extends h h') (hd : ∀ n f, dir.read n = some f → dir'.read n = some f) :
    Loads o ops dir' h' p s := by
  obtain ⟨rev, h1, h2⟩ := hl
  exact ⟨rev, ancestorsRev_mono h h' hx _ _ _ _ h1, compose_congr ops dir dir' hd _ _ _ h2⟩

theorem Knows.extends {h h' : Hist} {log log' : List (Props × S)} (hk : Knows h log) (hk' : Knows h' log')
    (hsub : ∀ e ∈ log, e ∈ log') : Extends h h' := by
  intro c o q hq
  obtain ⟨⟨e, he, rfl⟩, h2⟩ := (hk.2 _ _ _).1 hq
  exact (hk'.2 _ _ _).2 ⟨⟨e, hsub e he, rfl⟩, h2⟩

/-- The chain of a file just saved: what its diff was made against, then the file itself. What it was made against is part of
the chain of a file of the log; without such a file, the diff was made against the source. -/
theorem save_chain {o : Opts} {st st' : St} {log : List (Props × S)} (hi : Inv o st log) (hl : log.length < 10 ^ 8 - 1)
    (shift : Shift) (ops : Ops S) (rid : Nat) (s : S) (p : Props)
    (hs : save o shift ops st rid none s = (st', .ok p)) (h h' : Hist) (hh : st.history = .ok h) (hh' : st'.history = .ok h') :
    (∃ deps c d data, ancestorsRev h' p o.maxPhase o.cumulative.isSome = .ok (p :: deps.reverse) ∧
      compose ops st.dir deps ops.src = .ok c ∧ ops.diff c s = .ok d ∧ st'.dir = st.dir.write p.filename (data, d) ∧
      (deps = [] ∨ ∃ b newest f rev, st.baseFor rid = some b ∧ h.newest = some newest ∧ fromFile o h b newest = some f ∧
        ancestorsRev h f o.maxPhase o.cumulative.isSome = .ok rev ∧ (∀ q ∈ deps, q ∈ rev) ∧ ∃ n, deps = rev.reverse.take n)) ∨
    Lost o ((p, s) :: log) p := by
  obtain ⟨hfresh, hi', fl, hdir'⟩ := save_inv hi hl shift ops rid s p hs
  obtain ⟨h'', hh'', hk'⟩ := hi'.history
  rw [hh'] at hh''
  cases hh''
  obtain ⟨h2, hh2, hk, ⟨f, dir', hf, hd, rfl, b, newest, hb, hnew, hff⟩ | ⟨d, hd, hp, rfl⟩⟩ := save_ok hi hl shift ops rid s p hs
  · rw [hh] at hh2
    cases hh2
    obtain ⟨np, file, next, rev, deps, c, d, h1, h2, h3, h4, h5, h6, h7, rfl⟩ := deriveImpl_ok _ _ _ _ _ _ _ _ _ _ hd
    obtain ⟨e0, he0, rfl⟩ := hf
    obtain ⟨g, hg1, hg2⟩ := hi.files e0 he0
    rw [hg1] at h2
    cases h2
    obtain ⟨s1, s2, s3, s4, s5, s6⟩ := hi.small e0 he0
    by_cases hok : o.cumulative.isSome = true ∨ e0.1.order.length ≤ o.maxPhase ∨ next ≠ o.maxPhase ∨ o.maxPhase = 0 ∨
      e0.1.prevCtl = e0.1.control
    · left
      have hch := new_chain h h' (hk.extends hk' (fun e he => by simp [he])) (keyed_of_hwf h hk.1) (keyed_of_hwf h' hk'.1) o
        shift e0.1 p file.1 next _ ((hk.2 _ _ _).2 ⟨⟨e0, he0, rfl⟩, rfl⟩) s2 s3 hg2 h3 rev deps h4 h5 hok
      refine ⟨deps, c, d, _, hch, h6, h7, rfl, Or.inr ⟨b, newest, e0.1, rev, hb, hnew, hff, h4, ?_⟩⟩
      obtain ⟨r, rfl, _⟩ := ancestorsRev_shape _ _ _ _ _ h4
      obtain ⟨ord, prev, hno, rfl, hdeps⟩ := createDependencies_ok _ e0.1 (by simp) _ _ _ _ _ _ _ h5
      have hpre : ∃ n, deps = (e0.1 :: r).reverse.take n := by
        rw [hdeps]
        split
        · exact ⟨(e0.1 :: r).reverse.length, (List.take_length).symm⟩
        · exact ⟨next, rfl⟩
      refine ⟨fun q hq => ?_, hpre⟩
      obtain ⟨n, hn⟩ := hpre
      rw [hn] at hq
      exact List.mem_reverse.1 (List.mem_of_mem_take hq)
    · right
      simp only [not_or] at hok
      obtain ⟨k1, k2, k3, k4, k5⟩ := hok
      have hmax : e0.1.order.length = o.maxPhase + 1 := by omega
      -- the base file is the newest one: otherwise the save would continue the parent
      have hbe : np = e0.1 := by
        rw [hnew] at h1
        cases h1
        unfold fromFile at hff
        split at hff
        · have := getParent_order h (keyed_of_hwf h hk.1) b e0.1 hff
          rename_i hc
          unfold phase at hc
          have h9 := congrArg List.length this
          rw [List.length_dropLast] at h9
          omega
        · rename_i hc
          cases hff
          by_contra hne
          exact hc ⟨by unfold phase; omega, fun h => hne h.symm⟩
      obtain ⟨r, rfl, _⟩ := ancestorsRev_shape _ _ _ _ _ h4
      obtain ⟨ord, prev, hno, rfl, hdeps⟩ := createDependencies_ok _ e0.1 (by simp) _ _ _ _ _ _ _ h5
      unfold nextOrder at hno
      rw [if_neg (by omega), if_pos (by omega)] at hno
      cases hno
      refine ⟨?_, k4, ?_, e0, by simp [he0], ?_, k5, hmax, rfl⟩
      · simpa using k1
      · simp [hbe]
      · simp [hbe]
  · left
    have hord : p.order = [0] := by rw [hp]
    refine ⟨[], ops.src, d, _, ?_, rfl, hd, rfl, Or.inl rfl⟩
    rw [ancestorsRev_plain h' p (by simp [hord]) _ _ (Or.inr (by simp [orderLast, hord])),
      par_short h' (keyed_of_hwf h' hk'.1) p (by simp [hord])]
    rfl

theorem save_loads {o : Opts} {st st' : St} {log : List (Props × S)} (hi : Inv o st log) (hl : log.length < 10 ^ 8 - 1)
    (shift : Shift) (ops : Ops S) (hlaw : ops.Lawful) (rid : Nat) (s : S) (p : Props)
    (hs : save o shift ops st rid none s = (st', .ok p)) (h' : Hist) (hh' : st'.history = .ok h') :
    Loads o ops st'.dir h' p s ∨ Lost o ((p, s) :: log) p := by
  obtain ⟨hfresh, hi', fl, hdir'⟩ := save_inv hi hl shift ops rid s p hs
  obtain ⟨h, hh, hk⟩ := hi.history
  rcases save_chain hi hl shift ops rid s p hs h h' hh hh' with ⟨deps, c, d, data, h1, h2, h3, h4, _⟩ | hlost
  · left
    refine ⟨_, h1, ?_⟩
    have hrd : ∀ n g, st.dir.read n = some g → st'.dir.read n = some g := by
      intro n g hg
      rw [h4, read_write, if_neg, hg]
      rintro rfl
      exact hfresh (mem_of_read _ _ _ hg)
    rw [List.reverse_cons, List.reverse_reverse, compose_append, compose_congr ops st.dir _ hrd deps _ _ h2]
    simp only [Res.bind_ok, compose]
    rw [h4, read_write, if_pos rfl]
    simp only
    rw [hlaw _ _ _ h3]
    rfl
  · exact Or.inr hlost

theorem Lost.mono {o : Opts} {log log' : List (Props × S)} {p : Props} (h : Lost o log p) (hsub : ∀ e ∈ log, e ∈ log') :
    Lost o log' p := by
  obtain ⟨h1, h2, h3, q, h4, h5⟩ := h
  exact ⟨h1, h2, h3, q, hsub q h4, h5⟩

/-- Every saved file can be loaded or is lost. -/
theorem Reach.loads {o : Opts} {ops : Ops S} (hlaw : ops.Lawful) {st : St} {log : List (Props × S)}
    (hr : Reach o ops st log) (h : Hist) (hh : st.history = .ok h) :
    ∀ e ∈ log, Loads o ops st.dir h e.1 e.2 ∨ Lost o log e.1 := by
  induction hr generalizing h with
  | start => simp
  | save shift st st' log rid s p hr hl hs ih =>
    intro e he
    rcases List.mem_cons.1 he with rfl | he
    · exact save_loads hr.inv hl shift ops hlaw rid s p hs h hh
    · obtain ⟨h0, hh0, hk0⟩ := hr.inv.history
      obtain ⟨hfresh, hi', f, hdir⟩ := save_inv hr.inv hl shift ops rid s p hs
      obtain ⟨h1, hh1, hk1⟩ := hi'.history
      rw [hh] at hh1
      cases hh1
      rcases ih h0 hh0 e he with hlo | hlo
      · left
        refine hlo.mono (hk0.extends hk1 (fun e he => by simp [he])) ?_
        intro n g hg
        rw [hdir, ← write_fresh _ _ _ hfresh, read_write, if_neg, hg]
        rintro rfl
        exact hfresh (mem_of_read _ _ _ hg)
      · exact Or.inr (hlo.mono (fun e he => by simp [he]))
  | unfinished shift st st' log rid s p hr hl hs ih =>
    intro e he
    replace hh : st'.history = .ok h := hh
    rcases List.mem_cons.1 he with rfl | he
    · exact save_loads hr.inv hl shift ops hlaw rid s p hs h hh
    · obtain ⟨h0, hh0, hk0⟩ := hr.inv.history
      obtain ⟨hfresh, hi', f, hdir⟩ := save_inv hr.inv hl shift ops rid s p hs
      obtain ⟨h1, hh1, hk1⟩ := hi'.history
      rw [hh] at hh1
      cases hh1
      rcases ih h0 hh0 e he with hlo | hlo
      · left
        refine hlo.mono (hk0.extends hk1 (fun e he => by simp [he])) ?_
        intro n g hg
        rw [hdir, ← write_fresh _ _ _ hfresh, read_write, if_neg, hg]
        rintro rfl
        exact hfresh (mem_of_read _ _ _ hg)
      · exact Or.inr (hlo.mono (fun e he => by simp [he]))
  | fail shift st st' log rid s r hr hl hs hf ih =>
    have := save_fail hr.inv hl shift ops rid s r hs hf
    subst this
    exact ih h hh
  | load st log h2 p rid hr hh2 hp ih =>
    have hd : (loadFile o ops st h2 p rid).1.dir = st.dir := by
      unfold loadFile
      split <;> rfl
    have hh3 : st.history = .ok h := by
      unfold St.history at hh ⊢
      rw [hd] at hh
      exact hh
    rw [hd]
    exact ih h hh3
  | list st dir log hr hp ih =>
    intro e he
    obtain ⟨h0, hh0, hk0⟩ := hr.inv.history
    obtain ⟨h1, hh1, hk1⟩ := (Reach.list st dir log hr hp).inv.history
    rw [hh] at hh1
    cases hh1
    rcases ih h0 hh0 e he with hlo | hlo
    · left
      refine hlo.mono (hk0.extends hk1 (fun e he => he)) ?_
      intro n g hg
      simp only
      rw [read_perm _ _ hp hr.inv.nodup, hg]
    · exact Or.inr hlo
  | restart st log hr ih => exact ih h hh
  | other st log r e hr he ih => exact ih h hh

/-- `load` of a saved file -/
theorem load_of_loads {o : Opts} {ops : Ops S} {st : St} {log : List (Props × S)} (hi : Inv o st log) (h : Hist)
    (e : Props × S) (he : e ∈ log) (s : S) (hl : Loads o ops st.dir h e.1 s) : load o ops st.dir h e.1 = .ok s := by
  obtain ⟨rev, h1, h2⟩ := hl
  unfold load
  rw [hi.analyze_file e he]
  simp only [Res.bind_ok]
  rw [h1]
  exact h2

end
end Verif.History
