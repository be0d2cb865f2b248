import Verif.Props.History
/-!
# C92: how many files a load opens

`ancestorsRev` are the files that a load opens (load.rs:22-29), newest first. `C92_only` says that nothing else is read.
-/
namespace Verif.History
open VarInt FileName FileHistory Phase

section
variable {S : Type}

theorem siblings_length (h : Hist) (base : List Nat) (k : Nat) (p : Props) (l : List Props) (hl : siblings h base k p = .ok l) :
    l.length = k := by
  induction k generalizing p l with
  | zero => cases hl; rfl
  | succ k ih =>
    rw [siblings] at hl
    cases hq : h.getProps p.prevCtl (base ++ [k]) with
    | none => rw [hq] at hl; cases hl
    | some q =>
      rw [hq] at hl
      simp only at hl
      cases hr : siblings h base k q with
      | ok r =>
        rw [hr] at hl
        cases hl
        rw [List.length_cons, ih q r hr]
      | err => rw [hr] at hl; cases hl
      | panic => rw [hr] at hl; cases hl

/-- The length of a chain. -/
theorem chain_length (h : Hist) (hk : Keyed h) (p : Props) (hp : p.order ≠ []) (m : Nat) (cu : Bool) (l : List Props)
    (hl : ancestorsRev h p m cu = .ok l) :
    l.length = p.order.length + if p.order.length - 1 = m ∧ cu = true then orderLast p else 0 := by
  have h0 : p.order.length ≠ 0 := by simpa using hp
  by_cases hc : p.order.length - 1 = m ∧ cu = true
  · rw [if_pos hc]
    obtain ⟨h1, rfl⟩ := hc
    rw [ancestorsRev_cumulative h p hp m h1] at hl
    obtain ⟨sib, hs, hl⟩ := bind_ok_inv _ _ _ hl
    obtain ⟨t, ht, hl⟩ := bind_ok_inv _ _ _ hl
    cases hl
    have hlen : p.order.length = (orderBase p).length + 1 := by
      rw [orderBase, List.length_dropLast]; omega
    obtain ⟨s1, s2⟩ := siblings_order h hk (orderBase p) (orderLast p) p rfl hlen sib hs
    have hpar : par h (sib.getLastD p) = .ok t := by
      unfold par
      rw [s2, ← hlen]
      exact ht
    have ht' := (par_struct h hk _ _ rfl t hpar).1
    have hsl := siblings_length h _ _ _ _ hs
    simp only [List.length_cons, List.length_append]
    omega
  · rw [if_neg hc]
    rw [ancestorsRev_plain h p hp m cu (.inl hc)] at hl
    obtain ⟨t, ht, hl⟩ := bind_ok_inv _ _ _ hl
    cases hl
    have ht' := (par_struct h hk _ _ rfl t ht).1
    simp only [List.length_cons]
    omega

/-- C92: a load reads the files of the chain and no others. -/
theorem C92_only (o : Opts) (ops : Ops S) (dir dir' : Dir) (h : Hist) (p : Props) (ha : analyze p.filename = .ok (some p))
    (rev : List Props) (hr : ancestorsRev h p o.maxPhase o.cumulative.isSome = .ok rev)
    (hd : ∀ q ∈ rev, dir'.read q.filename = dir.read q.filename) : load o ops dir' h p = load o ops dir h p := by
  have : ∀ (l : List Props) (s : S), (∀ q ∈ l, dir'.read q.filename = dir.read q.filename) →
      compose ops dir' l s = compose ops dir l s := by
    intro l
    induction l with
    | nil => intro s _; rfl
    | cons q l ih =>
      intro s hq
      rw [compose, compose, hq q (by simp)]
      cases dir.read q.filename with
      | none => rfl
      | some f =>
        simp only
        cases ops.app s f.2 with
        | ok y => exact ih y fun q' h' => hq q' (by simp [h'])
        | err => rfl
        | panic => rfl
  unfold load
  rw [ha]
  simp only [Res.bind_ok]
  rw [hr]
  simp only [Res.bind_ok]
  exact this _ _ fun q hq => hd q (List.mem_reverse.1 hq)

/-- C92: the number of files that a load opens. It is one for each phase down to that of the file, and in the last phase of a
cumulative history also one for each file before it. -/
theorem C92_exact (o : Opts) (ops : Ops S) (st : St) (log : List (Props × S)) (hr : Reach o ops st log) (h : Hist)
    (hh : st.history = .ok h) (p : Props) (hp : p ∈ h.listFiles) (rev : List Props)
    (ha : ancestorsRev h p o.maxPhase o.cumulative.isSome = .ok rev) :
    rev.length = p.order.length + (if p.order.length = o.maxPhase + 1 ∧ o.cumulative.isSome then p.order.getLastD 0 else 0) := by
  obtain ⟨h', hh', hk⟩ := hr.inv.history
  rw [hh] at hh'
  cases hh'
  rw [mem_listFiles h hk.1, hk.2] at hp
  obtain ⟨⟨e, he, rfl⟩, _⟩ := hp
  obtain ⟨_, h2, h3, _⟩ := hr.inv.small e he
  rw [chain_length h (keyed_of_hwf h hk.1) e.1 h2 _ _ _ ha]
  have h0 : e.1.order.length ≠ 0 := by simpa using h2
  congr 1
  exact if_congr ⟨fun x => ⟨by omega, x.2⟩, fun x => ⟨by omega, x.2⟩⟩ rfl rfl

/-- C92 without a cumulative phase: at most one file for each phase is opened ("It's 4-Phase, so we only need 4 files to get any state"). -/
theorem C92_plain (o : Opts) (hc : o.cumulative = none) (ops : Ops S) (st : St) (log : List (Props × S)) (hr : Reach o ops st log) (h : Hist)
    (hh : st.history = .ok h) (p : Props) (hp : p ∈ h.listFiles) (rev : List Props)
    (ha : ancestorsRev h p o.maxPhase o.cumulative.isSome = .ok rev) : rev.length ≤ o.maxPhase + 1 := by
  rw [C92_exact o ops st log hr h hh p hp rev ha, if_neg (by simp [hc])]
  obtain ⟨h', hh', hk⟩ := hr.inv.history
  rw [hh] at hh'
  cases hh'
  rw [mem_listFiles h hk.1, hk.2] at hp
  obtain ⟨⟨e, he, rfl⟩, _⟩ := hp
  have := (hr.inv.small e he).2.2.1
  omega

/-- The last phase is chosen after a file of the last phase only if its count is below the limit. -/
theorem phase_count {o : Opts} {shift : Shift} {lim : Nat} {c : Cumulative} (hc : o.cumulative = some c) (hlim : c.limitCount = some lim)
    (hm : o.maxPhase ≠ 0) (hx : ¬ (o.maxPhase = 1 ∧ o.updatePhase0 = false)) {d : Data} (hd : d.length = o.maxPhase + 1)
    (hn : calcNextPhase o shift d = .ok o.maxPhase) : ∃ it, d[o.maxPhase - 1]? = some it ∧ it.totalLen < lim := by
  unfold calcNextPhase at hn
  rw [if_neg (by omega), show d.length - 1 = (o.maxPhase - 1) + 1 from by omega] at hn
  obtain ⟨cur, hcur, _⟩ := climb_ok d 0 (by omega)
  obtain ⟨par, hpar, hpar2⟩ := climb_ok d (0 + 1) (by omega)
  rw [show d.length - 1 - (0 + 1) = o.maxPhase - 1 from by omega] at hpar2
  refine ⟨par, hpar2, ?_⟩
  have hrest : phaseLoop o shift d (o.maxPhase - 1) (0 + 1) ≠ .ok o.maxPhase := by
    intro hr
    rcases phaseLoop_max o shift d _ _ _ (by omega) (by omega) hr with h | h
    · omega
    · exact hx ⟨h.1, h.2⟩
  rw [phaseLoop, hcur, hpar] at hn
  simp only [unwrap, Res.bind_ok] at hn
  split at hn
  · rw [if_pos trivial] at hn
    unfold cumulativeFull at hn
    simp only [hc, countReached, hlim] at hn
    by_cases hfull : lim ≤ par.totalLen
    · rw [if_pos (by simpa using hfull)] at hn
      simp only [Res.bind_ok, if_true] at hn
      exact absurd hn hrest
    · omega
  · exact absurd hn hrest

/-- The statistics of the files of the last phase count the files before it, and these are fewer than the limit. -/
def Counted (o : Opts) (lim : Nat) (st : St) (log : List (Props × S)) : Prop :=
  ∀ e ∈ log, e.1.order.length = o.maxPhase + 1 → orderLast e.1 < lim ∧
    ∃ f it, st.dir.read e.1.filename = some f ∧ f.1[o.maxPhase - 1]? = some it ∧ orderLast e.1 + 1 ≤ it.totalLen

theorem popAndPush_get (d : Data) (next size k : Nat) (it : Item) (hk : k < next) (hd : d[k]? = some it) :
    (d.popAndPush next size)[k]? = some (it.add size) := by
  have hlt : k < d.length := by
    by_contra hc
    rw [List.getElem?_eq_none (by omega)] at hd
    cases hd
  unfold Data.popAndPush Data.push
  rw [List.getElem?_append_left (by simp; omega), List.getElem?_map, List.getElem?_take, if_pos hk, hd]
  rfl

theorem save_counted {o : Opts} {lim : Nat} {c : Cumulative} (hc : o.cumulative = some c) (hlim : c.limitCount = some lim) (hl0 : lim ≠ 0)
    (hm : o.maxPhase ≠ 0) (hx : ¬ (o.maxPhase = 1 ∧ o.updatePhase0 = false)) {st st' : St} {log : List (Props × S)} (hi : Inv o st log)
    (hcn : Counted o lim st log) (hl : log.length < 10 ^ 8 - 1) (shift : Shift) (ops : Ops S) (rid : Nat) (s : S) (p : Props)
    (hs : save o shift ops st rid none s = (st', .ok p)) : Counted o lim st' ((p, s) :: log) := by
  obtain ⟨hfresh, _, _⟩ := save_inv hi hl shift ops rid s p hs
  have hold : ∀ file, st'.dir = st.dir.write p.filename file → ∀ e ∈ log, st'.dir.read e.1.filename = st.dir.read e.1.filename := by
    intro file hf e he
    rw [hf, read_write]
    obtain ⟨g, hg, _⟩ := hi.files e he
    refine if_neg fun heq => hfresh ?_
    rw [heq]
    exact mem_of_read _ _ _ hg
  have hgo : ∀ file, st'.dir = st.dir.write p.filename file → (p.order.length = o.maxPhase + 1 → orderLast p < lim ∧
      ∃ it, file.1[o.maxPhase - 1]? = some it ∧ orderLast p + 1 ≤ it.totalLen) → Counted o lim st' ((p, s) :: log) := by
    intro file hf hnew e he hlen
    rcases List.mem_cons.1 he with rfl | he
    · obtain ⟨h1, it, h2, h3⟩ := hnew hlen
      exact ⟨h1, file, it, by rw [hf, read_write, if_pos rfl], h2, h3⟩
    · rw [hold file hf e he]
      exact hcn e he hlen
  obtain ⟨h, hh, hk, ⟨f, dir', hf, hd, rfl, _⟩ | ⟨d, hd, rfl, rfl⟩⟩ := save_ok hi hl shift ops rid s p hs
  · obtain ⟨np, file, next, rev, deps, cc, d, h1, h2, h3, h4, h5, h6, h7, rfl⟩ := deriveImpl_ok _ _ _ _ _ _ _ _ _ _ hd
    refine hgo _ rfl fun hlen => ?_
    obtain ⟨e0, he0, rfl⟩ := hf
    obtain ⟨r, rfl, hr⟩ := ancestorsRev_shape _ _ _ _ _ h4
    obtain ⟨g, hg1, hg2⟩ := hi.files e0 he0
    rw [hg1] at h2
    cases h2
    obtain ⟨_, s2, s3, _⟩ := hi.small e0 he0
    have s0 : e0.1.order.length ≠ 0 := by simpa using s2
    obtain ⟨ord, prev, hno, rfl, hdeps⟩ := createDependencies_ok _ e0.1 (by simp) _ _ _ _ _ _ _ h5
    simp only at hlen
    unfold nextOrder at hno
    by_cases c1 : e0.1.order.length - 1 < o.maxPhase
    · rw [if_pos c1] at hno
      cases hno
      have hl1 : e0.1.order.length = o.maxPhase := by simpa using hlen
      have hnx : next = file.1.length := by
        unfold calcNextPhase at h3
        rw [if_pos (by omega)] at h3
        cases h3; rfl
      have hlast : orderLast (⟨if np = e0.1 then np.control else np.control + 1, e0.1.control, e0.1.order ++ [0], none⟩ : Props) = 0 := by
        simp [orderLast]
      rw [hlast]
      obtain ⟨it, hit⟩ : ∃ it, file.1[o.maxPhase - 1]? = some it := ⟨file.1[o.maxPhase - 1]'(by omega), List.getElem?_eq_getElem _⟩
      exact ⟨by omega, _, popAndPush_get _ _ _ _ it (by omega) hit, by simp [Item.add]⟩
    · rw [if_neg c1] at hno
      have hl1 : e0.1.order.length = o.maxPhase + 1 := by omega
      by_cases c2 : next = o.maxPhase
      · rw [if_pos c2] at hno
        cases hno
        subst c2
        obtain ⟨it, hit, hlt⟩ := phase_count hc hlim hm hx (by omega) h3
        obtain ⟨g1, f', it', g2, g3, g4⟩ := hcn e0 he0 hl1
        rw [hg1] at g2
        cases g2
        rw [hit] at g3
        cases g3
        have hlast : orderLast (⟨if np = e0.1 then np.control else np.control + 1, e0.1.control, incLast e0.1.order, none⟩ : Props) =
            orderLast e0.1 + 1 := by
          simp [orderLast, incLast]
        rw [hlast]
        exact ⟨by omega, _, popAndPush_get _ _ _ _ it (by omega) hit, by simp [Item.add]; omega⟩
      · rw [if_neg c2] at hno
        split at hno
        · cases hno
        · split at hno
          · cases hno
            exfalso
            have : (e0.1.order.take (next + 1)) ≠ [] := by
              intro hc
              have := congrArg List.length hc
              rw [List.length_take, List.length_nil] at this
              omega
            rw [length_incLast _ this, List.length_take] at hlen
            omega
          · cases hno
  · refine hgo _ rfl fun hlen => ?_
    simp at hlen
    omega

theorem Reach.counted {o : Opts} {lim : Nat} {c : Cumulative} (hc : o.cumulative = some c) (hlim : c.limitCount = some lim) (hl0 : lim ≠ 0)
    (hm : o.maxPhase ≠ 0) (hx : ¬ (o.maxPhase = 1 ∧ o.updatePhase0 = false)) {ops : Ops S} {st : St} {log : List (Props × S)}
    (hr : Reach o ops st log) : Counted o lim st log := by
  induction hr with
  | start dir hn hf => intro e he; simp at he
  | save shift st st' log rid s p hr hl hs ih => exact save_counted hc hlim hl0 hm hx hr.inv ih hl shift ops rid s p hs
  | unfinished shift st st' log rid s p hr hl hs ih =>
    exact save_counted (st' := st') hc hlim hl0 hm hx hr.inv ih hl shift ops rid s p hs
  | fail shift st st' log rid s r hr hl hs hf ih => rw [save_fail hr.inv hl shift ops rid s r hs hf]; exact ih
  | load st log h p rid hr hh hp ih =>
    unfold loadFile
    split <;> exact ih
  | list st dir log hr hp ih =>
    intro e he hlen
    obtain ⟨h1, f, it, h2, h3, h4⟩ := ih e he hlen
    exact ⟨h1, f, it, by rw [read_perm _ _ hp hr.inv.nodup]; exact h2, h3, h4⟩
  | restart st log hr ih => exact ih
  | other st log r e hr he ih => exact ih

/-- C92 with a cumulative phase and a limit of its count: besides one file for each of the other phases, at most `limit_count` files are
opened. Missing are the options of `C92_negation`. -/
theorem C92_limit_partial (b o : Opts) (hb : b.build = .ok o) (c : Cumulative) (hc : o.cumulative = some c) (lim : Nat)
    (hlim : c.limitCount = some lim) (hx : ¬ (o.maxPhase = 1 ∧ o.updatePhase0 = false)) (ops : Ops S) (st : St) (log : List (Props × S))
    (hr : Reach o ops st log) (h : Hist) (hh : st.history = .ok h) (p : Props) (hp : p ∈ h.listFiles) (rev : List Props)
    (ha : ancestorsRev h p o.maxPhase o.cumulative.isSome = .ok rev) : rev.length ≤ o.maxPhase + lim := by
  obtain ⟨hb0, hb1⟩ := build_ok b o hb
  obtain ⟨hl0, _, hm⟩ := hb1 c hc
  have hl0' : lim ≠ 0 := by rintro rfl; exact hl0 hlim
  have hm0 : o.maxPhase ≠ 0 := by
    intro h0
    rw [(hm h0).1] at hlim
    cases hlim
  rw [C92_exact o ops st log hr h hh p hp rev ha]
  obtain ⟨h', hh', hk⟩ := hr.inv.history
  rw [hh] at hh'
  cases hh'
  rw [mem_listFiles h hk.1, hk.2] at hp
  obtain ⟨⟨e, he, rfl⟩, _⟩ := hp
  have h3 := (hr.inv.small e he).2.2.1
  by_cases hlen : e.1.order.length = o.maxPhase + 1
  · have := (hr.counted hc hlim hl0' hm0 hx e he hlen).1
    unfold orderLast at this
    split <;> omega
  · rw [if_neg (fun hx => hlen hx.1)]
    omega

end

/-- options with a limit of the count -/
def limited : Opts := ⟨2, true, some ⟨none, some 2⟩⟩

/-- options that put every file into the cumulative phase -/
def endless : Opts := ⟨1, false, some ⟨none, some 1⟩⟩

/-- `r` succeeds with `n` files -/
def opens (r : Res (List Props)) (n : Nat) : Bool := match r with | .ok l => decide (l.length = n) | _ => false

theorem opens_ex {r : Res (List Props)} {n : Nat} (h : opens r n = true) : ∃ l, r = .ok l ∧ l.length = n := by
  cases r with
  | ok l => exact ⟨l, rfl, by simpa [opens] using h⟩
  | err => simp [opens] at h
  | panic => simp [opens] at h

example : limited.build = .ok limited ∧ endless.build = .ok endless := by decide +kernel

/-- The bound of `C92_limit_partial` is met: the file `[0, 0, 1]` is loaded from four files. -/
example : ∃ h rev, (play limited shiftExact demo [.save 0 5, .save 0 6, .save 0 7, .save 0 8]).1.history = .ok h ∧
    ⟨0, 0, [0, 0, 1], none⟩ ∈ h.listFiles ∧ ancestorsRev h ⟨0, 0, [0, 0, 1], none⟩ 2 true = .ok rev ∧ rev.length = 4 := by
  obtain ⟨h, h1, h2⟩ := res_ex (play limited shiftExact demo [.save 0 5, .save 0 6, .save 0 7, .save 0 8]).1.history
    (fun h => decide (⟨0, 0, [0, 0, 1], none⟩ ∈ h.listFiles) && opens (ancestorsRev h ⟨0, 0, [0, 0, 1], none⟩ 2 true) 4)
    (by decide +kernel)
  rw [Bool.and_eq_true, decide_eq_true_eq] at h2
  obtain ⟨r, h3, h4⟩ := opens_ex h2.2
  exact ⟨h, r, h1, h2.1, h3, h4⟩

/-- C92 fails for these accepted options: the limit of the count is one, but a file is loaded from four. -/
theorem C92_negation : ∃ (b o : Opts) (c : Cumulative) (lim : Nat) (st : St) (log : List (Props × UInt8)) (h : Hist) (p : Props)
    (rev : List Props), b.build = .ok o ∧ o.cumulative = some c ∧ c.limitCount = some lim ∧ Reach o demo st log ∧
      st.history = .ok h ∧ p ∈ h.listFiles ∧ ancestorsRev h p o.maxPhase o.cumulative.isSome = .ok rev ∧ o.maxPhase + lim < rev.length := by
  obtain ⟨h, h1, h2⟩ := res_ex (play endless shiftExact demo [.save 0 5, .save 0 6, .save 0 7, .save 0 8]).1.history
    (fun h => decide (⟨0, 0, [0, 2], none⟩ ∈ h.listFiles) && opens (ancestorsRev h ⟨0, 0, [0, 2], none⟩ 1 true) 4)
    (by decide +kernel)
  rw [Bool.and_eq_true, decide_eq_true_eq] at h2
  obtain ⟨r, h3, h4⟩ := opens_ex h2.2
  refine ⟨endless, endless, ⟨none, some 1⟩, 1, _, _, h, ⟨0, 0, [0, 2], none⟩, r, by decide +kernel, rfl, rfl,
    play_reach endless shiftExact demo [.save 0 5, .save 0 6, .save 0 7, .save 0 8] (by decide), h1, h2.1, h3, ?_⟩
  rw [h4]
  decide

end Verif.History
