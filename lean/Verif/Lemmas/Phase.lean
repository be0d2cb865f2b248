import Verif.Spec.Phase
import Verif.Lemmas.Compaction
import Verif.Lemmas.Codec
/-! Helper lemmas for the phases of history files. -/
namespace Verif.Phase
open VarInt Codec Compaction

theorem Data.length_push (d : Data) (s : Nat) : (d.push s).length = d.length + 1 := by simp [Data.push]

theorem Data.length_popAndPush (d : Data) (n s : Nat) : (d.popAndPush n s).length = min n d.length + 1 := by
  simp [Data.popAndPush, Data.length_push]

theorem climb_ok (d : Data) (c : Nat) (h : c < d.length) : ∃ it, d.climb c = .ok (some it) ∧ d[d.length - 1 - c]? = some it := by
  have : d.length - 1 - c < d.length := by omega
  refine ⟨d[d.length - 1 - c], ?_, List.getElem?_eq_getElem this⟩
  unfold Data.climb
  rw [if_neg (by omega), List.getElem?_eq_getElem this]

theorem phaseLoop_bound (o : Opts) (shift : Shift) (d : Data) (rem i n : Nat) (hri : rem + i = d.length - 1)
    (h : phaseLoop o shift d rem i = .ok n) :
    (n = 0 ∧ o.updatePhase0 = true) ∨ (n = 1 ∧ o.updatePhase0 = false) ∨ (1 ≤ n ∧ n ≤ d.length - 1) := by
  induction rem generalizing i with
  | zero =>
    simp only [phaseLoop, Res.ok.injEq] at h
    cases hu : o.updatePhase0 <;> simp_all
  | succ rem ih =>
    obtain ⟨cur, hc, _⟩ := climb_ok d i (by omega)
    obtain ⟨par, hp, _⟩ := climb_ok d (i + 1) (by omega)
    rw [phaseLoop, hc, hp] at h
    simp only [unwrap, Res.bind_ok] at h
    split at h
    · split at h
      · cases hf : cumulativeFull o d par with
        | ok full =>
          rw [hf, Res.bind_ok] at h
          cases full with
          | true => exact ih (i + 1) (by omega) h
          | false => simp at h; omega
        | err => rw [hf] at h; simp at h
        | panic => rw [hf] at h; simp at h
      · simp at h; omega
    · exact ih (i + 1) (by omega) h

theorem phaseLoop_max (o : Opts) (shift : Shift) (d : Data) (rem i n : Nat) (hri : rem + i = d.length - 1) (hi : 0 < i)
    (h : phaseLoop o shift d rem i = .ok n) : n < d.length - 1 ∨ (n = 1 ∧ o.updatePhase0 = false) := by
  induction rem generalizing i with
  | zero =>
    simp only [phaseLoop, Res.ok.injEq] at h
    cases hu : o.updatePhase0 <;> simp_all
    omega
  | succ rem ih =>
    obtain ⟨cur, hc, _⟩ := climb_ok d i (by omega)
    obtain ⟨par, hp, _⟩ := climb_ok d (i + 1) (by omega)
    rw [phaseLoop, hc, hp] at h
    simp only [unwrap, Res.bind_ok] at h
    split at h
    · rw [if_neg (by omega)] at h
      simp at h; omega
    · exact ih (i + 1) (by omega) (by omega) h

/-- What the builder guarantees. -/
theorem build_ok (b o : Opts) (h : b.build = .ok o) :
    (o.maxPhase = 0 → o.updatePhase0 = true) ∧
    (∀ c, o.cumulative = some c → c.limitCount ≠ some 0 ∧ c.limitNth ≠ some 0 ∧
      (o.maxPhase = 0 → c.limitCount = none ∧ c.limitNth = none)) := by
  obtain ⟨m, u, cu⟩ := b
  unfold Opts.build at h
  cases cu with
  | none =>
    simp only at h
    split at h
    · split at h
      · simp at h
      · rename_i h1 h2
        simp at h; subst h
        simp_all
    · simp at h; subst h; simp_all
  | some c =>
    have hc : ∀ c', c.build = .ok c' → c' = c ∧ c.limitCount ≠ some 0 ∧ c.limitNth ≠ some 0 := by
      intro c' h
      unfold Cumulative.build at h
      split at h
      · simp at h
      · split at h
        · simp at h
        · simp at h; exact ⟨h.symm, by assumption, by assumption⟩
    have hmap : ∀ P : Opts → Prop, (∀ c', c.build = .ok c' → P ⟨m, u, some c'⟩) →
        ((c.build.map fun c => ({ maxPhase := m, updatePhase0 := u, cumulative := some c } : Opts)) = .ok o) → P o := by
      intro P hP hm
      cases hb : c.build with
      | ok c' => rw [hb] at hm; simp at hm; rw [← hm]; exact hP c' hb
      | err => rw [hb] at hm; simp at hm
      | panic => rw [hb] at hm; simp at hm
    simp only at h
    split at h
    · rename_i hm
      split at h
      · simp at h
      · split at h
        · simp at h
        · split at h
          · simp at h
          · rename_i h1 h2 h3
            refine hmap (fun o : Opts => (o.maxPhase = 0 → o.updatePhase0 = true) ∧
    (∀ c, o.cumulative = some c → c.limitCount ≠ some 0 ∧ c.limitNth ≠ some 0 ∧
      (o.maxPhase = 0 → c.limitCount = none ∧ c.limitNth = none))) ?_ h
            intro c' hb
            obtain ⟨rfl, h4, h5⟩ := hc c' hb
            refine ⟨fun _ => by simpa using h1, ?_⟩
            intro c2 hc2
            cases hc2
            exact ⟨h4, h5, fun _ => ⟨by simpa using h3, by simpa using h2⟩⟩
    · rename_i hm
      refine hmap (fun o : Opts => (o.maxPhase = 0 → o.updatePhase0 = true) ∧
    (∀ c, o.cumulative = some c → c.limitCount ≠ some 0 ∧ c.limitNth ≠ some 0 ∧
      (o.maxPhase = 0 → c.limitCount = none ∧ c.limitNth = none))) ?_ h
      intro c' hb
      obtain ⟨rfl, h4, h5⟩ := hc c' hb
      refine ⟨fun h0 => absurd h0 hm, ?_⟩
      intro c2 hc2
      cases hc2
      exact ⟨h4, h5, fun h0 => absurd h0 hm⟩

theorem calcNextPhase_bound (o : Opts) (hb : o.maxPhase = 0 → o.updatePhase0 = true) (shift : Shift) (d : Data) (n : Nat)
    (hd : 0 < d.length) (hl : d.length ≤ o.maxPhase + 1)
    (h : calcNextPhase o shift d = .ok n) :
    n ≤ d.length ∧ n ≤ o.maxPhase ∧ (o.updatePhase0 = false → 1 ≤ n) := by
  unfold calcNextPhase at h
  split at h
  · simp at h; omega
  · have := phaseLoop_bound o shift d _ 0 n rfl h
    cases hu : o.updatePhase0
    · rw [hu] at hb
      have : o.maxPhase ≠ 0 := fun h0 => by simpa using hb h0
      simp_all
      omega
    · simp_all
      omega

theorem Saves.inv {o : Opts} (hb : o.maxPhase = 0 → o.updatePhase0 = true) {shift : Shift} {log : List (Nat × Nat)} {d : Data}
    (h : Saves o shift log d) :
    (∃ p s rest, log = (p, s) :: rest ∧ d.length = p + 1 ∧ p ≤ o.maxPhase) ∧
    (∀ e ∈ log, e.1 ≤ o.maxPhase) ∧
    ∀ k it, d[k]? = some it → Describes log k it := by
  induction h with
  | first size =>
    refine ⟨⟨0, size, [], rfl, rfl, by omega⟩, by simp, ?_⟩
    intro k it hk
    cases k with
    | zero =>
      simp [Data.new] at hk
      subst hk
      exact ⟨[], size, [], rfl, by simp, rfl, rfl, rfl⟩
    | succ k => simp [Data.new] at hk
  | @next log d n size hs hn ih =>
    obtain ⟨⟨p, s, rest, hlog, hlen, hp⟩, hall, hdesc⟩ := ih
    obtain ⟨h1, h2, h3⟩ := calcNextPhase_bound o hb shift d n (by omega) (by omega) hn
    refine ⟨⟨n, size, log, rfl, ?_, h2⟩, ?_, ?_⟩
    · rw [Data.length_popAndPush, Nat.min_eq_left h1]
    · intro e he
      rcases List.mem_cons.1 he with rfl | he
      · exact h2
      · exact hall e he
    · intro k it hk
      unfold Data.popAndPush Data.push at hk
      by_cases hkn : k < n
      · rw [List.getElem?_append_left (by simp; omega)] at hk
        rw [List.getElem?_map] at hk
        rw [List.getElem?_take, if_pos hkn] at hk
        cases hdk : d[k]? with
        | none => rw [hdk] at hk; simp at hk
        | some it0 =>
          rw [hdk] at hk
          simp at hk
          obtain ⟨newer, sz, older, e1, e2, e3, e4, e5⟩ := hdesc k it0 hdk
          refine ⟨(n, size) :: newer, sz, older, by rw [e1]; rfl, ?_, ?_, ?_, ?_⟩
          · intro e he
            rcases List.mem_cons.1 he with rfl | he
            · exact hkn
            · exact e2 e he
          · rw [← hk]; exact e3
          · rw [← hk]; simp [Item.add, e4]; omega
          · rw [← hk]; simp [Item.add, e5]
      · rw [List.getElem?_append_right (by simp; omega)] at hk
        have hk0 : k = n := by
          by_contra hne
          rw [List.getElem?_eq_none (by simp; omega)] at hk
          simp at hk
        subst hk0
        have : k - (List.map (Item.add size) (List.take k d)).length = 0 := by simp; omega
        rw [this] at hk
        simp at hk
        subst hk
        exact ⟨[], size, log, rfl, by simp, rfl, rfl, rfl⟩

/-- The count of files in the last phase. -/
theorem Saves.count {o : Opts} (hb : o.maxPhase = 0 → o.updatePhase0 = true) {shift : Shift} {lim : Nat} {c : Cumulative}
    (hc : o.cumulative = some c) (hlim : c.limitCount = some lim) (hl0 : lim ≠ 0) (hm : o.maxPhase ≠ 0)
    (hx : ¬ (o.maxPhase = 1 ∧ o.updatePhase0 = false))
    {log : List (Nat × Nat)} {d : Data} (h : Saves o shift log d) :
    ∀ it, d.length = o.maxPhase + 1 → d[o.maxPhase - 1]? = some it → it.totalLen ≤ lim := by
  induction h with
  | first size =>
    intro it hlen
    simp [Data.new] at hlen
    omega
  | @next log d n size hs hn ih =>
    intro it hlen hit
    obtain ⟨⟨p, s, rest, hlog, hdl, hp⟩, hall, hdesc⟩ := hs.inv hb
    obtain ⟨h1, h2, h3⟩ := calcNextPhase_bound o hb shift d n (by omega) (by omega) hn
    rw [Data.length_popAndPush, Nat.min_eq_left h1] at hlen
    have hnm : n = o.maxPhase := by omega
    subst hnm
    unfold Data.popAndPush Data.push at hit
    rw [List.getElem?_append_left (by simp; omega), List.getElem?_map, List.getElem?_take, if_pos (by omega)] at hit
    cases hdk : d[o.maxPhase - 1]? with
    | none => rw [hdk] at hit; simp at hit
    | some it0 =>
      rw [hdk] at hit
      simp at hit
      subst hit
      show it0.totalLen + 1 ≤ lim
      unfold calcNextPhase at hn
      by_cases hle : d.length ≤ o.maxPhase
      · obtain ⟨newer, sz, older, e1, e2, e3, e4, e5⟩ := hdesc _ it0 hdk
        have : newer = [] := by
          cases newer with
          | nil => rfl
          | cons e es =>
            rw [hlog] at e1
            have := e2 e (by simp)
            simp at e1
            rw [← e1.1] at this
            simp at this
            omega
        subst this
        simp at e5
        omega
      · rw [if_neg hle] at hn
        have hdlen : d.length = o.maxPhase + 1 := by omega
        rw [show d.length - 1 = (o.maxPhase - 1) + 1 from by omega] at hn
        obtain ⟨cur, hcur, _⟩ := climb_ok d 0 (by omega)
        obtain ⟨par, hpar, hpar2⟩ := climb_ok d (0 + 1) (by omega)
        rw [show d.length - 1 - (0 + 1) = o.maxPhase - 1 from by omega, hdk] at hpar2
        cases hpar2
        have hrest : phaseLoop o shift d (o.maxPhase - 1) (0 + 1) ≠ .ok o.maxPhase := by
          intro hr
          rcases phaseLoop_max o shift d _ _ _ (by omega) (by omega) hr with h | h
          · omega
          · exact hx ⟨h.1, h.2⟩
        rw [phaseLoop, hcur, hpar] at hn
        simp only [unwrap, Res.bind_ok] at hn
        split at hn
        · rw [if_pos trivial] at hn
          unfold cumulativeFull at hn
          simp only [hc, countReached, hlim] at hn
          by_cases hfull : lim ≤ it0.totalLen
          · rw [if_pos (by simpa using hfull)] at hn
            simp only [Res.bind_ok, if_true] at hn
            exact absurd hn hrest
          · omega
        · exact absurd hn hrest

/-! Storage -/

theorem inI64_wrap (n : Nat) : InI64 (asI64Wrap n) := by
  unfold InI64 asI64Wrap
  have : n % 2 ^ 64 < 2 ^ 64 := Nat.mod_lt _ (by decide)
  split <;> constructor <;> omega

theorem asUsize_wrap (n : Nat) (h : n < 2 ^ 64) : asUsize (asI64Wrap n) = n := by
  unfold asUsize asI64Wrap
  rw [Nat.mod_eq_of_lt h]
  split <;> omega

theorem norm_compInt (i : Int) : norm (compInt i) = compInt i := by
  unfold compInt; repeat' split
  all_goals rfl

/-- All numbers of the item fit the `u64` they are kept in. -/
def Item.Fits (it : Item) : Prop := it.mySize < 2 ^ 64 ∧ it.totalSize < 2 ^ 64 ∧ it.totalLen < 2 ^ 64

theorem decodeItems_encode (d : Data) (hd : ∀ it ∈ d, it.Fits) (rest : List KVal) :
    decodeItems d.length (d.flatMap Item.encode ++ rest) = .ok d := by
  induction d with
  | nil => rfl
  | cons it d ih =>
    obtain ⟨h1, h2, h3⟩ := hd it (by simp)
    have := ih (fun x hx => hd x (by simp [hx]))
    simp only [List.length_cons, decodeItems, List.flatMap_cons, Item.encode, List.cons_append, List.nil_append,
      Item.decode, readInt, asI64_compInt, Res.bind_ok, this, asUsize_wrap _ h1, asUsize_wrap _ h2, asUsize_wrap _ h3]

theorem Data.decode_encode (d : Data) (hd : ∀ it ∈ d, it.Fits) (hl : d.length < 2 ^ 64) : Data.decode d.encode = .ok d := by
  unfold Data.encode Data.decode
  simp only [asI64_compInt, asUsize_wrap _ hl]
  have := decodeItems_encode d hd []
  rwa [List.append_nil] at this

theorem Data.encode_mem (d : Data) : ∀ k ∈ d.encode, ∃ n : Nat, k = compInt (asI64Wrap n) := by
  intro k hk
  simp only [Data.encode, List.mem_cons, List.mem_flatMap, Item.encode, List.not_mem_nil, or_false] at hk
  rcases hk with h | ⟨it, _, h | h | h⟩
  all_goals exact ⟨_, h⟩

theorem Data.encode_length (d : Data) : d.encode.length = 3 * d.length + 1 := by
  unfold Data.encode
  rw [List.length_cons]
  congr 1
  induction d with
  | nil => rfl
  | cons it d ih => rw [List.flatMap_cons, List.length_append, ih, List.length_cons]; simp [Item.encode]; omega

/-! Panics -/

theorem sortNat_length (l : List Nat) : (sortNat l).length = l.length := by
  have h : ∀ x (l : List Nat), (insertSorted x l).length = l.length + 1 := by
    intro x l
    induction l with
    | nil => rfl
    | cons y ys ih => rw [insertSorted]; split <;> simp [ih]
  induction l with
  | nil => rfl
  | cons x xs ih => simp [sortNat, h, ih]

theorem nthLargest_ok (d : Data) (nth : Nat) (h : nth ≤ d.length) (h0 : 0 < d.length) :
    ∃ r, d.nthLargest nth = .ok r := by
  unfold Data.nthLargest
  simp only [sortNat_length, List.length_map]
  rw [if_neg (by split <;> omega)]
  exact ⟨_, rfl⟩

theorem nthLargest_panic (d : Data) (nth : Nat) (h : d.length < nth) : d.nthLargest nth = .panic := by
  unfold Data.nthLargest
  simp only [sortNat_length, List.length_map]
  rw [if_pos (by split <;> omega)]

theorem phaseLoop_no_panic (o : Opts) (shift : Shift) (d : Data)
    (hn : ∀ c nth, o.cumulative = some c → c.limitNth = some nth → nth ≤ d.length) (rem i : Nat)
    (hri : rem + i = d.length - 1) : phaseLoop o shift d rem i ≠ .panic := by
  induction rem generalizing i with
  | zero => simp [phaseLoop]
  | succ rem ih =>
    obtain ⟨cur, hc, _⟩ := climb_ok d i (by omega)
    obtain ⟨par, hp, _⟩ := climb_ok d (i + 1) (by omega)
    rw [phaseLoop, hc, hp]
    simp only [unwrap, Res.bind_ok]
    split
    · split
      · have hfull : ∃ full, cumulativeFull o d par = .ok full := by
          unfold cumulativeFull
          cases hcu : o.cumulative with
          | none => exact ⟨_, rfl⟩
          | some cu =>
            simp only
            generalize countReached cu par = q
            cases q with
            | true => exact ⟨_, rfl⟩
            | false =>
              rw [if_neg (by simp)]
              cases hnth : cu.limitNth with
              | none => exact ⟨_, rfl⟩
              | some nth =>
                obtain ⟨r, hr⟩ := nthLargest_ok d nth (hn cu nth hcu hnth) (by omega)
                simp only [hr]
                exact ⟨_, rfl⟩
        obtain ⟨full, hfull⟩ := hfull
        rw [hfull, Res.bind_ok]
        cases full with
        | true => exact ih (i + 1) (by omega)
        | false => simp
      · simp
    · exact ih (i + 1) (by omega)

end Verif.Phase
