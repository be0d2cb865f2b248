import Verif.Model.FileName
import Mathlib.Tactic.Ring
/-! Helper lemmas for history file names. -/
namespace Verif.FileName
open VarInt

def val (acc : Nat) (ds : Bytes) : Nat := ds.foldl (fun a b => a * 10 + (b.toNat - 48)) acc

theorem digit_toNat (n : Nat) (h : n < 10) : (UInt8.ofNat (48 + n)).toNat = 48 + n := by
  rw [UInt8.toNat_ofNat']; omega

theorem natBytes_ne_nil (n : Nat) : natBytes n ≠ [] := by
  rw [natBytes]; split <;> simp

theorem natBytes_digits (n : Nat) : ∀ b ∈ natBytes n, isDigit b = true := by
  induction n using Nat.strongRecOn with
  | _ n ih =>
    intro b hb
    rw [natBytes] at hb
    split at hb
    · rename_i h
      simp only [List.mem_singleton] at hb
      subst hb
      unfold isDigit
      rw [digit_toNat n h]
      simp; omega
    · rw [List.mem_append] at hb
      rcases hb with hb | hb
      · exact ih (n / 10) (by omega) b hb
      · simp only [List.mem_singleton] at hb
        subst hb
        unfold isDigit
        rw [digit_toNat (n % 10) (by omega)]
        simp; omega

theorem val_natBytes (n : Nat) : val 0 (natBytes n) = n := by
  induction n using Nat.strongRecOn with
  | _ n ih =>
    rw [natBytes]
    split
    · rename_i h
      unfold val
      simp only [List.foldl_cons, List.foldl_nil]
      rw [digit_toNat n h]; omega
    · have := ih (n / 10) (by omega)
      unfold val at *
      rw [List.foldl_append, this]
      simp only [List.foldl_cons, List.foldl_nil]
      rw [digit_toNat (n % 10) (by omega)]; omega

theorem natBytes_length (n k : Nat) (hk : 0 < k) : (natBytes n).length ≤ k ↔ n < 10 ^ k := by
  induction n using Nat.strongRecOn generalizing k with
  | _ n ih =>
    rw [natBytes]
    split
    · rename_i h
      have : 10 ^ 1 ≤ 10 ^ k := Nat.pow_le_pow_right (by omega) hk
      simp only [List.length_singleton]
      constructor <;> intro <;> omega
    · rename_i h
      rw [List.length_append, List.length_singleton]
      match k, hk with
      | 1, _ =>
        have := natBytes_ne_nil (n / 10)
        have : (natBytes (n / 10)).length ≠ 0 := by simpa using this
        constructor <;> intro <;> omega
      | k + 2, _ =>
        have := ih (n / 10) (by omega) (k + 1) (by omega)
        rw [Nat.pow_succ]
        omega

theorem natBytes_inj {a b : Nat} (h : natBytes a = natBytes b) : a = b := by
  rw [← val_natBytes a, h, val_natBytes]

/-- The text does not go on with a digit. -/
def Stop (s : Bytes) : Prop := ∃ b bs, s = b :: bs ∧ isDigit b = false

theorem getNumLoop_digits (ds rest : Bytes) (k acc : Nat) (hd : ∀ b ∈ ds, isDigit b = true) (hs : Stop rest)
    (hk : ds.length < k) : getNumLoop k acc (ds ++ rest) = some (val acc ds, rest) := by
  induction ds generalizing k acc with
  | nil =>
    obtain ⟨b, bs, rfl, hb⟩ := hs
    cases k with
    | zero => simp at hk
    | succ k => simp [getNumLoop, hb, val]
  | cons d ds ih =>
    cases k with
    | zero => simp at hk
    | succ k =>
      rw [List.cons_append, getNumLoop, if_pos (hd d (by simp)),
        ih k _ (fun b hb => hd b (by simp [hb])) (by simpa using hk)]
      rfl

theorem getNumLoop_long (ds rest : Bytes) (k acc : Nat) (hd : ∀ b ∈ ds, isDigit b = true)
    (hk : k ≤ ds.length) : getNumLoop k acc (ds ++ rest) = none := by
  induction ds generalizing k acc with
  | nil => simp at hk; subst hk; rfl
  | cons d ds ih =>
    cases k with
    | zero => rfl
    | succ k =>
      rw [List.cons_append, getNumLoop, if_pos (hd d (by simp)),
        ih k _ (fun b hb => hd b (by simp [hb])) (by simpa using hk)]

theorem getNum_natBytes (n : Nat) (rest : Bytes) (hs : Stop rest) :
    getNum (95 :: (natBytes n ++ rest)) = if n < 10 ^ 8 then some (n, rest) else none := by
  simp only [getNum, if_true]
  split
  · rename_i h
    rw [getNumLoop_digits _ _ _ _ (natBytes_digits n) hs, val_natBytes]
    have := (natBytes_length n 8 (by omega)).2 h
    omega
  · rename_i h
    rw [getNumLoop_long _ _ _ _ (natBytes_digits n)]
    have := mt (natBytes_length n 8 (by omega)).1 h
    omega

def orderText (l : List Nat) : Bytes := l.flatMap (fun n => 95 :: natBytes n) ++ his

theorem stop_orderText (l : List Nat) : Stop (orderText l) := by
  cases l with
  | nil => exact ⟨46, [104, 105, 115], rfl, rfl⟩
  | cons a l => exact ⟨95, _, rfl, rfl⟩

theorem orderText_cons (a : Nat) (l : List Nat) :
    orderText (a :: l) = 95 :: (natBytes a ++ orderText l) := by
  simp [orderText]

theorem readOrder_orderText (l : List Nat) (fuel : Nat) (hl : ∀ n ∈ l, n < 10 ^ 8) (hf : l.length ≤ fuel) :
    readOrder fuel (orderText l) = (l, his) := by
  induction l generalizing fuel with
  | nil =>
    cases fuel with
    | zero => rfl
    | succ f => rfl
  | cons a l ih =>
    cases fuel with
    | zero => simp at hf
    | succ f =>
      rw [orderText_cons, readOrder, getNum_natBytes _ _ (stop_orderText l), if_pos (hl a (by simp))]
      simp only
      rw [ih f (fun n hn => hl n (by simp [hn])) (by simpa using hf)]

theorem readOrder_big (l : List Nat) (fuel : Nat) (hl : ¬ ∀ n ∈ l, n < 10 ^ 8) :
    (readOrder fuel (orderText l)).2 ≠ his := by
  induction l generalizing fuel with
  | nil => simp at hl
  | cons a l ih =>
    cases fuel with
    | zero =>
      rw [orderText_cons]
      simp [readOrder, his]
    | succ f =>
      rw [orderText_cons, readOrder, getNum_natBytes _ _ (stop_orderText l)]
      by_cases ha : a < 10 ^ 8
      · rw [if_pos ha]
        simp only
        apply ih
        intro h; apply hl
        intro n hn
        rcases List.mem_cons.1 hn with rfl | hn
        · exact ha
        · exact h n hn
      · rw [if_neg ha]
        simp [his]

theorem orderText_length (l : List Nat) : l.length ≤ (orderText l).length := by
  induction l with
  | nil => simp
  | cons a l ih => rw [orderText_cons]; simp; omega

theorem filename_none (p : Props) (ht : p.tag = none) :
    p.filename = if p.control = p.prevCtl then 95 :: (natBytes p.control ++ orderText p.order)
      else 40 :: (natBytes p.prevCtl ++ (41 :: 95 :: (natBytes p.control ++ orderText p.order))) := by
  unfold Props.filename calcFilename
  rw [ht]
  by_cases h : p.control = p.prevCtl
  · rw [if_pos h, if_pos h]; simp [orderText]
  · rw [if_neg h, if_neg h]; simp [orderText]

theorem his_suffix (tag : Option Bytes) (c : Nat) (pc : Option Nat) (o : List Nat) :
    his <:+ calcFilename tag c pc o := by
  unfold calcFilename
  exact List.suffix_append _ _

theorem findByte_append (b : UInt8) (xs ys : Bytes) (h : b ∉ xs) :
    findByte b (xs ++ b :: ys) = some xs.length := by
  induction xs with
  | nil => simp [findByte]
  | cons x xs ih =>
    simp only [List.mem_cons, not_or] at h
    rw [List.cons_append, findByte, if_neg (Ne.symm h.1), ih h.2]
    rfl

theorem findByte_spec (b : UInt8) (xs : Bytes) (i : Nat) (h : findByte b xs = some i) :
    xs[i]? = some b := by
  induction xs generalizing i with
  | nil => simp [findByte] at h
  | cons x xs ih =>
    rw [findByte] at h
    split at h
    · cases h; subst b; rfl
    · cases hf : findByte b xs with
      | none => rw [hf] at h; simp at h
      | some j => rw [hf] at h; simp at h; subst h; simpa using ih j hf

theorem parseU32_natBytes (n : Nat) (h : n < 2 ^ 32) : parseU32 (natBytes n) = some n := by
  have hne := natBytes_ne_nil n
  have hd := natBytes_digits n
  have hv := val_natBytes n
  have hh : (natBytes n).head? ≠ some 43 := by
    cases hc : natBytes n with
    | nil => exact absurd hc hne
    | cons a l =>
      have := hd a (by rw [hc]; simp)
      simp only [List.head?_cons, ne_eq, Option.some.injEq]
      rintro rfl
      simp [isDigit] at this
  unfold parseU32
  simp only
  rw [if_neg hh, if_pos ⟨hne, by rw [List.all_eq_true]; exact hd⟩]
  unfold val at hv
  rw [hv, if_pos h]

theorem analyze_body (n : Nat) (o : List Nat) (ho : o ≠ []) (prev : Option Bytes) :
    (match getNum (95 :: (natBytes n ++ orderText o)) with
    | none => (.ok none : Res (Option Props))
    | some (n, s) =>
      let prevCtl := (prev.bind parseU32).getD n
      let r := readOrder s.length s
      if r.2 = his ∧ r.1 ≠ [] then .ok (some ⟨n, prevCtl, r.1, none⟩) else .ok none) =
    if n < 10 ^ 8 ∧ ∀ x ∈ o, x < 10 ^ 8 then .ok (some ⟨n, (prev.bind parseU32).getD n, o, none⟩) else .ok none := by
  rw [getNum_natBytes _ _ (stop_orderText o)]
  by_cases hn : n < 10 ^ 8
  · rw [if_pos hn]
    simp only [hn, true_and]
    by_cases hl : ∀ x ∈ o, x < 10 ^ 8
    · rw [if_pos hl, readOrder_orderText o _ hl (orderText_length o), if_pos ⟨rfl, ho⟩]
    · rw [if_neg hl, if_neg]
      intro h
      exact readOrder_big o _ hl h.1
  · rw [if_neg hn, if_neg (by rintro ⟨h, _⟩; exact hn h)]

theorem getTag_none (b : UInt8) (s : Bytes) (h : b ≠ 35) : getTag (b :: s) = .ok none := by
  unfold getTag
  split
  · rfl
  · rw [if_pos (by simpa using h)]

theorem getPrevCtl_none (b : UInt8) (s : Bytes) (h : b ≠ 40) : getPrevCtl (b :: s) = .ok none := by
  unfold getPrevCtl
  split
  · rfl
  · rw [if_pos (by simpa using h)]

theorem isBoundary_of (l : Bytes) (i : Nat) (b : UInt8) (h1 : l[i]? = some b) (h2 : b.toNat / 64 ≠ 2) :
    isBoundary l i = true := by
  unfold isBoundary
  rw [h1]
  simpa using h2

theorem getPrevCtl_some (n : Nat) (l : Bytes) :
    getPrevCtl (40 :: (natBytes n ++ 41 :: l)) = .ok (some (natBytes n)) := by
  have hnot : (41 : UInt8) ∉ natBytes n := by
    intro h
    have := natBytes_digits n _ h
    simp [isDigit] at this
  have hs1 : slice (40 :: (natBytes n ++ 41 :: l)) 1 ((natBytes n).length + 1) = .ok (natBytes n) := by
    unfold slice
    rw [if_pos]
    · simp
    · refine ⟨by omega, by simp, ?_, ?_⟩
      · cases hn : natBytes n with
        | nil => exact absurd hn (natBytes_ne_nil n)
        | cons a l =>
          have := natBytes_digits n a (by rw [hn]; simp)
          simp [isDigit] at this
          exact isBoundary_of _ _ a (by simp) (by omega)
      · exact isBoundary_of _ _ 41 (by simp) (by decide)
  unfold getPrevCtl
  rw [if_neg (by simp), if_neg (by simp), List.tail_cons, findByte_append _ _ _ hnot]
  simp only [hs1]
  rfl

theorem slice_prev (n : Nat) (b : UInt8) (l : Bytes) (hb : b.toNat / 64 ≠ 2) :
    slice (40 :: (natBytes n ++ 41 :: b :: l)) ((natBytes n).length + 2)
      (40 :: (natBytes n ++ 41 :: b :: l)).length = .ok (b :: l) := by
  unfold slice
  rw [if_pos]
  · congr 1
    rw [List.take_length]
    simp
  · refine ⟨by simp, by omega, ?_, ?_⟩
    · refine isBoundary_of _ _ b ?_ hb
      rw [List.getElem?_cons_succ, List.getElem?_append_right (by omega)]
      simp
    · unfold isBoundary
      rw [List.getElem?_eq_none (by omega)]
      simp

theorem analyze_untagged (p : Props) (ht : p.tag = none) (ho : p.order ≠ []) (hp : p.prevCtl < 2 ^ 32) :
    analyze p.filename = if p.control < 10 ^ 8 ∧ ∀ x ∈ p.order, x < 10 ^ 8 then .ok (some p) else .ok none := by
  obtain ⟨c, pc, o, t⟩ := p
  subst ht
  have hsuf : his <:+ Props.filename ⟨c, pc, o, none⟩ := by
    unfold Props.filename
    exact his_suffix _ _ _ _
  unfold analyze
  rw [if_neg (not_not_intro hsuf), filename_none _ rfl]
  simp only at ho hp ⊢
  by_cases hc : c = pc
  · rw [if_pos hc]
    simp only [getTag_none 95 _ (by decide), getPrevCtl_none 95 _ (by decide), Res.bind]
    refine (analyze_body c o ho none).trans ?_
    simp [hc]
  · rw [if_neg hc]
    simp only [getTag_none 40 _ (by decide), getPrevCtl_some, Res.bind]
    rw [slice_prev _ _ _ (by decide)]
    simp only
    refine (analyze_body c o ho (some (natBytes pc))).trans ?_
    simp [parseU32_natBytes pc hp]

/-- No name that starts with '#' is ever recognised. -/
theorem analyze_hash (s : Bytes) : analyze (35 :: s) = .ok none ∨ analyze (35 :: s) = .panic := by
  unfold analyze
  by_cases hsuf : ¬ his <:+ (35 :: s)
  · left; rw [if_pos hsuf]
  · rw [if_neg hsuf]
    have hfin : ∀ (l : Bytes) (tag : Option Bytes),
        ((getPrevCtl (35 :: l)).bind fun prev =>
          (match prev with | some p => slice (35 :: l) (p.length + 2) (35 :: l).length | none => .ok (35 :: l)).bind fun s =>
          match getNum s with
          | none => (.ok none : Res (Option Props))
          | some (n, s) =>
            let prevCtl := (prev.bind parseU32).getD n
            let r := readOrder s.length s
            if r.2 = his ∧ r.1 ≠ [] then .ok (some ⟨n, prevCtl, r.1, tag⟩) else .ok none) = .ok none := by
      intro l tag
      simp only [getPrevCtl_none 35 _ (by decide), Res.bind, getNum]
      rw [if_neg (by decide)]
    unfold getTag
    by_cases hl : (35 :: s).length ≤ 1
    · rw [if_pos hl]
      simp only [Res.bind]
      left; exact hfin s none
    · rw [if_neg hl, if_neg (by simp), List.tail_cons]
      cases hf : findByte 35 s with
      | none =>
        simp only [Res.bind]
        left; exact hfin s none
      | some i =>
        simp only
        unfold slice
        split
        · rename_i hcond
          simp only [Res.map, Res.bind]
          have hi := findByte_spec _ _ _ hf
          have hlen : (((35 :: s).take i).drop 1).length + 2 = i + 1 := by
            have := hcond.1
            have := hcond.2.1
            rw [List.length_drop, List.length_take]
            omega
          rw [hlen]
          have hil : i < s.length := by
            rw [List.getElem?_eq_some_iff] at hi
            exact hi.1
          rw [if_pos]
          · simp only [List.take_length, List.drop_succ_cons]
            have hd : s.drop i = 35 :: s.drop (i + 1) := by
              rw [List.drop_eq_getElem_cons hil]
              rw [List.getElem?_eq_some_iff] at hi
              rw [hi.2]
            left
            rw [hd]
            simp only [getPrevCtl_none 35 _ (by decide), getNum]
            rw [if_neg (by decide)]
          · refine ⟨by simp; omega, by omega, ?_, ?_⟩
            · exact isBoundary_of _ _ 35 (by simpa using hi) (by decide)
            · unfold isBoundary
              rw [List.getElem?_eq_none (by omega)]
              simp
        · right; rfl

/-! Injectivity -/

theorem digits_split (ds es r1 r2 : Bytes) (hd : ∀ b ∈ ds, isDigit b = true) (he : ∀ b ∈ es, isDigit b = true)
    (h1 : Stop r1) (h2 : Stop r2) (h : ds ++ r1 = es ++ r2) : ds = es ∧ r1 = r2 := by
  induction ds generalizing es with
  | nil =>
    cases es with
    | nil => exact ⟨rfl, h⟩
    | cons e es =>
      obtain ⟨b, bs, rfl, hb⟩ := h1
      simp at h
      rw [← h.1] at he
      rw [he b (by simp)] at hb
      simp at hb
  | cons d ds ih =>
    cases es with
    | nil =>
      obtain ⟨b, bs, rfl, hb⟩ := h2
      simp at h
      rw [h.1] at hd
      rw [hd b (by simp)] at hb
      simp at hb
    | cons e es =>
      simp at h
      obtain ⟨h3, h4⟩ := ih es (fun b hb => hd b (by simp [hb])) (fun b hb => he b (by simp [hb])) h.2
      exact ⟨by rw [h.1, h3], h4⟩

theorem nat_split (a b : Nat) (r1 r2 : Bytes) (h1 : Stop r1) (h2 : Stop r2)
    (h : natBytes a ++ r1 = natBytes b ++ r2) : a = b ∧ r1 = r2 := by
  obtain ⟨h3, h4⟩ := digits_split _ _ _ _ (natBytes_digits a) (natBytes_digits b) h1 h2 h
  exact ⟨natBytes_inj h3, h4⟩

theorem orderText_inj (l m : List Nat) (h : orderText l = orderText m) : l = m := by
  induction l generalizing m with
  | nil =>
    cases m with
    | nil => rfl
    | cons b m => rw [orderText_cons] at h; simp [orderText, his] at h
  | cons a l ih =>
    cases m with
    | nil => rw [orderText_cons] at h; simp [orderText, his] at h
    | cons b m =>
      rw [orderText_cons, orderText_cons] at h
      simp only [List.cons.injEq, true_and] at h
      obtain ⟨h1, h2⟩ := nat_split _ _ _ _ (stop_orderText l) (stop_orderText m) h
      rw [h1, ih m h2]

/-- The name without the tag. -/
def bodyText (p : Props) : Bytes := Props.filename { p with tag := none }

theorem filename_tag (p : Props) :
    p.filename = (match p.tag with | some t => 35 :: (t ++ [35]) | none => []) ++ bodyText p := by
  unfold bodyText Props.filename calcFilename
  cases p.tag <;> simp

theorem bodyText_inj (p q : Props) (h : bodyText p = bodyText q) :
    p.control = q.control ∧ p.prevCtl = q.prevCtl ∧ p.order = q.order := by
  unfold bodyText at h
  rw [filename_none _ rfl, filename_none _ rfl] at h
  simp only at h
  by_cases hp : p.control = p.prevCtl <;> by_cases hq : q.control = q.prevCtl
  · rw [if_pos hp, if_pos hq] at h
    simp only [List.cons.injEq, true_and] at h
    obtain ⟨h1, h2⟩ := nat_split _ _ _ _ (stop_orderText _) (stop_orderText _) h
    exact ⟨h1, by omega, orderText_inj _ _ h2⟩
  · rw [if_pos hp, if_neg hq] at h
    simp at h
  · rw [if_neg hp, if_pos hq] at h
    simp at h
  · rw [if_neg hp, if_neg hq] at h
    simp only [List.cons.injEq, true_and] at h
    obtain ⟨h1, h2⟩ := nat_split _ _ _ _ ⟨41, _, rfl, rfl⟩ ⟨41, _, rfl, rfl⟩ h
    simp only [List.cons.injEq, true_and] at h2
    obtain ⟨h3, h4⟩ := nat_split _ _ _ _ (stop_orderText _) (stop_orderText _) h2
    exact ⟨h3, h1, orderText_inj _ _ h4⟩

theorem hash_not_digits (n : Nat) : (35 : UInt8) ∉ natBytes n := by
  intro h
  have := natBytes_digits n _ h
  simp [isDigit] at this

theorem hash_not_orderText (l : List Nat) : (35 : UInt8) ∉ orderText l := by
  induction l with
  | nil => simp [orderText, his]
  | cons a l ih => rw [orderText_cons]; simp [ih, hash_not_digits]

theorem hash_not_body (p : Props) : (35 : UInt8) ∉ bodyText p := by
  unfold bodyText
  rw [filename_none _ rfl]
  split <;> simp [hash_not_digits, hash_not_orderText]

theorem last_split (x : UInt8) (a b r s : Bytes) (hr : x ∉ r) (hs : x ∉ s) (h : a ++ x :: r = b ++ x :: s) :
    a = b ∧ r = s := by
  rw [List.append_eq_append_iff] at h
  rcases h with ⟨c, h1, h2⟩ | ⟨c, h1, h2⟩
  · cases c with
    | nil => simp at h1 h2; exact ⟨h1.symm, h2⟩
    | cons d c =>
      simp at h2
      exact absurd (by rw [h2.2]; simp) hr
  · cases c with
    | nil => simp at h1 h2; exact ⟨h1, h2.symm⟩
    | cons d c =>
      simp at h2
      exact absurd (by rw [h2.2]; simp) hs

theorem filename_injective (p q : Props) (h : p.filename = q.filename) : p = q := by
  have hh : ∀ r : Props, (bodyText r).head? ≠ some 35 := by
    intro r hc
    exact hash_not_body r (List.mem_of_head? hc)
  have fin : p.tag = q.tag → bodyText p = bodyText q → p = q := by
    intro h1 h2
    obtain ⟨h3, h4, h5⟩ := bodyText_inj p q h2
    cases p; cases q; simp_all
  rw [filename_tag, filename_tag] at h
  cases hp : p.tag with
  | none =>
    cases hq : q.tag with
    | none => rw [hp, hq] at h; exact fin (by rw [hp, hq]) (by simpa using h)
    | some t =>
      rw [hp, hq] at h
      exact absurd (by simp only [List.nil_append] at h; rw [h]; rfl) (hh p)
  | some t =>
    cases hq : q.tag with
    | none =>
      rw [hp, hq] at h
      exact absurd (by simp only [List.nil_append] at h; rw [← h]; rfl) (hh q)
    | some u =>
      rw [hp, hq] at h
      simp only [List.cons_append, List.append_assoc, List.cons.injEq, true_and, List.nil_append] at h
      obtain ⟨h1, h2⟩ := last_split _ _ _ _ _ (hash_not_body p) (hash_not_body q) h
      exact fin (by rw [hp, hq, h1]) h2

end Verif.FileName

namespace Verif.FileName
open VarInt

/-! What every recognised name yields -/

theorem getNumLoop_lt (k acc : Nat) (s : Bytes) (n : Nat) (r : Bytes) (h : getNumLoop k acc s = some (n, r))
    (j : Nat) (hj : acc < 10 ^ j) : n < 10 ^ (j + k - 1) := by
  induction k generalizing acc s j with
  | zero => simp [getNumLoop] at h
  | succ k ih =>
    cases s with
    | nil => simp [getNumLoop] at h
    | cons b bs =>
      rw [getNumLoop] at h
      split at h
      · rename_i hb
        simp [isDigit] at hb
        have := ih _ _ h (j + 1) (by rw [Nat.pow_succ]; omega)
        rwa [show j + 1 + k - 1 = j + (k + 1) - 1 from by omega] at this
      · simp at h
        rw [← h.1]
        exact lt_of_lt_of_le hj (Nat.pow_le_pow_right (by omega) (by omega))

theorem getNum_lt (s : Bytes) (n : Nat) (r : Bytes) (h : getNum s = some (n, r)) : n < 10 ^ 8 := by
  cases s with
  | nil => simp [getNum] at h
  | cons b bs =>
    rw [getNum] at h
    split at h
    · exact getNumLoop_lt 9 0 bs n r h 0 (by omega)
    · simp at h

theorem readOrder_lt (fuel : Nat) (s : Bytes) : ∀ n ∈ (readOrder fuel s).1, n < 10 ^ 8 := by
  induction fuel generalizing s with
  | zero => simp [readOrder]
  | succ f ih =>
    rw [readOrder]
    cases hg : getNum s with
    | none => simp
    | some x =>
      obtain ⟨n, r⟩ := x
      simp only
      intro m hm
      rcases List.mem_cons.1 hm with rfl | hm
      · exact getNum_lt _ _ _ hg
      · exact ih _ _ hm

theorem parseU32_lt (s : Bytes) (n : Nat) (h : parseU32 s = some n) : n < 2 ^ 32 := by
  unfold parseU32 at h
  simp only at h
  generalize (if s.head? = some 43 then s.tail else s) = ds at h
  split at h
  · split at h
    · rename_i h2
      cases h; exact h2
    · simp at h
  · simp at h

theorem analyze_some (s : Bytes) (p : Props) (h : analyze s = .ok (some p)) :
    p.tag = none ∧ p.order ≠ [] ∧ p.prevCtl < 2 ^ 32 ∧ p.control < 10 ^ 8 ∧ ∀ x ∈ p.order, x < 10 ^ 8 := by
  have key : ∀ (s : Bytes) (tag : Option Bytes), tag = none →
        ((getPrevCtl s).bind fun prev =>
          (match prev with | some p => slice s (p.length + 2) s.length | none => .ok s).bind fun s =>
          match getNum s with
          | none => (.ok none : Res (Option Props))
          | some (n, s) =>
            let prevCtl := (prev.bind parseU32).getD n
            let r := readOrder s.length s
            if r.2 = his ∧ r.1 ≠ [] then .ok (some ⟨n, prevCtl, r.1, tag⟩) else .ok none) = .ok (some p) →
       p.tag = none ∧ p.order ≠ [] ∧ p.prevCtl < 2 ^ 32 ∧ p.control < 10 ^ 8 ∧ ∀ x ∈ p.order, x < 10 ^ 8 := by
    intro s tag ht h
    cases h1 : getPrevCtl s with
    | err => rw [h1] at h; simp [Res.bind] at h
    | panic => rw [h1] at h; simp [Res.bind] at h
    | ok prev =>
      rw [h1, Res.bind] at h
      generalize (match prev with | some p => slice s (p.length + 2) s.length | none => .ok s) = s2 at h
      cases s2 with
      | err => simp [Res.bind] at h
      | panic => simp [Res.bind] at h
      | ok s2 =>
        rw [Res.bind] at h
        cases hg : getNum s2 with
        | none => rw [hg] at h; simp at h
        | some x =>
          obtain ⟨n, r⟩ := x
          rw [hg] at h
          simp only at h
          split at h
          · rename_i hc
            cases h
            refine ⟨ht, hc.2, ?_, getNum_lt _ _ _ hg, readOrder_lt _ _⟩
            have hn := getNum_lt _ _ _ hg
            show (prev.bind parseU32).getD n < 2 ^ 32
            cases hb : prev.bind parseU32 with
            | none =>
              have : (10 : Nat) ^ 8 < 2 ^ 32 := by decide
              simpa using lt_trans hn this
            | some v =>
              cases prev with
              | none => simp at hb
              | some pv => exact parseU32_lt pv v hb
          · simp at h
  have hnot : ∀ l, s ≠ 35 :: l := by
    rintro l rfl
    rcases analyze_hash l with h1 | h1 <;> rw [h1] at h <;> simp at h
  cases s with
  | nil => simp [analyze, his] at h
  | cons b bs =>
    have hb : b ≠ 35 := by
      rintro rfl; exact hnot bs rfl
    unfold analyze at h
    split at h
    · simp at h
    · rw [getTag_none b bs hb, Res.bind] at h
      simp only at h
      exact key _ none rfl h

end Verif.FileName
