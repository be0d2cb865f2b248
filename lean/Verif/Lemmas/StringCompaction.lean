import Verif.Model.StringCompaction
import Verif.Spec.StringCompaction
import Verif.Lemmas.Codec
import Mathlib.Data.List.Induction
/-! Helper lemmas for the compaction of number-like strings. -/
namespace Verif.StringCompaction
open VarInt Codec

theorem isDigit_iff (c : Char) : c.isDigit = true ↔ 48 ≤ c.toNat ∧ c.toNat ≤ 57 := by
  simp only [Char.isDigit, Bool.and_eq_true, decide_eq_true_eq]
  exact Iff.rfl

theorem digitChar_digitVal (c : Char) (h : c.isDigit = true) : digitChar (digitVal c) = c := by
  rw [isDigit_iff] at h
  unfold digitChar digitVal
  have : '0'.toNat + (c.toNat - '0'.toNat) = c.toNat := by
    show 48 + (c.toNat - 48) = c.toNat
    omega
  rw [this, Char.ofNat_toNat]

theorem digitVal_lt (c : Char) (h : c.isDigit = true) : digitVal c < 10 := by
  rw [isDigit_iff] at h
  unfold digitVal
  show c.toNat - 48 < 10
  omega

theorem digitVal_zero (c : Char) (h : c.isDigit = true) : digitVal c = 0 ↔ c = '0' := by
  constructor
  · intro h0
    have := digitChar_digitVal c h
    rw [h0] at this
    rw [← this]; rfl
  · rintro rfl; rfl

theorem parseNat_snoc (ds : List Char) (d : Char) : parseNat (ds ++ [d]) = parseNat ds * 10 + digitVal d := by
  simp [parseNat]

theorem foldl_digits (cs : List Char) (acc : Nat) :
    cs.foldl (fun a c => a * 10 + digitVal c) acc = acc * 10 ^ cs.length + parseNat cs := by
  induction cs generalizing acc with
  | nil => simp [parseNat]
  | cons c cs ih =>
    simp only [parseNat, List.foldl_cons, List.length_cons] at *
    rw [ih, ih (0 * 10 + digitVal c), Nat.pow_succ]
    ring

theorem parseNat_cons (c : Char) (cs : List Char) : parseNat (c :: cs) = digitVal c * 10 ^ cs.length + parseNat cs := by
  rw [parseNat, List.foldl_cons, foldl_digits]; simp

theorem parseNat_pos (ds : List Char) (hd : ∀ d ∈ ds, d.isDigit = true) (hne : ds ≠ []) (h0 : ds.head? ≠ some '0') :
    1 ≤ parseNat ds := by
  cases ds with
  | nil => exact absurd rfl hne
  | cons c cs =>
    rw [parseNat_cons]
    have hc := hd c (by simp)
    have : digitVal c ≠ 0 := by
      rw [Ne, digitVal_zero c hc]; simpa using h0
    have h10 : 1 ≤ 10 ^ cs.length := Nat.one_le_pow _ _ (by omega)
    have : 1 * 1 ≤ digitVal c * 10 ^ cs.length := Nat.mul_le_mul (by omega) h10
    omega

theorem natStr_parseNat (ds : List Char) (hd : ∀ d ∈ ds, d.isDigit = true) (hne : ds ≠ []) (h0 : ds.head? ≠ some '0') :
    natStr (parseNat ds) = ds := by
  induction ds using List.reverseRecOn with
  | nil => exact absurd rfl hne
  | append_singleton ds d ih =>
    have hdd := hd d (by simp)
    have hlt := digitVal_lt d hdd
    rw [parseNat_snoc]
    by_cases hds : ds = []
    · subst hds
      rw [natStr]
      simp [parseNat, hlt, digitChar_digitVal d hdd]
    · have hds' : ∀ d ∈ ds, d.isDigit = true := fun x hx => hd x (by simp [hx])
      have hh : ds.head? ≠ some '0' := by
        intro h; apply h0
        cases ds with
        | nil => exact absurd rfl hds
        | cons a l => simpa using h
      have hp := parseNat_pos ds hds' hds hh
      rw [natStr, if_neg (by omega)]
      rw [show (parseNat ds * 10 + digitVal d) / 10 = parseNat ds from by omega,
        show (parseNat ds * 10 + digitVal d) % 10 = digitVal d from by omega, ih hds' hds hh,
        digitChar_digitVal d hdd]

theorem natStr_pad (es : List Char) (hd : ∀ d ∈ es, d.isDigit = true) (hne : es ≠ []) :
    (natStr (parseNat es)).length ≤ es.length ∧
    List.replicate (es.length - (natStr (parseNat es)).length) '0' ++ natStr (parseNat es) = es := by
  induction es with
  | nil => exact absurd rfl hne
  | cons c cs ih =>
    by_cases hc : c = '0'
    · subst hc
      have hv : parseNat ('0' :: cs) = parseNat cs := by rw [parseNat_cons]; simp [digitVal]
      rw [hv]
      by_cases hcs : cs = []
      · subst hcs
        have : natStr (parseNat []) = ['0'] := by rw [natStr]; simp [parseNat, digitChar]
        rw [this]; simp
      · obtain ⟨h1, h2⟩ := ih (fun d hx => hd d (by simp [hx])) hcs
        refine ⟨by simp; omega, ?_⟩
        rw [List.length_cons, show cs.length + 1 - (natStr (parseNat cs)).length =
          (cs.length - (natStr (parseNat cs)).length) + 1 from by omega, List.replicate_succ,
          List.cons_append, h2]
    · rw [natStr_parseNat (c :: cs) hd hne (by simpa using hc)]
      simp

/-- What a match of the regular expression says about the text. -/
theorem rex_spec (cs : List Char) (caps : Caps) (h : rex cs = some caps) :
    cs = (if caps.minus then ['-'] else []) ++ caps.ds ++ (caps.sep.toList ++ caps.es) ∧
    caps.ds ≠ [] ∧ (∀ d ∈ caps.ds, d.isDigit = true) ∧ (∀ d ∈ caps.es, d.isDigit = true) ∧
    (caps.sep = none → caps.es = []) ∧ (∀ c, caps.sep = some c → c.isDigit = false ∧ c ≠ '\n') := by
  unfold rex at h
  simp only at h
  generalize hm : (cs.head? == some '-') = minus at h
  have hcs : cs = (if minus then ['-'] else []) ++ (if minus then cs.tail else cs) := by
    cases minus with
    | false => simp
    | true =>
      cases cs with
      | nil => simp at hm
      | cons c cs => simp at hm; subst hm; simp
  generalize hb : (if minus = true then cs.tail else cs) = body at h hcs
  split at h
  · simp at h
  · rename_i hds
    have hsplit : body = body.takeWhile Char.isDigit ++ body.dropWhile Char.isDigit :=
      List.takeWhile_append_dropWhile.symm
    have hdig : ∀ d ∈ body.takeWhile Char.isDigit, d.isDigit = true := fun d hd => by
      have := List.all_takeWhile (p := Char.isDigit) (l := body)
      exact List.all_eq_true.mp this d hd
    split at h
    · rename_i hdrop
      simp only [Option.some.injEq] at h
      subst h
      rw [hdrop] at hsplit
      refine ⟨?_, hds, hdig, by simp, by simp, by simp⟩
      simp only [Option.toList_none, List.append_nil, List.append_nil]
      rw [List.append_nil] at hsplit
      rw [← hsplit]; exact hcs
    · rename_i c es hdrop
      split at h
      · rename_i hce
        simp only [Option.some.injEq] at h
        subst h
        refine ⟨?_, hds, hdig, ?_, by simp, ?_⟩
        · simp only [Option.toList_some, List.singleton_append, List.append_assoc]
          rw [← hdrop, ← hsplit]; exact hcs
        · exact fun d hd => List.all_eq_true.mp hce.2 d hd
        · intro c' hc'
          simp only [Option.some.injEq] at hc'
          subst hc'
          refine ⟨?_, hce.1⟩
          have := List.head?_dropWhile_not Char.isDigit body
          rw [hdrop] at this
          simpa using this
      · simp at h

theorem getStr_roundtrip (s : String) : toStr (getStr s) = some s := by
  unfold getStr
  split
  · rfl
  · split <;> rfl

theorem digit_ne_dot (d : Char) (h : d.isDigit = true) : d ≠ '.' := by
  rintro rfl; revert h; decide

theorem intStr_signed (minus : Bool) (v : Nat) (h : minus = true → 1 ≤ v) :
    intStr (if minus then -(v : Int) else v) = (if minus then ['-'] else []) ++ natStr v := by
  cases minus with
  | true =>
    have := h rfl
    simp only [↓reduceIte, intStr]
    rw [if_pos (by omega)]; simp
  | false => simp [intStr]

/-- Decimal text for a number with `dot ≥ 1` decimals. -/
theorem decimalStr_signed (minus : Bool) (v dot : Nat) (h : minus = true → 1 ≤ v) (hd : 1 ≤ dot) (hd2 : dot < 256) :
    decimalStr (if minus then -(v : Int) else v) (UInt8.ofNat dot) =
      (if minus then ['-'] else []) ++
        (if (natStr v).length ≤ dot then ['0', '.'] ++ List.replicate (dot - (natStr v).length) '0' ++ natStr v
         else (natStr v).take ((natStr v).length - dot) ++ '.' :: (natStr v).drop ((natStr v).length - dot)) := by
  unfold decimalStr
  simp only
  have hne : UInt8.ofNat dot ≠ 0 := by
    intro h0
    have := congrArg UInt8.toNat h0
    simp at this; omega
  have hto : (UInt8.ofNat dot).toNat = dot := by simp; omega
  rw [if_neg hne, hto, intStr_signed minus v h]
  cases minus with
  | true =>
    have := h rfl
    have hneg : -(v : Int) < 0 := by omega
    simp only [↓reduceIte, hneg, List.singleton_append, List.tail_cons]
  | false =>
    have hneg : ¬ (v : Int) < 0 := by omega
    simp only [Bool.false_eq_true, ↓reduceIte, hneg, List.nil_append]

theorem natStr_mem (n : Nat) : ∀ c ∈ natStr n, c.isDigit = true := by
  induction n using Nat.strongRecOn with
  | _ n ih =>
    have hdig : ∀ k, k < 10 → (digitChar k).isDigit = true := by
      have : ∀ k : Fin 10, (digitChar k.val).isDigit = true := by decide
      exact fun k hk => this ⟨k, hk⟩
    rw [natStr]
    split
    · rename_i h; intro c hc; simp at hc; subst hc; exact hdig n h
    · rename_i h
      intro c hc
      rcases List.mem_append.mp hc with hc | hc
      · exact ih (n / 10) (by omega) c hc
      · simp at hc; subst hc; exact hdig _ (Nat.mod_lt _ (by omega))

theorem parseI128_spec (minus : Bool) (ds : List Char) (v : Int) (h : parseI128 minus ds = some v) :
    v = (if minus then -(parseNat ds : Int) else parseNat ds) ∧ InI128 v := by
  unfold parseI128 at h
  simp only at h
  generalize (if minus = true then -(parseNat ds : Int) else (parseNat ds : Int)) = w at h ⊢
  split at h
  · rename_i hr
    simp only [Option.some.injEq] at h
    exact ⟨h.symm, by rw [← h]; exact hr⟩
  · simp at h

/-- Everything a successful `getNumber` says. -/
theorem getNumber_spec (cs : List Char) (n : NumResult) (h : getNumber cs = some n) :
    ∃ ds sep es, cs = (if n.minus then ['-'] else []) ++ ds ++ (sep.toList ++ es) ∧
      ds ≠ [] ∧ (∀ d ∈ ds, d.isDigit = true) ∧ (∀ d ∈ es, d.isDigit = true) ∧
      n.number = (if n.minus then -(parseNat (ds ++ es) : Int) else parseNat (ds ++ es)) ∧ InI128 n.number ∧
      ((sep = none ∧ es = [] ∧ n.dot = none ∧ ds.head? ≠ some '0') ∨
       (sep = some '.' ∧ es ≠ [] ∧ es.length < 256 ∧ n.dot = some es.length ∧ (ds.head? ≠ some '0' ∨ ds = ['0'])) ∨
       (∃ c, sep = some c ∧ c ≠ '.' ∧ c.isDigit = false ∧ c ≠ '\n' ∧ ds.head? ≠ some '0' ∧
         c.utf8Size + es.length - 1 < 256 ∧ n.dot = some (c.utf8Size + es.length - 1))) := by
  unfold getNumber at h
  simp only [Option.bind_eq_some_iff] at h
  obtain ⟨caps, hrex, dot, hdot, number, hnum, h⟩ := h
  obtain ⟨hcs, hds, hdd, hed, hnone, hsome⟩ := rex_spec cs caps hrex
  obtain ⟨hv, hin⟩ := parseI128_spec _ _ _ hnum
  obtain ⟨d0, dt, hd0⟩ := List.exists_cons_of_ne_nil hds
  split at h
  · simp at h
  · rename_i hlast
    have hn : n = ⟨caps.minus, dot, number⟩ ∧
        ((caps.ds ++ caps.sep.toList ++ caps.es).head? = some '0' →
          (caps.ds ++ caps.sep.toList ++ caps.es).take 2 = ['0', '.']) := by
      split at h
      · split at h
        · rename_i h2; simp only [Option.some.injEq] at h; exact ⟨h.symm, fun _ => h2⟩
        · simp at h
      · rename_i h1; simp only [Option.some.injEq] at h; exact ⟨h.symm, fun h' => absurd h' h1⟩
    obtain ⟨rfl, hzero⟩ := hn
    have hhead : (caps.ds ++ caps.sep.toList ++ caps.es).head? = caps.ds.head? := by
      rw [hd0]; simp
    rw [hhead] at hzero
    refine ⟨caps.ds, caps.sep, caps.es, hcs, hds, hdd, hed, hv, hin, ?_⟩
    -- leading zero means "0."
    have hz : caps.ds.head? = some '0' → caps.ds = ['0'] ∧ caps.sep = some '.' := by
      intro hh
      have ht := hzero hh
      rw [hd0] at ht hh hdd
      simp only [List.head?_cons, Option.some.injEq] at hh
      subst hh
      cases dt with
      | cons d1 dt =>
        simp only [List.cons_append, List.take_succ_cons, List.take_zero, List.cons.injEq, and_true, true_and] at ht
        have := hdd d1 (by simp)
        rw [ht] at this
        exact absurd this (by decide)
      | nil =>
        refine ⟨hd0, ?_⟩
        cases hs : caps.sep with
        | none =>
          rw [hs, hnone hs] at ht
          simp at ht
        | some c =>
          rw [hs] at ht
          simp at ht
          rw [ht]
    cases hs : caps.sep with
    | none =>
      left
      refine ⟨rfl, hnone hs, ?_, ?_⟩
      · simp [dotInfo, hs] at hdot; exact hdot.symm
      · intro hh; have := (hz hh).2; rw [hs] at this; simp at this
    | some c =>
      right
      have hd' : c.utf8Size + caps.es.length - 1 < 256 ∧ dot = some (c.utf8Size + caps.es.length - 1) := by
        simp only [dotInfo, hs] at hdot
        split at hdot
        · rename_i hlt; simp only [Option.some.injEq] at hdot; exact ⟨hlt, hdot.symm⟩
        · simp at hdot
      by_cases hc : c = '.'
      · left
        subst hc
        have hsz : ('.' : Char).utf8Size = 1 := by decide
        rw [hsz] at hd'
        have hes : caps.es ≠ [] := by
          intro he
          apply hlast
          rw [he, hs]; simp
        refine ⟨rfl, hes, by omega, ?_, ?_⟩
        · show dot = _
          rw [hd'.2, Nat.add_sub_cancel_left]
        · by_cases hh : caps.ds.head? = some '0'
          · exact Or.inr (hz hh).1
          · exact Or.inl hh
      · right
        refine ⟨c, rfl, hc, (hsome c hs).1, (hsome c hs).2, ?_, hd'.1, hd'.2⟩
        intro hh
        have := (hz hh).2
        rw [hs] at this
        simp only [Option.some.injEq] at this
        exact hc this

theorem valid_getStr (s : String) (h : (strBytes s).length < 2 ^ 63) : Valid (getStr s) := by
  unfold getStr
  split
  · assumption
  · split
    · assumption
    · exact h

theorem valid_toEnum (s : String) (h : (strBytes s).length < 2 ^ 63) : Valid (toEnum s) := by
  unfold toEnum
  split
  · trivial
  split
  · trivial
  split
  · trivial
  split
  · trivial
  split
  · exact valid_getStr s h
  · rename_i n hn
    obtain ⟨_, _, _, _, _, _, _, _, hin, _⟩ := getNumber_spec _ _ hn
    split
    · exact valid_getStr s h
    · split
      · exact hin
      · split
        · split
          · assumption
          · rename_i h1 _; exact h1
        · exact hin

theorem ofList_eq_iff (l : List Char) (s : String) : (some (String.ofList l) = some s) ↔ l = s.toList := by
  constructor
  · intro h
    have := Option.some.inj h
    rw [← this]; simp
  · intro h; rw [h]; simp

/-- the four literal texts are not mistaken for numbers -/
theorem literal_not_mistaken (cs : List Char) (h : cs = ['0'] ∨ cs = ['1'] ∨ cs.head? = some 't' ∨ cs.head? = some 'f') :
    ¬ Mistaken cs := by
  rintro ⟨minus, ds, es, c, hcs, hds, h0, hdd, hed, hc, hdot, hnl, hpos, hv⟩
  obtain ⟨d, dt, rfl⟩ := List.exists_cons_of_ne_nil hds
  have hd := hdd d (by simp)
  rw [isDigit_iff] at hd
  subst hcs
  cases minus with
  | true =>
    simp at h
  | false =>
    simp at h
    rcases h with h | h
    · rw [h] at hd; revert hd; decide
    · rw [h] at hd; revert hd; decide

theorem roundtrip_of_not_mistaken (s : String) (h : ¬ Mistaken s.toList) : toStr (toEnum s) = some s := by
  unfold toEnum
  split
  · simp_all [toStr]
  split
  · simp_all [toStr]
  split
  · simp_all [toStr]
  split
  · simp_all [toStr]
  split
  · exact getStr_roundtrip s
  · rename_i n hn
    obtain ⟨ds, sep, es, hcs, hds, hdd, hed, hnum, hin, hcase⟩ := getNumber_spec _ _ hn
    split
    · exact getStr_roundtrip s
    · rename_i hz
      rcases hcase with ⟨rfl, rfl, hdot, hh⟩ | ⟨rfl, hes, hlt, hdot, hh⟩ | ⟨c, rfl, hc, hcd, hnl, hh, hpos, hdot⟩
      · -- integer
        rw [hdot]
        simp only
        have hp := parseNat_pos ds hdd hds hh
        simp only [List.append_nil] at hnum
        have hstr : intStr n.number = s.toList := by
          rw [hnum, intStr_signed _ _ (fun _ => hp), natStr_parseNat ds hdd hds hh, hcs]
          simp
        split
        · split
          · rw [toStr, ofList_eq_iff]; exact hstr
          · rw [toStr, ofList_eq_iff]; exact hstr
        · rw [toStr, ofList_eq_iff]; simpa [decimalStr] using hstr
      · -- decimal with a real dot
        rw [hdot]
        simp only
        rw [toStr, ofList_eq_iff]
        have hlen : 1 ≤ es.length := by
          cases es with
          | nil => exact absurd rfl hes
          | cons _ _ => simp
        have hminus : n.minus = true → 1 ≤ parseNat (ds ++ es) := by
          intro hm
          apply Nat.one_le_iff_ne_zero.mpr
          intro h0
          apply hz
          rw [hnum, h0]; simp [hm]
        rw [hnum, decimalStr_signed _ _ _ hminus hlen hlt, hcs, List.append_assoc _ ds]
        congr 1
        by_cases hh0 : ds.head? = some '0'
        · have hds0 : ds = ['0'] := by
            rcases hh with h' | h'
            · exact absurd hh0 h'
            · exact h'
          subst hds0
          have hv : parseNat (['0'] ++ es) = parseNat es := by
            rw [List.singleton_append, parseNat_cons]; simp [digitVal]
          obtain ⟨h1, h2⟩ := natStr_pad es hed hes
          rw [hv, if_pos h1, List.append_assoc, h2]
          simp
        · have hall : ∀ d ∈ ds ++ es, d.isDigit = true := by
            intro d hd
            rcases List.mem_append.mp hd with hd | hd
            · exact hdd d hd
            · exact hed d hd
          have hh' : (ds ++ es).head? ≠ some '0' := by
            obtain ⟨d0, dt, rfl⟩ := List.exists_cons_of_ne_nil hds
            simpa using hh0
          have hpos : 0 < ds.length := List.length_pos_iff.mpr hds
          rw [natStr_parseNat (ds ++ es) hall (by simp [hds]) hh', if_neg (by simp; omega)]
          have hl : (ds ++ es).length - es.length = ds.length := by simp
          rw [hl]
          simp
      · -- odd separator: the text is mistaken
        exfalso
        apply h
        refine ⟨n.minus, ds, es, c, by rw [hcs]; simp, hds, hh, hdd, hed, hcd, hc, hnl, hpos, ?_⟩
        simp only
        have hfold : (ds ++ es).foldl (fun a d => a * 10 + (d.toNat - '0'.toNat)) 0 = parseNat (ds ++ es) := rfl
        rw [hfold]
        unfold InI128 at hin
        rw [hnum] at hin
        cases hm : n.minus with
        | true =>
          rw [hm] at hin
          simp only [↓reduceIte] at hin ⊢
          have := hin.1
          have h2 : ((parseNat (ds ++ es) : Nat) : Int) ≤ ((2 ^ 127 : Nat) : Int) := by
            push_cast; omega
          exact_mod_cast h2
        | false =>
          rw [hm] at hin
          simp only [Bool.false_eq_true, ↓reduceIte] at hin ⊢
          have := hin.2
          have h2 : ((parseNat (ds ++ es) : Nat) : Int) < ((2 ^ 127 : Nat) : Int) := by
            push_cast; omega
          exact_mod_cast h2

theorem takeWhile_digits (ds rest : List Char) (c : Char) (hdd : ∀ d ∈ ds, d.isDigit = true) (hc : c.isDigit = false) :
    (ds ++ c :: rest).takeWhile Char.isDigit = ds ∧ (ds ++ c :: rest).dropWhile Char.isDigit = c :: rest := by
  induction ds with
  | nil => simp [hc]
  | cons d ds ih =>
    have := ih fun x hx => hdd x (by simp [hx])
    simp [hdd d (by simp), this]

theorem getNumber_of_mistaken (cs : List Char) (minus : Bool) (ds es : List Char) (c : Char)
    (hcs : cs = (if minus then ['-'] else []) ++ ds ++ c :: es) (hds : ds ≠ []) (h0 : ds.head? ≠ some '0')
    (hdd : ∀ d ∈ ds, d.isDigit = true) (hed : ∀ d ∈ es, d.isDigit = true)
    (hc : c.isDigit = false) (hdot : c ≠ '.') (hnl : c ≠ '\n') (hpos : c.utf8Size + es.length - 1 < 256)
    (hv : if minus then parseNat (ds ++ es) ≤ 2 ^ 127 else parseNat (ds ++ es) < 2 ^ 127) :
    getNumber cs = some ⟨minus, some (c.utf8Size + es.length - 1),
      if minus then -(parseNat (ds ++ es) : Int) else parseNat (ds ++ es)⟩ := by
  obtain ⟨htw, hdw⟩ := takeWhile_digits ds es c hdd hc
  have hrex : rex cs = some ⟨minus, ds, some c, es⟩ := by
    have hm : (cs.head? == some '-') = minus := by
      cases minus with
      | true => simp [hcs]
      | false =>
        obtain ⟨d0, dt, rfl⟩ := List.exists_cons_of_ne_nil hds
        have hd0 : d0 ≠ '-' := by
          have := hdd d0 (by simp)
          rintro rfl; revert this; decide
        rw [hcs]
        simp [hd0]
    have hb : (if minus = true then cs.tail else cs) = ds ++ c :: es := by
      cases minus <;> simp [hcs]
    unfold rex
    simp only
    rw [hm, hb, htw, hdw, if_neg hds]
    simp only
    rw [if_pos ⟨hnl, List.all_eq_true.mpr hed⟩]
  have hdi : dotInfo ⟨minus, ds, some c, es⟩ = some (some (c.utf8Size + es.length - 1)) := by
    simp only [dotInfo]; rw [if_pos hpos]
  have hpi : parseI128 minus (ds ++ es) = some (if minus then -(parseNat (ds ++ es) : Int) else parseNat (ds ++ es)) := by
    unfold parseI128
    simp only
    rw [if_pos]
    cases minus with
    | true =>
      simp only [↓reduceIte] at hv ⊢
      have : ((parseNat (ds ++ es) : Nat) : Int) ≤ ((2 ^ 127 : Nat) : Int) := by exact_mod_cast hv
      push_cast at this
      constructor <;> omega
    | false =>
      simp only [Bool.false_eq_true, ↓reduceIte] at hv ⊢
      have : ((parseNat (ds ++ es) : Nat) : Int) < ((2 ^ 127 : Nat) : Int) := by exact_mod_cast hv
      push_cast at this
      constructor <;> omega
  have hlast : ¬ (ds ++ (some c).toList ++ es).getLast? = some '.' := by
    intro hl
    have hmem := List.mem_of_getLast? hl
    simp only [Option.toList_some, List.append_assoc, List.singleton_append, List.mem_append, List.mem_cons] at hmem
    rcases hmem with h | h | h
    · exact digit_ne_dot _ (hdd _ h) rfl
    · exact hdot h.symm
    · exact digit_ne_dot _ (hed _ h) rfl
  have hhead : ¬ (ds ++ (some c).toList ++ es).head? = some '0' := by
    obtain ⟨d0, dt, rfl⟩ := List.exists_cons_of_ne_nil hds
    simpa using h0
  unfold getNumber
  rw [hrex]
  simp only [Option.bind_some, hdi, hpi, hlast, hhead, ↓reduceIte]

/-- characters of a decimal text after the sign -/
theorem decimal_body_chars (v dot : Nat) (c : Char)
    (h : c ∈ (if (natStr v).length ≤ dot then ['0', '.'] ++ List.replicate (dot - (natStr v).length) '0' ++ natStr v
         else (natStr v).take ((natStr v).length - dot) ++ '.' :: (natStr v).drop ((natStr v).length - dot))) :
    c.isDigit = true ∨ c = '.' := by
  split at h
  · simp only [List.cons_append, List.nil_append, List.mem_cons, List.mem_append,
      List.mem_replicate] at h
    rcases h with rfl | rfl | ⟨_, rfl⟩ | h
    · left; decide
    · right; rfl
    · left; decide
    · left; exact natStr_mem v c h
  · simp only [List.mem_append, List.mem_cons] at h
    rcases h with h | rfl | h
    · left; exact natStr_mem v c (List.mem_of_mem_take h)
    · right; rfl
    · left; exact natStr_mem v c (List.mem_of_mem_drop h)

theorem not_roundtrip_of_mistaken (s : String) (h : Mistaken s.toList) : toStr (toEnum s) ≠ some s := by
  have hlit : ∀ t : String, (t.toList = ['0'] ∨ t.toList = ['1'] ∨ t.toList.head? = some 't' ∨ t.toList.head? = some 'f') → s ≠ t := by
    rintro t ht rfl
    exact literal_not_mistaken _ ht h
  obtain ⟨minus, ds, es, c, hcs, hds, h0, hdd, hed, hc, hdot, hnl, hpos, hv⟩ := h
  have hall : ∀ d ∈ ds ++ es, d.isDigit = true := by
    intro d hd
    rcases List.mem_append.mp hd with hd | hd
    · exact hdd d hd
    · exact hed d hd
  have hh' : (ds ++ es).head? ≠ some '0' := by
    obtain ⟨d0, dt, rfl⟩ := List.exists_cons_of_ne_nil hds
    simpa using h0
  have hp := parseNat_pos (ds ++ es) hall (by simp [hds]) hh'
  have hnum := getNumber_of_mistaken _ minus ds es c hcs hds h0 hdd hed hc hdot hnl hpos hv
  unfold toEnum
  rw [if_neg (hlit "0" (by decide)), if_neg (hlit "1" (by decide)), if_neg (hlit "true" (by decide)),
    if_neg (hlit "false" (by decide)), hnum]
  simp only
  rw [if_neg (by rintro ⟨h1, _⟩; cases minus <;> simp at h1 <;> omega)]
  rw [toStr, Ne, ofList_eq_iff, hcs, List.append_assoc]
  intro heq
  by_cases hz : c.utf8Size + es.length - 1 = 0
  · rw [hz] at heq
    have hzz : UInt8.ofNat 0 = 0 := rfl
    rw [hzz] at heq
    simp only [decimalStr, ↓reduceIte] at heq
    rw [intStr_signed _ _ (fun _ => hp)] at heq
    have := List.append_cancel_left heq
    have hm : c ∈ natStr (parseNat (ds ++ es)) := by rw [this]; simp
    rw [natStr_mem _ _ hm] at hc
    simp at hc
  · rw [decimalStr_signed _ _ _ (fun _ => hp) (by omega) hpos] at heq
    have := List.append_cancel_left heq
    have hm := decimal_body_chars (parseNat (ds ++ es)) (c.utf8Size + es.length - 1) c (by rw [this]; simp)
    rcases hm with hm | hm
    · rw [hm] at hc; simp at hc
    · exact hdot hm

end Verif.StringCompaction
