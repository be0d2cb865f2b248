import Verif.Lemmas.Json5Text
import Verif.Lemmas.Json5Same
/-!
# C64, C65: which texts are sources, what they mean, and what the names of members are

`u` are the classes of characters of Unicode, `pf` is `str::parse::<f64>` and `fromU32` is `u32 as f64`, of the standard library and
of the library `pest`; what is assumed of them is in the hypotheses.
-/
namespace Verif.Json5
open Source (JVal)
open Number (RustFloat)

variable (u : Uni) (pf : List Char → Option UInt64) (fromU32 : Nat → UInt64)

/-! ## C64 -/

/-- C64: the value of a text is the one of the grammar, and the texts outside of the grammar are refused. -/
theorem C64_exact (hu : u.Sound) (hpf : ∀ s, (pf s).isSome ↔ RustFloat s) (s : List Char) (v : JVal) :
    fromStr u pf fromU32 s = .ok v ↔ Text u pf s v := by
  constructor
  · intro h
    unfold fromStr at h
    cases ht : textP u (s.length + 1) s with
    | none => rw [ht] at h; cases h
    | some p =>
      obtain ⟨ps, r⟩ := p
      rw [ht] at h
      obtain ⟨x, r1, y, h1, h2, rfl⟩ := seq_inv ht
      obtain ⟨x', r2, r3, y, h3, h4, h5, rfl⟩ := nseq_inv h2
      obtain ⟨t, rfl, h0, p, rfl, -, hg⟩ := value_inv (fromU32 := fromU32) hpf _ _ _ _ h3
      obtain ⟨rfl, g, rfl, hgap⟩ := skip_gap_inv h1 (by simp [h0])
      have hr3 : r3 = [] := by
        cases r3 with
        | nil => rfl
        | cons c l => cases h5
      subst hr3
      obtain ⟨-, g', rfl, hg', -⟩ := skip_inv h4
      have hend : GapEnd (g' ++ []) := by
        rw [List.append_nil]
        rcases hg' with h | ⟨-, h⟩
        · exact .gap h
        · exact h
      exact .mk hgap (hg v h) hend
  · rintro ⟨hg, hv, he⟩
    rename_i g t g'
    obtain ⟨p, hp, htk⟩ := reads (fromU32 := fromU32) hu hpf ((g ++ (t ++ g')).length + 1) t v (by simp; omega) hv
    have hf : Follow g' := by
      cases he with
      | gap h =>
        have := follow_gap (r := []) h (fun c hc => by cases hc)
        rwa [List.append_nil] at this
      | line h _ =>
        refine follow_gap h ?_
        intro c hc
        simp at hc
        exact .inr (.inl hc.symm)
    have h1 : textP u ((g ++ (t ++ g')).length + 1) (g ++ (t ++ g')) = some ([] ++ ([p] ++ [.mk .eoi [] []]), []) :=
      seq_some (skip_gap_stop hg (htk.head g')) (nseq_some (htk.2 g' hf) (skip_gapEnd he) rfl)
    unfold fromStr
    rw [h1]
    exact hp

/-- C64: a text has one value. -/
theorem C64_unambiguous (hu : u.Sound) (hpf : ∀ s, (pf s).isSome ↔ RustFloat s) (s : List Char) (v w : JVal)
    (hv : Text u pf s v) (hw : Text u pf s w) : v = w := by
  have h1 := (C64_exact u pf (fun _ => 0) hu hpf s v).2 hv
  have h2 := (C64_exact u pf (fun _ => 0) hu hpf s w).2 hw
  rw [h1] at h2
  cases h2
  rfl

/-- C64: no text makes the parser panic. -/
theorem C64_total (hpf : ∀ s, (pf s).isSome ↔ RustFloat s) (s : List Char) : fromStr u pf fromU32 s ≠ .panic := by
  intro h
  unfold fromStr at h
  cases ht : textP u (s.length + 1) s with
  | none => rw [ht] at h; cases h
  | some p =>
    obtain ⟨ps, r⟩ := p
    rw [ht] at h
    obtain ⟨x, r1, y, h1, h2, rfl⟩ := seq_inv ht
    obtain ⟨x', r2, r3, y, h3, h4, h5, rfl⟩ := nseq_inv h2
    obtain ⟨t, rfl, h0, p, rfl, hg, -⟩ := value_inv (fromU32 := fromU32) hpf _ _ _ _ h3
    obtain ⟨rfl, -⟩ := skip_gap_inv h1 (by simp [h0])
    exact hg h

/-- the classes of the first 128 characters -/
def asciiUni : Uni where
  letter := Char.isAlpha
  mark c := c.isDigit || c == '_'

theorem asciiUni_sound : asciiUni.Sound := by
  intro c h
  have h1 : c.isAlphanum = true ∨ c = '_' := by
    rcases h with h | h
    · exact .inl (by simp [Char.isAlphanum, show c.isAlpha = true from h])
    · simp only [asciiUni, Bool.or_eq_true, beq_iff_eq] at h
      rcases h with h | h
      · exact .inl (by simp [Char.isAlphanum, h])
      · exact .inr h
  refine ⟨?_, fun _ => ?_⟩
  · rcases h1 with h1 | rfl
    · have : (48 ≤ c.toNat ∧ c.toNat ≤ 57) ∨ (65 ≤ c.toNat ∧ c.toNat ≤ 90) ∨ (97 ≤ c.toNat ∧ c.toNat ≤ 122) := by
        simp only [Char.isAlphanum, Char.isAlpha, Char.isUpper, Char.isLower, Char.isDigit, Bool.or_eq_true, Bool.and_eq_true,
          decide_eq_true_eq, UInt32.le_iff_toNat_le, ge_iff_le] at h1
        have e : c.val.toNat = c.toNat := rfl
        rw [e] at h1
        rcases h1 with (h | h) | h
        · exact .inr (.inl h)
        · exact .inr (.inr h)
        · exact .inl h
      unfold White
      omega
    · exact not_white (by decide)
  · rcases h1 with h | h
    · exact .inl h
    · exact .inr (.inl h)

/-- the hypotheses are met, and there are texts with values and texts without -/
example : ∃ (u : Uni) (pf : List Char → Option UInt64), u.Sound ∧ (∀ s, (pf s).isSome ↔ RustFloat s) := by
  classical
  exact ⟨asciiUni, fun s => if RustFloat s then some 0 else none, asciiUni_sound,
    fun s => by by_cases h : RustFloat s <;> simp [h]⟩
example : fromStr asciiUni (fun _ => none) (fun _ => 0) "/* a */ { a!? : [ 1, -0, 0xff, ], 'b\\n' : \"c\\n\" , } // d".toList =
    .ok (.map [("a!?", .array [.int 1, .int 0, .int 255]), ("b\\n", .string "c\n")]) := isOk_eq (by decide +kernel)
example : fromStr asciiUni (fun _ => none) (fun _ => 0) "{ a : 1, a : 2 }".toList = .err := isErr_eq (by decide +kernel)
example : fromStr asciiUni (fun _ => none) (fun _ => 0) "[ 1 2 ]".toList = .err := isErr_eq (by decide +kernel)

/-! ## C65 -/

/-- a text between quotes that stands for a string as a value, and the name of a member -/
def C65_full (u : Uni) (pf : List Char → Option UInt64) (fromU32 : Nat → UInt64) : Prop :=
  ∀ (t : List Char) (x k : String) (v : JVal), fromStr u pf fromU32 ('"' :: (t ++ ['"'])) = .ok (.string x) →
    fromStr u pf fromU32 ('{' :: '"' :: (t ++ '"' :: ":null}".toList)) = .ok (.map [(k, v)]) → k = x

/-- C65: the name `"a"` written with an escape is another name. -/
theorem C65_negation : ¬ C65_full asciiUni (fun _ => none) (fun _ => 0) := by
  intro h
  have h1 := h "\\u0061".toList "a" "\\u0061" .null (isOk_eq (by decide +kernel)) (isOk_eq (by decide +kernel))
  revert h1
  decide

/-- C65: an object that declares the name `a` twice is accepted, if one of them is written with an escape. -/
theorem C65_negation_twice :
    fromStr asciiUni (fun _ => none) (fun _ => 0) "{\"a\":1,\"\\u0061\":2}".toList =
      .ok (.map [("a", .int 1), ("\\u0061", .int 2)]) := isOk_eq (by decide +kernel)

/-- C65: the name of a member is the text between the quotes, whatever it stands for. -/
theorem C65_exact (hu : u.Sound) (hpf : ∀ s, (pf s).isSome ↔ RustFloat s) (q : Char) (hq : Quote q) (t : List Char)
    (o : Option (List Char)) (ht : StrText q t o) :
    fromStr u pf fromU32 ('{' :: q :: (t ++ q :: ":null}".toList)) = .ok (.map [(String.ofList t, .null)]) := by
  rw [C64_exact u pf fromU32 hu hpf]
  have hm : Member u pf ((q :: (t ++ [q])) ++ ([] ++ ':' :: ([] ++ "null".toList))) (String.ofList t) .null :=
    .mk (.string hq ht) .nil .nil .null
  have hv : Value u pf ('{' :: ([] ++ (((q :: (t ++ [q])) ++ ([] ++ ':' :: ([] ++ "null".toList))) ++ ([] ++ ['}']))))
      (.map [(String.ofList t, .null)]) := .object .nil hm (.close .nil) (by simp)
  have e : '{' :: q :: (t ++ q :: ":null}".toList) =
      [] ++ (('{' :: ([] ++ (((q :: (t ++ [q])) ++ ([] ++ ':' :: ([] ++ "null".toList))) ++ ([] ++ ['}'])))) ++ []) := by simp
  rw [e]
  exact .mk .nil hv (.gap .nil)

theorem strText_plain {q : Char} {t : List Char} (h : ∀ c ∈ t, c ≠ q ∧ c ≠ '\\' ∧ ¬ LineTerm c) : StrText q t (some t) := by
  induction t with
  | nil => exact .nil
  | cons c t ih =>
    have h1 := h c (by simp)
    exact StrText.cons (.plain h1.1 h1.2.1 h1.2.2) (ih fun d hd => h d (by simp [hd]))

/-- C65: without escapes the name is the string. -/
theorem C65_plain_partial (hu : u.Sound) (hpf : ∀ s, (pf s).isSome ↔ RustFloat s) (q : Char) (hq : Quote q) (t : List Char)
    (ht : ∀ c ∈ t, c ≠ q ∧ c ≠ '\\' ∧ ¬ LineTerm c) :
    fromStr u pf fromU32 (q :: (t ++ [q])) = .ok (.string (String.ofList t)) ∧
    fromStr u pf fromU32 ('{' :: q :: (t ++ q :: ":null}".toList)) = .ok (.map [(String.ofList t, .null)]) := by
  refine ⟨?_, C65_exact u pf fromU32 hu hpf q hq t _ (strText_plain ht)⟩
  rw [C64_exact u pf fromU32 hu hpf]
  have := Text.mk (u := u) (pf := pf) .nil (.string hq (strText_plain ht)) (.gap .nil)
  simpa using this

example : (∀ c ∈ "a b".toList, c ≠ '"' ∧ c ≠ '\\' ∧ ¬ LineTerm c) ∧ Quote '"' ∧ StrText '"' "a b".toList (some "a b".toList) := by
  have h : ∀ c ∈ "a b".toList, c ≠ '"' ∧ c ≠ '\\' ∧ ¬ LineTerm c := by unfold LineTerm; decide
  exact ⟨h, .inl rfl, strText_plain h⟩

end Verif.Json5
