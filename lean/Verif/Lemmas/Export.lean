import Verif.Spec.Export
import Verif.Props.Json5
/-!
# The written text is in the grammar
-/
namespace Verif.Export
open Source (JVal i64ToF64)
open Json5 (Uni Gap GapEnd White LineTerm StrText Piece Value Tail Member MTail Key Quote)
open Number (DecInt Lit signed denotes exponent IsDigit)

section
variable (disp : BitVec 64 → List Char) (level : Nat)

theorem write_string (s : String) : write disp level (.string s) = '"' :: (s.toList ++ ['"']) := by with_unfolding_all rfl
theorem write_true : write disp level (.bool true) = "true".toList := by with_unfolding_all rfl
theorem write_false : write disp level (.bool false) = "false".toList := by with_unfolding_all rfl
theorem write_null : write disp level .null = "null".toList := by with_unfolding_all rfl
theorem write_undef : write disp level .undef = "undefined".toList := by with_unfolding_all rfl
theorem write_number (f : BitVec 64) : write disp level (.number f) = disp f := by with_unfolding_all rfl
theorem write_array (a : List JV) : write disp level (.array a) = writeArray disp (level + 1) a := by with_unfolding_all rfl
theorem write_map (m : List (String × JV)) : write disp level (.map m) = writeMap disp (level + 1) m := by with_unfolding_all rfl

end

theorem gap_blank {c : Char} (h : c = ' ' ∨ c = '\n') : Gap [c] := by
  refine .white ?_ .nil
  rcases h with rfl | rfl <;> (unfold White; decide)

theorem gap_append {a b : List Char} (ha : Gap a) (hb : Gap b) : Gap (a ++ b) := by
  induction ha with
  | nil => exact hb
  | white h _ ih => exact .white h ih
  | @block x g h _ ih =>
    have := Gap.block h ih
    simpa [List.append_assoc] using this
  | @line x c g h h' _ ih =>
    have := Gap.line h h' ih
    simpa [List.append_assoc] using this

theorem gap_indent (n : Nat) : Gap (indent n) := by
  unfold indent
  generalize 2 * n = m
  induction m with
  | zero => exact .nil
  | succ m ih =>
    rw [List.replicate_succ]
    exact gap_append (a := [' ']) (gap_blank (.inl rfl)) ih

theorem gap_line (n : Nat) : Gap ('\n' :: indent n) := gap_append (a := ['\n']) (gap_blank (.inr rfl)) (gap_indent n)

theorem strText_clean {s : List Char} (h : ∀ c ∈ s, c ≠ '"' ∧ c ≠ '\\' ∧ ¬ LineTerm c) : StrText '"' s (some s) := by
  induction s with
  | nil => exact .nil
  | cons c s ih =>
    obtain ⟨h1, h2, h3⟩ := h c (by simp)
    exact StrText.cons (.plain h1 h2 h3) (ih fun d hd => h d (by simp [hd]))

section
variable {u : Uni} {disp : BitVec 64 → List Char} {pf : List Char → Option UInt64}

theorem member_text {k : String} {t : List Char} {j : JVal} (hk : CleanStr k) (h : Value u pf t j) :
    Member u pf ('"' :: (k.toList ++ '"' :: ' ' :: ':' :: ' ' :: t)) k j := by
  have := Member.mk (Key.string (u := u) (.inl rfl) (strText_clean hk)) (gap_blank (.inl rfl)) (gap_blank (.inl rfl)) h
  rw [String.ofList_toList] at this
  simpa using this

theorem MeansM.keys : ∀ {m : List (String × JV)} {l : List (String × JVal)}, MeansM disp pf m l → l.map Prod.fst = m.map Prod.fst
  | _, _, .nil => rfl
  | _, _, .cons _ _ h => by simp [h.keys]

mutual
theorem Means.value : ∀ {v : JV} {j : JVal} (level : Nat), Means disp pf v j → Value u pf (write disp level v) j
  | _, _, _, .null => by
    rw [write_null]
    exact .null
  | _, _, _, .undef => by
    rw [write_undef]
    exact .undef
  | _, _, _, .bool (b := true) => by
    rw [write_true]
    exact .tru
  | _, _, _, .bool (b := false) => by
    rw [write_false]
    exact .fls
  | .string s, _, _, .string h => by
    have := Value.string (u := u) (pf := pf) (.inl rfl) (strText_clean h)
    rw [String.ofList_toList] at this
    rwa [write_string]
  | .number f, _, _, .int h h1 h2 h3 => by
    rw [write_number, h]
    exact .int h1 h2 h3
  | .number f, _, _, .float (s := s) (i := i) (fr := fr) h h1 h2 h3 h4 => by
    rw [h] at h3
    rw [write_number, h]
    exact .float .frac ⟨h1, h2, by simp⟩ h3 h4
  | .array _, _, level, .array .nil => by
    rw [write_array, writeArray]
    exact .array0 .nil
  | .array _, _, level, .array (.cons h .nil) => by
    have := Value.array (gap_blank (.inl rfl)) (h.value (level + 1)) (.close (gap_blank (c := ' ') (.inl rfl)))
    simpa [write_array, writeArray] using this
  | .array _, _, level, .array (.cons h (.cons h' .nil)) => by
    have := Value.array (gap_blank (.inl rfl)) (h.value (level + 1))
      (.more .nil (gap_blank (c := ' ') (.inl rfl)) (h'.value (level + 1)) (.close (gap_blank (c := ' ') (.inl rfl))))
    simpa [write_array, writeArray] using this
  | .array _, _, level, .array (.cons h (.cons h1 (.cons h2 h3))) => by
    have := Value.array (gap_line (level + 1)) (h.value (level + 1)) (MeansL.tail (level + 1) (.cons h1 (.cons h2 h3)))
    simpa [write_array, writeArray] using this
  | .map _, _, level, .map .nil _ => by
    rw [write_map, writeMap]
    exact .object0 .nil
  | .map _, _, level, .map (.cons (k := k) hk h .nil) _ => by
    have := Value.object (gap_blank (.inl rfl)) (member_text hk (h.value (level + 1))) (.close (gap_blank (c := ' ') (.inl rfl)))
      (by simp)
    simpa [write_map, writeMap] using this
  | .map _, _, level, .map (.cons (k := k) hk h (.cons hk' h1 h2)) hn => by
    have := Value.object (gap_line (level + 1)) (member_text hk (h.value (level + 1))) (MeansM.mtail (level + 1) (.cons hk' h1 h2))
      (by
        rw [(MeansM.cons hk' h1 h2).keys]
        exact hn)
    simpa [write_map, writeMap] using this
theorem MeansL.tail : ∀ {a : List JV} {l : List JVal} (level : Nat), MeansL disp pf a l → Tail u pf (writeLines disp level a) l
  | _, _, level, .nil => by
    have := Tail.close (u := u) (pf := pf) (gap_line (level - 1))
    simpa [writeLines] using this
  | _, _, level, .cons h h' => by
    have := Tail.more .nil (gap_line level) (h.value level) (MeansL.tail level h')
    simpa [writeLines] using this
theorem MeansM.mtail : ∀ {m : List (String × JV)} {l : List (String × JVal)} (level : Nat), MeansM disp pf m l →
    MTail u pf (',' :: '\n' :: writeMembers disp level m) l
  | _, _, level, .nil => by
    have := MTail.comma (u := u) (pf := pf) .nil (gap_line (level - 1))
    simpa [writeMembers] using this
  | _, _, level, .cons hk h h' => by
    have := MTail.more .nil (gap_line level) (member_text hk (h.value level)) (MeansM.mtail level h')
    simpa [writeMembers] using this
end

/-! ## From clean values -/

theorem signed_range {s : Option Bool} {n : Nat} (h : n < 2 ^ 63) : -(2 ^ 63) ≤ signed s n ∧ signed s n < 2 ^ 63 := by
  match s with
  | none => simp only [signed]; omega
  | some true => simp only [signed]; omega
  | some false => simp only [signed]; omega

theorem toU_inj {a b : BitVec 64} (h : toU a = toU b) : a = b := congrArg UInt64.toBitVec h

theorem number_means (hp : Printer disp pf) {f : BitVec 64} (h : CleanNum f) : ∃ j, Means disp pf (.number f) j ∧ Same (.number f) j := by
  have hb := hp.back f (by have := h.1; omega)
  rcases hp.form f h.1 with ⟨s, i, h1, h2, h3, h4⟩ | ⟨s, i, fr, h1, h2, h3, h4, h5⟩
  · refine ⟨_, .int h1 h3 (signed_range h4).1 (signed_range h4).2, .int ?_⟩
    have hn := hp.near s i h3 h4
    rw [← h1, hb, Option.some.injEq] at hn
    split at hn
    · exact absurd (toU_inj hn) h.2
    · exact (toU_inj hn).symm
  · exact ⟨_, .float h1 h3 h5 hb (by have := h.1; omega), .double⟩

theorem Clean.means (hp : Printer disp pf) {v : JV} (h : Clean v) : ∃ j, Means disp pf v j ∧ Same v j := by
  induction h with
  | null => exact ⟨_, .null, .null⟩
  | undef => exact ⟨_, .undef, .undef⟩
  | bool => exact ⟨_, .bool, .bool⟩
  | string h => exact ⟨_, .string h, .string⟩
  | number h => exact number_means hp h
  | @array a _ ih =>
    have : ∃ l, MeansL disp pf a l ∧ SameL a l := by
      clear * - ih
      induction a with
      | nil => exact ⟨_, .nil, .nil⟩
      | cons x a iha =>
        obtain ⟨l, h1, h2⟩ := iha fun v hv => ih v (by simp [hv])
        obtain ⟨j, h3, h4⟩ := ih x (by simp)
        exact ⟨_, .cons h3 h1, .cons h4 h2⟩
    obtain ⟨l, h1, h2⟩ := this
    exact ⟨_, .array h1, .array h2⟩
  | @map m hn hk _ ih =>
    have : ∃ l, MeansM disp pf m l ∧ SameM m l := by
      clear * - ih hk
      induction m with
      | nil => exact ⟨_, .nil, .nil⟩
      | cons x m ihm =>
        obtain ⟨l, h1, h2⟩ := ihm (fun v hv => hk v (by simp [hv])) fun v hv => ih v (by simp [hv])
        obtain ⟨j, h3, h4⟩ := ih x (by simp)
        exact ⟨_, .cons (hk x (by simp)) h3 h1, .cons h4 h2⟩
    obtain ⟨l, h1, h2⟩ := this
    exact ⟨_, .map h1 hn, .map h2⟩

end

end Verif.Export
