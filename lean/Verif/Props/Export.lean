import Verif.Lemmas.Export
import Verif.Lemmas.Json5Same
/-!
# C67: what is written can be read
-/
namespace Verif.Export
open Source (JVal i64ToF64)
open Json5 (Uni fromStr asciiUni isOk_eq isErr_eq C64_exact)
open Number (RustFloat exponent)

/-- a value whose names are distinct and whose numbers are finite -/
inductive Finite : JV → Prop
  | null : Finite .null
  | undef : Finite .undef
  | bool {b} : Finite (.bool b)
  | string {s} : Finite (.string s)
  | number {f} : exponent (toU f) ≠ 2047 → Finite (.number f)
  | array {a} : (∀ v ∈ a, Finite v) → Finite (.array a)
  | map {m} : (m.map Prod.fst).Nodup → (∀ e ∈ m, Finite e.2) → Finite (.map m)

/-- the full statement: what is written is read as the same value -/
def C67_full (u : Uni) (pf : List Char → Option UInt64) (fromU32 : Nat → UInt64) (disp : BitVec 64 → List Char) : Prop :=
  ∀ v, Finite v → ∃ j, fromStr u pf fromU32 (pretty disp v) = .ok j ∧ Same v j

theorem Same.text {s t : String} (h : Same (.string s) (.string t)) : s = t := by
  cases h
  rfl

section
variable (u : Uni) (pf : List Char → Option UInt64) (fromU32 : Nat → UInt64) (disp : BitVec 64 → List Char)

/-- C67: the written text is read as what it means. -/
theorem C67_means (hu : u.Sound) (hpf : ∀ s, (pf s).isSome ↔ RustFloat s) (v : JV) (j : JVal) (h : Means disp pf v j) :
    fromStr u pf fromU32 (pretty disp v) = .ok j := by
  rw [C64_exact u pf fromU32 hu hpf]
  have := Json5.Text.mk (g := []) (g' := []) .nil (h.value (u := u) 0) (.gap .nil)
  simpa [pretty] using this

/-- C67: what is written is read as the same value if no string needs an escape and the numbers are below 2^63 and not -0.0. -/
theorem C67_clean_partial (hu : u.Sound) (hpf : ∀ s, (pf s).isSome ↔ RustFloat s) (hp : Printer disp pf) (v : JV) (h : Clean v) :
    ∃ j, fromStr u pf fromU32 (pretty disp v) = .ok j ∧ Same v j := by
  obtain ⟨j, h1, h2⟩ := h.means hp
  exact ⟨j, C67_means u pf fromU32 disp hu hpf v j h1, h2⟩

/-- a clean value -/
example : Clean (.map [("a b", .array [.string "it's", .number 0x3ff8000000000000#64]), ("c", .null)]) := by
  refine .map (by decide) (by unfold CleanStr; simp [Json5.LineTerm]) ?_
  simp only [List.mem_cons, List.not_mem_nil, or_false, forall_eq_or_imp, forall_eq]
  refine ⟨.array ?_, .null⟩
  simp only [List.mem_cons, List.not_mem_nil, or_false, forall_eq_or_imp, forall_eq]
  exact ⟨.string (by unfold CleanStr; simp [Json5.LineTerm]), .number (by unfold CleanNum; decide)⟩

/-- C67: one string is read as two. -/
theorem C67_negation_quote :
    fromStr asciiUni (fun _ => none) (fun _ => 0) (pretty disp (.array [.string "x\", \"y"])) =
      .ok (.array [.string "x", .string "y"]) := by
  rw [pretty, write_array, writeArray, write_string]
  exact isOk_eq (by decide +kernel)

/-- C67: the characters `\n` are read as the end of a line. -/
theorem C67_negation_backslash :
    fromStr asciiUni (fun _ => none) (fun _ => 0) (pretty disp (.string "\\n")) = .ok (.string "\n") := by
  rw [pretty, write_string]
  exact isOk_eq (by decide +kernel)

/-- C67: a string with the end of a line is refused. -/
theorem C67_negation_line :
    fromStr asciiUni (fun _ => none) (fun _ => 0) (pretty disp (.string "\n")) = .err := by
  rw [pretty, write_string]
  exact isErr_eq (by decide +kernel)

/-- C67: -0.0, which is printed as `-0`, is read as the integer 0. -/
theorem C67_negation_zero (h : disp negZero = ['-', '0']) :
    fromStr asciiUni (fun _ => none) (fun _ => 0) (pretty disp (.number negZero)) = .ok (.int 0) ∧ ¬ Same (.number negZero) (.int 0) := by
  constructor
  · rw [pretty, write_number, h]
    exact isOk_eq (by decide +kernel)
  · intro h
    cases h with
    | int h => exact absurd h (by decide)

/-- C67: the float 2^63, which is printed without exponent, is refused. -/
theorem C67_negation_large (h : disp 0x43e0000000000000#64 = "9223372036854775808".toList) :
    exponent (toU 0x43e0000000000000#64) ≠ 2047 ∧
    fromStr asciiUni (fun _ => none) (fun _ => 0) (pretty disp (.number 0x43e0000000000000#64)) = .err := by
  refine ⟨by decide, ?_⟩
  rw [pretty, write_number, h]
  exact isErr_eq (by decide +kernel)

/-- C67: infinity, which is printed as `inf`, is refused. -/
theorem C67_negation_infinity (h : disp 0x7ff0000000000000#64 = "inf".toList) :
    fromStr asciiUni (fun _ => none) (fun _ => 0) (pretty disp (.number 0x7ff0000000000000#64)) = .err := by
  rw [pretty, write_number, h]
  exact isErr_eq (by decide +kernel)

/-- C67: the full statement is false. -/
theorem C67_negation : ¬ C67_full asciiUni (fun _ => none) (fun _ => 0) disp := by
  intro h
  obtain ⟨j, h1, h2⟩ := h _ (.string (s := "\\n"))
  rw [C67_negation_backslash] at h1
  cases h1
  exact absurd h2.text (by decide)

end

end Verif.Export
