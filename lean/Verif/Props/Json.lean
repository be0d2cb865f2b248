import Verif.Spec.Json
import Verif.Props.Json5
/-!
# C66: texts of JSON
-/
namespace Verif.Json5
open Source (JVal)
open Number (RustFloat Lit Fractional)

section
variable {u : Uni} {pf : List Char → Option UInt64}

theorem Ws.gap {g : List Char} (h : Ws g) : Gap g := by
  induction g with
  | nil => exact .nil
  | cons c g ih =>
    refine .white ?_ (ih fun d hd => h d (by simp [hd]))
    have := h c (by simp)
    unfold White
    omega

theorem JEscape.escape {c d : Char} (h : JEscape c d) : Escape c d := by
  cases h with
  | quote => exact .self (by decide) (by unfold Number.IsDigit; decide) (by unfold LineTerm; decide)
  | back => exact .self (by decide) (by unfold Number.IsDigit; decide) (by unfold LineTerm; decide)
  | slash => exact .self (by decide) (by unfold Number.IsDigit; decide) (by unfold LineTerm; decide)
  | b => exact .b
  | f => exact .f
  | n => exact .n
  | r => exact .r
  | t => exact .t

theorem JPiece.piece {t x : List Char} (h : JPiece true t x) : Piece '"' t (some x) := by
  cases h with
  | @plain c h1 h2 h3 h4 =>
    refine .plain h2 h3 ?_
    have := h4 rfl
    unfold LineTerm
    omega
  | escape h => exact .escape h.escape
  | @unicode a b c d h1 h2 h3 h4 h5 =>
    have := Piece.unicode (q := '"') h1 h2 h3 h4
    unfold scalar at this
    rwa [if_neg h5] at this
  | pair _ _ _ _ _ _ _ _ _ _ _ _ h => cases h

theorem JStr.str {t x : List Char} (h : JStr true t x) : StrText '"' t (some x) := by
  induction h with
  | nil => exact .nil
  | cons h _ ih => exact StrText.cons h.piece ih

theorem JStr.plain {t x : List Char} (h : JStr true t x) (h' : '\\' ∉ t) : t = x := by
  induction h with
  | nil => rfl
  | @cons t x r y h _ ih =>
    rw [List.mem_append, not_or] at h'
    rw [ih h'.2]
    cases h with
    | plain => rfl
    | escape _ => exact absurd (by simp) h'.1
    | unicode _ _ _ _ _ => exact absurd (by simp) h'.1
    | pair _ _ _ _ _ _ _ _ _ _ _ _ h => cases h

mutual
theorem JValue.value : ∀ {t v}, JValue pf true t v → Value u pf t v
  | _, _, .null => .null
  | _, _, .tru => .tru
  | _, _, .fls => .fls
  | _, _, .string h => .string (.inl rfl) h.str
  | _, _, .int _ h h' => .int h (h' rfl).1 (h' rfl).2
  | _, _, .float (.exp _ h2 h3) h h' => .float .intExp ⟨h2, h3⟩ h (h' rfl)
  | _, _, .float (.frac _ h2 _ h4 h5) h h' => .float .frac ⟨h2, h4, h5⟩ h (h' rfl)
  | _, _, .array0 h => .array0 h.gap
  | _, _, .array h h1 h2 => .array h.gap h1.value h2.tail
  | _, _, .object0 h => .object0 h.gap
  | _, _, .object h h1 h2 hn => .object h.gap h1.member h2.mtail hn
theorem JTail.tail : ∀ {t v}, JTail pf true t v → Tail u pf t v
  | _, _, .close h => .close h.gap
  | _, _, .more h h' h1 h2 => .more h.gap h'.gap h1.value h2.tail
theorem JMember.member : ∀ {t k v}, JMember pf true t k v → Member u pf t k v
  | _, _, _, .mk h hk h1 h2 h3 => by
    have hk := h.plain (hk rfl)
    subst hk
    exact .mk (.string (.inl rfl) h.str) h1.gap h2.gap h3.value
theorem JMTail.mtail : ∀ {t v}, JMTail pf true t v → MTail u pf t v
  | _, _, .close h => .close h.gap
  | _, _, .more h h' h1 h2 => .more h.gap h'.gap h1.member h2.mtail
end

end

/-- the full statement: every JSON text is read with its meaning -/
def C66_full (u : Uni) (pf : List Char → Option UInt64) (fromU32 : Nat → UInt64) : Prop :=
  ∀ s v, Json pf false s v → fromStr u pf fromU32 s = .ok v

/-- C66: every JSON text within the limits of the parser is read with its meaning. -/
theorem C66_within_limits_partial (u : Uni) (pf : List Char → Option UInt64) (fromU32 : Nat → UInt64) (hu : u.Sound)
    (hpf : ∀ s, (pf s).isSome ↔ RustFloat s) (s : List Char) (v : JVal) (h : Json pf true s v) : fromStr u pf fromU32 s = .ok v := by
  rw [C64_exact u pf fromU32 hu hpf]
  obtain ⟨h1, h2, h3⟩ := h
  exact .mk h1.gap h2.value (.gap h3.gap)

theorem jstr_one {lim : Bool} {t x : List Char} (h : JPiece lim t x) : JStr lim t x := by
  have := JStr.cons h .nil
  simpa using this

/-- a JSON text within the limits -/
example : Json (fun _ => none) true " {\"a\" : [-2,\"\\n\"]}".toList (.map [("a", .array [.int (-2), .string "\n"])]) := by
  have h1 : JValue (fun _ => none) true ['-', '2'] (.int (-2)) :=
    .int (s := some false) (i := ['2']) (by simp) (.inr ⟨'2', [], rfl, by decide, by decide, by simp⟩) (by decide)
  have h2 : JValue (fun _ => none) true ['"', '\\', 'n', '"'] (.string "\n") :=
    .string (t := ['\\', 'n']) (x := ['\n']) (jstr_one (.escape .n))
  have h3 : JStr true ['a'] ['a'] := jstr_one (.plain (by decide) (by decide) (by decide) (by decide))
  have w : Ws [] := by simp [Ws]
  have h4 := JValue.array w h1 (.more w w h2 (.close w))
  have h5 := JValue.object w (.mk h3 (by decide) (g := [' ']) (g' := [' ']) (by simp [Ws]) (by simp [Ws]) h4) (.close w) (by simp)
  exact Json.mk (g := [' ']) (g' := []) (by simp [Ws]) h5 w

/-- C66: a character written as a pair of surrogates is refused. -/
theorem C66_negation_surrogates :
    Json (fun _ => none) false "\"\\ud83d\\ude00\"".toList (.string (String.ofList [Char.ofNat 0x1f600])) ∧
    fromStr asciiUni (fun _ => none) (fun _ => 0) "\"\\ud83d\\ude00\"".toList = .err := by
  refine ⟨?_, isErr_eq (by decide +kernel)⟩
  have h : JStr false "\\ud83d\\ude00".toList [Char.ofNat 0x1f600] :=
    jstr_one (.pair (by unfold Number.IsHexDigit Number.IsDigit; decide) (by unfold Number.IsHexDigit Number.IsDigit; decide)
      (by unfold Number.IsHexDigit Number.IsDigit; decide) (by unfold Number.IsHexDigit Number.IsDigit; decide)
      (by unfold Number.IsHexDigit Number.IsDigit; decide) (by unfold Number.IsHexDigit Number.IsDigit; decide)
      (by unfold Number.IsHexDigit Number.IsDigit; decide) (by unfold Number.IsHexDigit Number.IsDigit; decide)
      (by decide) (by decide) (by decide) (by decide) rfl)
  exact Json.mk (g := []) (g' := []) (by simp [Ws]) (.string h) (by simp [Ws])

/-- C66: the statement is false. -/
theorem C66_negation : ¬ C66_full asciiUni (fun _ => none) (fun _ => 0) := by
  intro h
  have h1 := h _ _ C66_negation_surrogates.1
  rw [C66_negation_surrogates.2] at h1
  cases h1

/-- C66: a string with U+2028 in it is refused (JSON and JSON5 allow it). -/
theorem C66_negation_separator :
    Json (fun _ => none) false ['"', '\u2028', '"'] (.string (String.ofList ['\u2028'])) ∧
    fromStr asciiUni (fun _ => none) (fun _ => 0) ['"', '\u2028', '"'] = .err := by
  refine ⟨?_, isErr_eq (by decide +kernel)⟩
  exact Json.mk (g := []) (g' := []) (by simp [Ws])
    (.string (t := ['\u2028']) (jstr_one (.plain (by decide) (by decide) (by decide) (by decide)))) (by simp [Ws])

/-- C66: an integer that does not fit into `i64` is refused; it is not read as a float. -/
theorem C66_negation_integer :
    Json (fun _ => none) false "9223372036854775808".toList (.int (2 ^ 63)) ∧
    fromStr asciiUni (fun _ => none) (fun _ => 0) "9223372036854775808".toList = .err := by
  refine ⟨?_, isErr_eq (by decide +kernel)⟩
  have h : JValue (fun _ => none) false (Lit.text ⟨none, .int "9223372036854775808".toList⟩)
      (.int (Number.signed none (Number.denotes 10 "9223372036854775808".toList))) :=
    .int (by simp) (.inr ⟨'9', "223372036854775808".toList, rfl, by decide, by decide, by unfold Number.IsDigit; decide⟩) (by simp)
  have e : Number.denotes 10 "9223372036854775808".toList = 2 ^ 63 := by decide
  rw [e] at h
  exact Json.mk (g := []) (g' := []) (by simp [Ws]) h (by simp [Ws])

end Verif.Json5
