import Verif.Model.Names
import Verif.Spec.Names
import Mathlib.Tactic.ByContra
/-! # Member names (C23) -/
namespace Verif.Names
open Diff

theorem le_iff (a b : Char) : decide (a ≤ b) = true ↔ a.toNat ≤ b.toNat := by
  rw [decide_eq_true_iff, Char.le_def, UInt32.le_iff_toNat_le]; rfl

theorem isHead_iff (c : Char) : isHead c = true ↔ Lower c ∨ c = '@' ∨ c = '_' := by
  unfold isHead Lower
  simp only [Bool.or_eq_true, Bool.and_eq_true, beq_iff_eq, le_iff]
  rw [show ('a' : Char).toNat = 97 from rfl, show ('z' : Char).toNat = 122 from rfl]
  constructor
  · rintro ((h | h) | h)
    · exact .inr (.inl h)
    · exact .inl h
    · exact .inr (.inr h)
  · rintro (h | h | h)
    · exact .inl (.inr h)
    · exact .inl (.inl h)
    · exact .inr h

theorem isTail_iff (c : Char) : isTail c = true ↔ Lower c ∨ Upper c ∨ Digit c ∨ c = '_' := by
  unfold isTail Lower Upper Digit
  simp only [Bool.or_eq_true, Bool.and_eq_true, beq_iff_eq, le_iff]
  rw [show ('a' : Char).toNat = 97 from rfl, show ('z' : Char).toNat = 122 from rfl, show ('A' : Char).toNat = 65 from rfl,
    show ('Z' : Char).toNat = 90 from rfl, show ('0' : Char).toNat = 48 from rfl, show ('9' : Char).toNat = 57 from rfl]
  constructor
  · rintro (((h | h) | h) | h)
    · exact .inl h
    · exact .inr (.inl h)
    · exact .inr (.inr (.inl h))
    · exact .inr (.inr (.inr h))
  · rintro (h | h | h | h)
    · exact .inl (.inl (.inl h))
    · exact .inl (.inl (.inr h))
    · exact .inl (.inr h)
    · exact .inr h

theorem ident_iff (s : List Char) : Ident s ↔ ∃ c r, s = c :: r ∧ isHead c = true ∧ r.all isTail = true := by
  unfold Ident
  simp only [isHead_iff, List.all_eq_true, isTail_iff]

theorem isMark_not_tail {c : Char} (h : isMark c = true) : isTail c = false := by
  unfold isMark at h
  simp only [Bool.or_eq_true, beq_iff_eq] at h
  rcases h with h | h <;> subst h <;> decide

theorem takeWhile_append_marks {a b : List Char} (ha : a.all isTail = true) (hb : b.all isMark = true) :
    (a ++ b).takeWhile isTail = a ∧ (a ++ b).dropWhile isTail = b := by
  induction a with
  | nil =>
    cases b with
    | nil => exact ⟨rfl, rfl⟩
    | cons c r =>
      simp only [List.all_cons, Bool.and_eq_true] at hb
      simp [isMark_not_tail hb.1]
  | cons c r ih =>
    simp only [List.all_cons, Bool.and_eq_true] at ha
    obtain ⟨h1, h2⟩ := ih ha.2
    simp [ha.1, h1, h2]

/-- The groups of the regular expression. -/
theorem analyzeName_iff (s n suf : List Char) : analyzeName s = some (n, suf) ↔ s = n ++ suf ∧ Ident n ∧ suf.all isMark = true := by
  rw [ident_iff]
  constructor
  · intro h
    cases s with
    | nil => cases h
    | cons c r =>
      unfold analyzeName at h
      dsimp only at h
      by_cases hc : isHead c = true
      · rw [if_pos hc] at h
        by_cases hm : (r.dropWhile isTail).all isMark = true
        · rw [if_pos hm] at h
          cases h
          refine ⟨?_, ⟨c, _, rfl, hc, List.all_takeWhile⟩, hm⟩
          rw [List.cons_append, List.takeWhile_append_dropWhile]
        · rw [if_neg hm] at h; cases h
      · rw [if_neg hc] at h; cases h
  · rintro ⟨rfl, ⟨c, r, rfl, hc, hr⟩, hm⟩
    obtain ⟨h1, h2⟩ := takeWhile_append_marks hr hm
    rw [List.cons_append]
    unfold analyzeName
    dsimp only
    rw [if_pos hc, h1, h2]
    rw [if_pos hm]

theorem suffix_marks {suf : List Char} {vt : VType} (h : Suffix suf vt) : suf.all isMark = true := by cases h <;> decide

theorem valueTypeAndName_iff (s n : List Char) (vt : VType) :
    valueTypeAndName s = some (vt, n) ↔ ∃ suf, s = n ++ suf ∧ Ident n ∧ Suffix suf vt := by
  constructor
  · intro h
    unfold valueTypeAndName at h
    cases ha : analyzeName s with
    | none => rw [ha] at h; cases h
    | some x =>
      obtain ⟨n', suf⟩ := x
      rw [ha] at h
      simp only at h
      obtain ⟨hs, hn, _⟩ := (analyzeName_iff s n' suf).1 ha
      by_cases h1 : suf = ['!', '?'] ∨ suf = ['?', '!']
      · rw [if_pos h1] at h
        cases h
        refine ⟨suf, hs, hn, ?_⟩
        rcases h1 with h1 | h1 <;> subst h1
        · exact .both
        · exact .both'
      · rw [if_neg h1] at h
        by_cases h2 : suf = ['!']
        · rw [if_pos h2] at h; cases h; exact ⟨suf, hs, hn, h2 ▸ .undefiable⟩
        · rw [if_neg h2] at h
          by_cases h3 : suf = ['?']
          · rw [if_pos h3] at h; cases h; exact ⟨suf, hs, hn, h3 ▸ .nullable⟩
          · rw [if_neg h3] at h
            by_cases h4 : suf = []
            · rw [if_pos h4] at h; cases h; exact ⟨suf, hs, hn, h4 ▸ .normal⟩
            · rw [if_neg h4] at h; cases h
  · rintro ⟨suf, hs, hn, hsuf⟩
    unfold valueTypeAndName
    rw [(analyzeName_iff s n suf).2 ⟨hs, hn, suffix_marks hsuf⟩]
    cases hsuf <;> simp

theorem special_not_ident {s : List Char} (h : Special s) : valueTypeAndName s = none := by
  rcases h with h | h | h | h <;> subst h <;> decide

theorem jsonName_not_special {s : List Char} (h : ¬ Special s) : jsonName s = (valueTypeAndName s).map fun x => .name x.2 x.1 := by
  unfold jsonName
  rw [if_neg (fun e : s = ['O', 'l', 'd'] => h (.inl e)), if_neg (fun e : s = ['I', 'D'] => h (.inr (.inl e))),
    if_neg (fun e : s = ['R', 'e', 'f'] => h (.inr (.inr (.inl e)))), if_neg (fun e : s = ['E', 'n', 'u', 'm'] => h (.inr (.inr (.inr e))))]

/-- **C23, acceptance.** A written name is read as the name `n` with the nullability `vt` exactly if it is the legal identifier `n`
followed by a suffix that means `vt`. -/
theorem C23_accepts (s n : List Char) (vt : VType) :
    jsonName s = some (.name n vt) ↔ ∃ suf, s = n ++ suf ∧ Ident n ∧ Suffix suf vt := by
  rw [← valueTypeAndName_iff]
  by_cases h : Special s
  · rw [special_not_ident h]
    constructor
    · intro hj
      rcases h with h | h | h | h <;> subst h <;> revert hj <;> (intro hj; exact absurd hj (by
        unfold jsonName; simp))
    · intro h; cases h
  · rw [jsonName_not_special h]
    cases valueTypeAndName s with
    | none => simp
    | some x =>
      obtain ⟨a, b⟩ := x
      simp only [Option.map_some, Option.some.injEq, NameType.name.injEq, Prod.mk.injEq]
      exact And.comm

/-- **C23, refusal.** It is refused exactly if it is neither of this form nor one of the four special names. -/
theorem C23_refuses (s : List Char) :
    jsonName s = none ↔ ¬ Special s ∧ ¬ ∃ n suf vt, s = n ++ suf ∧ Ident n ∧ Suffix suf vt := by
  by_cases h : Special s
  · constructor
    · intro hj
      rcases h with h | h | h | h <;> subst h <;> exact absurd hj (by decide)
    · intro hh; exact absurd h hh.1
  · rw [jsonName_not_special h]
    constructor
    · intro hj
      refine ⟨h, ?_⟩
      rintro ⟨n, suf, vt, hh⟩
      rw [(valueTypeAndName_iff s n vt).2 ⟨suf, hh⟩] at hj
      cases hj
    · rintro ⟨_, hh⟩
      cases hv : valueTypeAndName s with
      | none => rfl
      | some x =>
        obtain ⟨vt, n⟩ := x
        obtain ⟨suf, h1⟩ := (valueTypeAndName_iff s n vt).1 hv
        exact absurd ⟨n, suf, vt, h1⟩ hh

/-- The special names have their own meanings, and are not legal identifiers. -/
theorem C23_special (s : List Char) :
    (jsonName s = some (.system .old) ↔ s = "Old".toList) ∧ (jsonName s = some (.system .id) ↔ s = "ID".toList) ∧
    (jsonName s = some (.system .ref) ↔ s = "Ref".toList) ∧ (jsonName s = some (.system .enum) ↔ s = "Enum".toList) ∧
    (Special s → ¬ ∃ suf vt n, s = n ++ suf ∧ Ident n ∧ Suffix suf vt) := by
  have hns : ∀ x, jsonName s = some (.system x) → Special s := by
    intro x hx
    by_contra h
    rw [jsonName_not_special h] at hx
    cases hv : valueTypeAndName s <;> rw [hv] at hx <;> cases hx
  refine ⟨⟨fun h => ?_, fun h => by subst h; decide⟩, ⟨fun h => ?_, fun h => by subst h; decide⟩, ⟨fun h => ?_, fun h => by subst h; decide⟩,
    ⟨fun h => ?_, fun h => by subst h; decide⟩, fun h => ?_⟩
  · rcases hns _ h with e | e | e | e <;> subst e <;> first | rfl | exact absurd h (by decide)
  · rcases hns _ h with e | e | e | e <;> subst e <;> first | rfl | exact absurd h (by decide)
  · rcases hns _ h with e | e | e | e <;> subst e <;> first | rfl | exact absurd h (by decide)
  · rcases hns _ h with e | e | e | e <;> subst e <;> first | rfl | exact absurd h (by decide)
  · rintro ⟨suf, vt, n, hh⟩
    have := (valueTypeAndName_iff s n vt).2 ⟨suf, hh⟩
    rw [special_not_ident h] at this
    cases this

/-- **C23, uniqueness.** Name and nullability determine the written name.

Partial: except for names that are both nullable and undefiable; see `C23_negation`. -/
theorem C23_unique_partial (s s' n : List Char) (vt : VType) (hvt : vt ≠ .undefNullable) (h : jsonName s = some (.name n vt))
    (h' : jsonName s' = some (.name n vt)) : s = s' := by
  obtain ⟨suf, rfl, _, h⟩ := (C23_accepts s n vt).1 h
  obtain ⟨suf', rfl, _, h'⟩ := (C23_accepts s' n vt).1 h'
  cases h <;> cases h' <;> first | rfl | exact absurd rfl hvt

/-- For those there are exactly two ways. -/
theorem C23_two_ways_partial (s n : List Char) (h : jsonName s = some (.name n .undefNullable)) :
    s = n ++ ['!', '?'] ∨ s = n ++ ['?', '!'] := by
  obtain ⟨suf, rfl, _, h⟩ := (C23_accepts s n _).1 h
  cases h
  · exact .inl rfl
  · exact .inr rfl

/-- **C23 is false for names that are both nullable and undefiable**: there are two ways to write them. -/
theorem C23_negation : ∃ s s' n vt, s ≠ s' ∧ jsonName s = some (.name n vt) ∧ jsonName s' = some (.name n vt) :=
  ⟨['a', '!', '?'], ['a', '?', '!'], ['a'], .undefNullable, by decide, by decide, by decide⟩

/-- Names written by `name_with_suffix` are read back. -/
theorem C23_written (n : List Char) (vt : VType) (h : Ident n) : jsonName (nameWithSuffix n vt) = some (.name n vt) := by
  refine (C23_accepts _ _ _).2 ⟨toSuffix vt, rfl, h, ?_⟩
  cases vt <;> constructor

/-- A simple name (`json_simple_name`) is a legal identifier. -/
theorem C23_simple (s n : List Char) : jsonSimpleName s = some n ↔ s = n ∧ Ident n := by
  have key : jsonSimpleName s = some n ↔ jsonName s = some (.name n .normal) := by
    unfold jsonSimpleName
    cases jsonName s with
    | none => simp
    | some x =>
      cases x with
      | name a vt => cases vt <;> simp
      | system y => simp
  rw [key, C23_accepts]
  constructor
  · rintro ⟨suf, rfl, hn, hs⟩
    cases hs
    exact ⟨by simp, hn⟩
  · rintro ⟨rfl, hn⟩
    exact ⟨[], by simp, hn, .normal⟩

/-- A name and the same name with another suffix are two different keys of a source object with the same name of the member. -/
theorem C23_shared_name : jsonName ['a'] = some (.name ['a'] .normal) ∧ jsonName ['a', '?'] = some (.name ['a'] .nullable) := by decide

example : Ident "@some_Name0".toList := (ident_iff _).2 ⟨'@', "some_Name0".toList, by decide, by decide, by decide⟩
example : jsonName "Name".toList = none ∧ jsonName "a??".toList = none ∧ jsonName "a-b".toList = none ∧ jsonName [] = none ∧
    jsonName "Ref?".toList = none := by decide

end Verif.Names
