import Verif.Lemmas.FileName
/-!
# C25: history file names and their metadata

Full claim: every produced name parses to exactly the metadata it was made from; different metadata give different names;
parsed names are regenerated identically (up to leading zeros).

The code violates the first part for every tag and for numbers of nine or more digits, and the last part for odd but
accepted names. Injectivity holds without any restriction.
-/
namespace Verif.FileName
open VarInt

/-- Different metadata give different names. -/
theorem C25_filename_injective (p q : Props) (h : p.filename = q.filename) : p = q := filename_injective p q h

/-- Exact description of the metadata that can be read back: no tag, and all numbers have at most eight digits.
(`prevCtl` is a `u32`, an order list is never empty: file_name_props.rs:18-23.) What is missing from the full claim:
tags and larger numbers, for which it is false. -/
theorem C25_filename_roundtrip_iff_partial (p : Props) (ho : p.order ≠ []) (hp : p.prevCtl < 2 ^ 32) :
    analyze p.filename = .ok (some p) ↔
      p.tag = none ∧ p.control < 100000000 ∧ ∀ n ∈ p.order, n < 100000000 := by
  constructor
  · intro h
    obtain ⟨h1, _, _, h2, h3⟩ := analyze_some _ _ h
    exact ⟨h1, h2, h3⟩
  · rintro ⟨h1, h2, h3⟩
    rw [analyze_untagged p h1 ho hp, if_pos ⟨h2, h3⟩]

example : analyze (Props.filename ⟨12, 3, [0, 4, 100], none⟩) = .ok (some ⟨12, 3, [0, 4, 100], none⟩) := by
  rw [C25_filename_roundtrip_iff_partial _ (by simp) (by decide)]; simp

/-- The code violates C25: no tagged name is ever recognised, whatever the tag. -/
theorem C25_negation_tag (p : Props) (ht : p.tag ≠ none) (q : Props) : analyze p.filename ≠ .ok (some q) := by
  rw [filename_tag]
  cases h : p.tag with
  | none => exact absurd h ht
  | some t =>
    simp only [List.cons_append]
    rcases analyze_hash (t ++ [35] ++ bodyText p) with h1 | h1 <;> rw [h1] <;> simp

/-- An empty tag, and a tag ending in a multi-byte character, make the parser panic. -/
theorem C25_negation_tag_panics :
    analyze (Props.filename ⟨1, 1, [0], some []⟩) = .panic ∧
    analyze (Props.filename ⟨1, 1, [0], some [0xC3, 0xA9]⟩) = .panic := by decide +kernel

/-- A nine-digit number is not read back. -/
theorem C25_negation_digits : analyze (Props.filename ⟨100000000, 100000000, [0], none⟩) = .ok none := by
  decide +kernel

/-- Metadata read from any file name in the directory is always untagged, and a name regenerated from it is read back as
the same metadata. Missing from the full claim: that the regenerated name is the same text up to leading zeros, which is
false (`C25_negation_regenerated`). -/
theorem C25_regenerated_partial (s : Bytes) (p : Props) (h : analyze s = .ok (some p)) :
    analyze p.filename = .ok (some p) := by
  obtain ⟨h1, h2, h3, h4, h5⟩ := analyze_some s p h
  rw [analyze_untagged p h1 h2 h3, if_pos ⟨h4, h5⟩]

/-- "(7)__1.his" is accepted (an absent number counts as 0) ... -/
example : analyze [40, 55, 41, 95, 95, 49, 46, 104, 105, 115] = .ok (some ⟨0, 7, [1], none⟩) := by decide +kernel

/-- "(x)_5_0.his" is accepted although "x" is no number, and is regenerated as "_5_0.his". -/
theorem C25_negation_regenerated :
    analyze [40, 120, 41, 95, 53, 95, 48, 46, 104, 105, 115] = .ok (some ⟨5, 5, [0], none⟩) ∧
    Props.filename ⟨5, 5, [0], none⟩ = [95, 53, 95, 48, 46, 104, 105, 115] := by decide +kernel

end Verif.FileName
