import Verif.Lemmas.Compaction
import Verif.Lemmas.StringCompaction
import Verif.Lemmas.UrlString
/-!
# Properties C04 (typed compaction), C06 (string compaction), C07 (URL strings)
-/
namespace Verif

/-! ## C04 -/
section C04
open VarInt Codec Compaction

/-- C04: every integer, string, boolean, double and float is read back unchanged by the matching accessor (floats bit for
bit, whatever `trunc` and the float width conversions do), and the compacted value is encodable. -/
theorem C04_compaction_lossless (F : FloatOps) :
    (∀ i, InI64 i → asI64 (compInt i) = some i ∧ Valid (compInt i)) ∧
    (∀ s, asString (compStr s) = some s ∧ ((strBytes s).length < 2 ^ 63 → Valid (compStr s))) ∧
    (∀ b, asBool (compBool b) = some b ∧ Valid (compBool b)) ∧
    (∀ d, asF64 F (compDouble F d) = some d) ∧
    (∀ f, asF32 F (compFloat F f) = some f) :=
  ⟨fun i h => ⟨asI64_compInt i, valid_compInt i h⟩,
   fun s => ⟨asString_compStr s, valid_compStr s⟩,
   fun _ => ⟨rfl, trivial⟩,
   compDouble_bits F, compFloat_bits F⟩

/-- C04 through the file format: a compacted value written with `encode` and read with `decode` still reads back. -/
theorem C04_compaction_through_codec (i : Int) (s : String) (b : Bool) (hi : InI64 i) (hs : (strBytes s).length < 2 ^ 40) :
    ∃ out, encodeVals [compInt i, compStr s, compBool b] = .ok out ∧
      (out.length < 2 ^ 63 → ∀ rest, ∃ x y z, decodeVals (out ++ rest) = .ok ([x, y, z], rest) ∧
        asI64 x = some i ∧ asString y = some s ∧ asBool z = some b) := by
  have hv : ∀ k ∈ [compInt i, compStr s, compBool b], Valid k := by
    intro k hk
    simp only [List.mem_cons, List.not_mem_nil, or_false] at hk
    rcases hk with rfl | rfl | rfl
    · exact valid_compInt i hi
    · exact valid_compStr s (by omega)
    · trivial
  obtain ⟨out, h⟩ := encodeVals_ok_of_valid _ hv
  refine ⟨out, h, fun hl rest => ⟨_, _, _, decode_encodeVals _ hv (by simp) out h hl rest, ?_⟩⟩
  have n1 : norm (compInt i) = compInt i := by
    unfold compInt; repeat' split
    all_goals rfl
  have n2 : norm (compStr s) = compStr s := by
    unfold compStr; simp only; repeat' split
    all_goals rfl
  rw [n1, n2]
  exact ⟨asI64_compInt i, asString_compStr s, rfl⟩

/-- The float operations at work: with the exact `trunc`, 2^31 as `f32` is stored as an integer. -/
example : compFloat ⟨id, id, fun _ => 0, fun _ => 0⟩ 0x4f000000#32 = .int 2147483648 := by decide
example : compDouble ⟨id, id, fun _ => 0, fun _ => 0⟩ 0x4059000000000000#64 = .byte 100 := by decide +kernel
example : compDouble ⟨id, id, fun _ => 0, fun _ => 0⟩ 0x8000000000000000#64 = .double 0x8000000000000000#64 := by decide
example : InI64 (-129) ∧ (strBytes "short").length < 2 ^ 63 := by decide

end C04

/-! ## C06 -/
section C06
open Codec StringCompaction

/-- C06 is violated: `"1a5"` comes back as `"1.5"`. -/
theorem C06_negation : toStr (toEnum "1a5") = some "1.5" := by decide +kernel

/-- C06 is violated for dates too: `"2021-11"` comes back as `"2021.11"`. -/
theorem C06_negation_date : toStr (toEnum "2021-11") = some "2021.11" := by decide +kernel

/-- C06, what does hold (partial): a string comes back identical exactly if it is not one of the `Mistaken` ones
(digits with one odd character among or after them).  Missing: the property is false for those. -/
theorem C06_lossless_iff_partial (s : String) : toStr (toEnum s) = some s ↔ ¬ Mistaken s.toList :=
  ⟨fun h hm => not_roundtrip_of_mistaken s hm h, roundtrip_of_not_mistaken s⟩

/-- C06 for the whole compress/decompress pipeline (partial, same exception). -/
theorem C06_pipeline_partial (strs : List String) (hm : ∀ s ∈ strs, ¬ Mistaken s.toList)
    (hs : ∀ s ∈ strs, (strBytes s).length < 2 ^ 63) (hn : strs.length < 2 ^ 63) :
    ∃ out, compressStrings strs = .ok out ∧
      (out.length < 2 ^ 63 → ∀ rest, decompress (out ++ rest) = .ok (strs.map some, rest)) := by
  have hv : ∀ k ∈ strs.map toEnum, Valid k := by
    intro k hk
    obtain ⟨s, hs', rfl⟩ := List.mem_map.mp hk
    exact valid_toEnum s (hs s hs')
  obtain ⟨out, h⟩ := encodeVals_ok_of_valid _ hv
  refine ⟨out, h, fun hl rest => ?_⟩
  have hd := decode_encodeVals _ hv (by simpa using hn) out h hl rest
  simp only [decompress, Rd.bind_apply, hd, Res.bind_ok, Rd.pure_apply, List.map_map]
  congr 2
  apply List.map_congr_left
  intro s hs'
  have hnorm : norm (toEnum s) = toEnum s := by
    unfold toEnum getStr
    repeat' split
    all_goals rfl
  simp only [Function.comp_apply, hnorm]
  exact roundtrip_of_not_mistaken s (hm s hs')

example : Mistaken "1a5".toList := by
  refine ⟨false, ['1'], ['5'], 'a', rfl, by simp, by decide, by decide, by decide, by decide, by decide, by decide, by decide, by decide⟩

example : ¬ Mistaken "-12.50".toList := by
  rw [← C06_lossless_iff_partial]; decide +kernel

end C06

/-! ## C07 -/
section C07
open VarInt UrlString

/-- C07 is violated: one byte comes back as two. -/
theorem C07_negation : ∃ s, getUrlString [0xff] = .ok s ∧ getBytes s = some [0xff, 0] := by
  obtain ⟨s, h1, _, h3⟩ := url_main [0xff]
  exact ⟨s, h1, h3⟩

/-- C07, what does hold (partial): conversion never panics and uses URL-safe characters only; the bytes come back
followed by one extra zero byte exactly when their number is not divisible by 3.  Missing: losslessness for those
lengths, which is false. -/
theorem C07_url_roundtrip_partial (bs : Bytes) : ∃ s, getUrlString bs = .ok s ∧
    (∀ c ∈ s.toList, c.isAlphanum = true ∨ c = '-' ∨ c = '_') ∧
    getBytes s = some (bs ++ if bs.length % 3 = 0 then [] else [0]) :=
  url_main bs

/-- The conversion itself loses nothing: different byte strings of equal length have different URL strings. -/
theorem C07_url_injective_partial (a b : Bytes) (hl : a.length = b.length) (h : getUrlString a = getUrlString b) : a = b := by
  obtain ⟨s, ha, _, ha3⟩ := url_main a
  obtain ⟨t, hb, _, hb3⟩ := url_main b
  rw [ha, hb] at h
  cases h
  rw [ha3] at hb3
  have := Option.some.inj hb3
  rw [hl] at this
  exact List.append_cancel_right this

example : ∃ s, getUrlString [1, 2, 3] = .ok s ∧ getBytes s = some [1, 2, 3] := by
  obtain ⟨s, h1, _, h3⟩ := url_main [1, 2, 3]
  exact ⟨s, h1, h3⟩

end C07
end Verif
