/-! Specification vocabulary for the compaction of number-like strings. -/
namespace Verif.StringCompaction

/-- A text that the compaction mistakes for a number: optional minus, digits that do not start with 0, one character
that is neither a digit nor a dot nor a line feed, then only digits; the digits together fit into 128 bits and fewer
than 256 bytes follow the first byte of the odd character. -/
def Mistaken (cs : List Char) : Prop :=
  ∃ (minus : Bool) (ds es : List Char) (c : Char),
    cs = (if minus then ['-'] else []) ++ ds ++ c :: es ∧
    ds ≠ [] ∧ ds.head? ≠ some '0' ∧ (∀ d ∈ ds, d.isDigit = true) ∧ (∀ d ∈ es, d.isDigit = true) ∧
    c.isDigit = false ∧ c ≠ '.' ∧ c ≠ '\n' ∧
    c.utf8Size + es.length - 1 < 256 ∧
    (let v := (ds ++ es).foldl (fun a d => a * 10 + (d.toNat - '0'.toNat)) 0
     if minus then v ≤ 2 ^ 127 else v < 2 ^ 127)

end Verif.StringCompaction
