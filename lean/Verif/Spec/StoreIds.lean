import Verif.Model.StoreIds
/-! Which ids a stored representation mentions, independently of the loops that read it. -/
namespace Verif.Diff

/-- The ids of the bits set in a word, shifted by `offset`. -/
def wordIds (b offset : Nat) : List Nat := ((List.range 64).filter fun i => b.testBit i).map (· + offset)

/-- The ids of the bits set in a list of words. -/
def wordsIds : List Nat → Nat → List Nat
  | [], _ => []
  | b :: bs, offset => wordIds b offset ++ wordsIds bs (offset + 64)

/-- The ids mentioned by a representation. -/
def StoredIDs.ids : StoredIDs → List Nat
  | .zero => []
  | .u64 b => wordIds b 0
  | .bits bs => wordsIds bs 0
  | .numbers n => n

/-- The ids of a `BTreeMap`: strictly ascending and of type `usize`. -/
def Keys (l : List Nat) : Prop := l.Pairwise (· < ·) ∧ ∀ i ∈ l, i < 2 ^ 64

end Verif.Diff
