import Verif.Lemmas.Crash
import Verif.Lemmas.SourceItems
/-! # The size of the files of a history -/
namespace Verif.History
open VarInt FileName FileHistory Phase Codec Compaction

theorem bitsToBytes_length (l : List Bool) : (bitsToBytes l).length ≤ l.length := by
  induction h : l.length using Nat.strong_induction_on generalizing l with
  | _ n ih =>
    subst h
    cases l with
    | nil => simp [bitsToBytes]
    | cons b l =>
      rw [bitsToBytes]
      simp only [List.length_cons]
      have := ih (l.drop 7).length (by simp only [List.length_drop, List.length_cons]; omega) _ rfl
      simp only [List.length_drop] at this
      omega

theorem asI64Wrap_inI64 (n : Nat) : InI64 (asI64Wrap n) := by
  unfold asI64Wrap InI64
  have : n % 2 ^ 64 < 2 ^ 64 := Nat.mod_lt _ (by decide)
  split <;> constructor <;> push_cast <;> omega

theorem write_length {v : Int} (h : InI64 v) : (VarInt.write v).length ≤ 9 := by
  unfold VarInt.write
  have := encode_length_i64 h
  simp only [List.length_cons]
  omega

theorem compInt_length {i : Int} (h : InI64 i) : (tagBits (compInt i)).length ≤ 7 ∧ (dataBytes (compInt i)).length ≤ 8 := by
  have := encode_length_i64 h
  unfold compInt
  split
  · simp [tagBits, dataBytes]
  · split
    · simp [tagBits, dataBytes]
    · split
      · simp [tagBits, dataBytes]
      · simpa [tagBits, dataBytes] using this

theorem flatMap_length_le {α β : Type} (f : α → List β) (c : Nat) : ∀ l : List α, (∀ x ∈ l, (f x).length ≤ c) → (l.flatMap f).length ≤ c * l.length
  | [], _ => by simp
  | x :: l, h => by
    have := flatMap_length_le f c l fun y hy => h y (List.mem_cons_of_mem _ hy)
    have h1 := h x List.mem_cons_self
    rw [List.flatMap_cons, List.length_append, List.length_cons, Nat.mul_succ]
    omega

theorem encode_mem (d : Phase.Data) : d.encode.length = 1 + 3 * d.length ∧ ∀ x ∈ d.encode, ∃ n, x = compInt (asI64Wrap n) := by
  constructor
  · unfold Data.encode
    have : ∀ l : List Phase.Item, (l.flatMap Item.encode).length = 3 * l.length := by
      intro l
      induction l with
      | nil => rfl
      | cons x l ih => rw [List.flatMap_cons, List.length_append, ih]; simp only [Item.encode, List.length_cons, List.length_nil]; omega
    rw [List.length_cons, this]
    omega
  · intro x hx
    unfold Data.encode at hx
    rcases List.mem_cons.mp hx with rfl | hx
    · exact ⟨_, rfl⟩
    · obtain ⟨it, _, hx⟩ := List.mem_flatMap.mp hx
      simp only [Item.encode, List.mem_cons, List.not_mem_nil, or_false] at hx
      rcases hx with rfl | rfl | rfl <;> exact ⟨_, rfl⟩

/-- The statistics of a file are short. -/
theorem phaseFile_length {d : Phase.Data} (hd : d.length < 2 ^ 50) {diff c : Bytes} (h : phaseFile d diff = .ok c) :
    c.length ≤ 33 + 45 * d.length + diff.length := by
  obtain ⟨h1, h2⟩ := encode_mem d
  unfold phaseFile at h
  obtain ⟨x, hx, rfl⟩ := Source.map_inv h
  unfold encodeVals at hx
  split at hx
  · cases hx
  · simp only [Res.ok.injEq] at hx
    subst hx
    have t := flatMap_length_le tagBits 7 d.encode fun x hx => by obtain ⟨n, rfl⟩ := h2 x hx; exact (compInt_length (asI64Wrap_inI64 n)).1
    have b := flatMap_length_le dataBytes 8 d.encode fun x hx => by obtain ⟨n, rfl⟩ := h2 x hx; exact (compInt_length (asI64Wrap_inI64 n)).2
    have bb := bitsToBytes_length (d.encode.flatMap tagBits)
    have w1 := write_length (v := (d.encode.length : Int)) (by unfold InI64; constructor <;> omega)
    have w2 := write_length (v := ((bitsToBytes (d.encode.flatMap tagBits)).length : Int)) (by unfold InI64; constructor <;> omega)
    simp only [List.length_append]
    omega

/-- What `FileOk` asks of a file that was not derived from another one. -/
theorem fileOk_new {d : Bytes} (h : d.length < 2 ^ 60) : FileOk (Data.new d.length, d) := by
  refine ⟨?_, by simp [Data.new], fun c hc => ?_⟩
  · intro it hi
    rw [Data.new, List.mem_singleton] at hi
    subst hi
    simp only [Item.new]
    omega
  · have := phaseFile_length (d := Data.new d.length) (by simp [Data.new]) hc
    simp only [Data.new, List.length_singleton] at this
    omega

end Verif.History
