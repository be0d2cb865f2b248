import Verif.Model.FileHistory
/-! # Specification of ordered maps and of the chronological order of files -/
namespace Verif.FileHistory
open FileName

/-- The entries of a `BTreeMap`: strictly ascending `u32` keys. -/
def Ordered {α : Type} (m : BMap α) : Prop := (m.map (·.1)).Pairwise (· < ·) ∧ ∀ e ∈ m, e.1 < 2 ^ 32

/-- The position of a file: control number, then order. Files are saved in ascending lexicographic order of these
(a prefix comes first). -/
def key (p : Props) : List Nat := p.control :: p.order

end Verif.FileHistory
