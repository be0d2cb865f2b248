import Verif.Props.Compaction
import Verif.Model.DiffWrite
/-!
# C04: the diff writes the values of which C04 speaks
-/
namespace Verif.Diff
open Codec Compaction

/-- **C04.** A boolean, an integer, a double or a string of a member is written as the one value that C04 reads back, and a boolean
as a bit, which takes no byte of its own. -/
theorem C04_written (F : FloatOps) :
    (∀ b, writeParam2 F (.bool (.val b)) = .ok [compBool b] ∧ asBool (compBool b) = some b ∧ compBool b = .bit b) ∧
    (∀ i, writeParam2 F (.int (.val i)) = .ok [compInt i] ∧ asI64 (compInt i) = some i) ∧
    (∀ f, writeParam2 F (.float (.val f)) = .ok [compDouble F f] ∧ asF64 F (compDouble F f) = some f) ∧
    (∀ s, writeParam2 F (.string (.val s)) = .ok [compStr s] ∧ asString (compStr s) = some s) :=
  ⟨fun _ => ⟨rfl, rfl, rfl⟩, fun i => ⟨rfl, asI64_compInt i⟩, fun f => ⟨rfl, compDouble_bits F f⟩, fun s => ⟨rfl, asString_compStr s⟩⟩

/-- A string of a sample file is written in the short form. -/
example : writeParam2 ⟨id, id, fun _ => 0, fun _ => 0⟩ (.string (.val "foo")) = .ok [.str16 "foo"] := by decide +kernel

end Verif.Diff
