import Verif.Props.Location
import Verif.Props.PipelineEx
/-!
# Property C75: concrete folders
-/
namespace Verif.Pipeline
open Codec VarInt Source Core Named Archive

/-- The paths `src` and `./src` name the same folder. The hashes differ. -/
theorem C75_negation_hash : (dirRoot lib "src" (folder false)).map (·.2) = .ok 68 ∧ (dirRoot lib "./src" (folder false)).map (·.2) = .ok 70 := by
  decide +kernel

open Filesys HashDir in
/-- the object of the example is saved by a process that calls the folder `src`, and loaded by one that calls it `path` -/
def movedFile (path : String) : Res (List (Nat × List String)) :=
  (dirRoot lib "src" (folder false)).bind fun r => (dirRoot lib path (folder false)).bind fun r' =>
  let x := { r.1 with sabun := sampleEnd }
  let o := opsOn lib Occurs
  let d : Disk {v // Occurs v} := ⟨⟨version false, false, rfl⟩, fun _ => none⟩
  (load true o (r'.2, r'.1) (hashToFolderName r.2) fileA true (runAll d (save o (r.2, r.1) epoch fileA x false d).1)).map view

/-- **C75 is false for save files.** The source has not changed, but a process that names its folder otherwise takes it for another version:
the loaded object is adjusted, and a member that was never assigned is undefined afterwards (C18). -/
theorem C75_negation_load : movedFile "src" = .ok [(1, ["p"])] ∧ movedFile "./src" = .ok [(1, ["p", "q"])] := by decide +kernel

/-- The folder of the example meets the hypotheses of `C75_object` and `C75_exact`. -/
example : ((folder false).map nodeName).Nodup ∧ (∀ e ∈ folder false, NameOk (nodeName e)) ∧ prefixOf "src" ≠ prefixOf "./src" ∧
    prefixOf "src" = prefixOf "src/" := by
  refine ⟨by simp [folder, nodeName], ?_, by decide, by decide⟩
  simp only [folder, List.forall_mem_cons, nodeName, List.not_mem_nil, false_implies, implies_true, and_true, NameOk]
  decide

end Verif.Pipeline
