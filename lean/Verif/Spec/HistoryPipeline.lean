import Verif.Spec.HistoryReal
import Verif.Spec.Pipeline
import Verif.Spec.HistorySession
import Verif.Spec.Session
import Verif.Lemmas.DiffNamedFits
/-!
# What may be saved into a history

For C78.
-/
namespace Verif.Pipeline
open Codec VarInt Source Core Named Archive History

/-- What is saved into a history: an object of the definitions of the source that fits them, and whose difference to the object it is
compared with can be expressed (C72) and is not too long. -/
structure Saveable (L : Lib) (r a s : Root) : Prop where
  object : s = { r with sabun := s.sabun }
  memory : RootInMemory a.sabun
  fits : RootFits r.defs s.sabun
  step : RootStepN r.defs a.sabun s.sabun
  short : ∀ vals out, (ops L).diff a s = .ok vals → encodeVals vals = .ok out → out.length < 2 ^ 60

/-- What the history of a source calls (dochy_src.rs:7-19, dochy_diff.rs:42-45): the object of the source is `r`, changes are written by
`get_diff` and read by `apply_diff`. Simplified: which binaries are the same in memory (`L.ptr`) does not change during a run. -/
def histOps (L : Lib) (r : Root) : KOps Root := ⟨r, (ops L).diff, (ops L).app⟩

/-- What a program does with an object of the definitions `r`: any session of changes. -/
def Edited (r s t : Root) : Prop := t = { r with sabun := t.sabun } ∧ Session r.defs s.sabun t.sabun

/-- What must hold for a session to be saved: it did not end with a float at the other zero or with nothing but another next id (C73), and the
diff is not too long. -/
structure Fine (L : Lib) (r a s : Root) : Prop where
  settled : RootSettled r.defs a.sabun s.sabun
  short : ∀ vals out, (ops L).diff a s = .ok vals → encodeVals vals = .ok out → out.length < 2 ^ 60

end Verif.Pipeline
