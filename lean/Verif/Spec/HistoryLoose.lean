import Verif.Spec.HistoryPipeline
import Verif.Spec.SessionAny
/-!
# Histories of objects that were changed in any way

For C79.
-/
namespace Verif.Pipeline
open Codec VarInt Source Core Named Archive History

/-- What a program does with an object of the definitions `r`: any session of changes, in which items may be moved. -/
def EditedAny (r s t : Root) : Prop := t = { r with sabun := t.sabun } ∧ SessionAny r.defs s.sabun t.sabun

/-- The diff is not too long: all that is asked of what is saved. -/
def ShortDiff (L : Lib) (a s : Root) : Prop := ∀ vals out, (ops L).diff a s = .ok vals → encodeVals vals = .ok out → out.length < 2 ^ 60

/-- The objects are of the same definitions, and the same but for the order of items, next ids and signs of zeros. -/
def LooseObject (y s : Root) : Prop := y = { s with sabun := y.sabun } ∧ LooseRoot s.defs y.sabun s.sabun

end Verif.Pipeline
