import Verif.Spec.HistoryLoose
import Verif.Spec.SessionAlike
import Verif.Spec.HistoryCache
/-!
# Histories of programs that keep a cache

For C81.
-/
namespace Verif.Pipeline
open Codec VarInt Source Core Named Archive History

/-- The functions that get the diff, one for each way in which the objects may share values in memory. -/
def ptrDiff (L : Lib) (pt : Diff.Ptr) (a s : Root) : Res (List KVal) := (ops { L with ptr := pt }).diff a s

/-- The diff is not too long. -/
def ShortFor (L : Lib) (pt : Diff.Ptr) (a s : Root) : Prop := ShortDiff { L with ptr := pt } a s

/-- An object of the definitions `r` with distinct ids below the next ids: all that is asked of what a program makes of an object. -/
def EditedTo (r : Root) (_ t : Root) : Prop := t = { r with sabun := t.sabun } ∧ RootFits r.defs t.sabun ∧ ListsFresh t.sabun

/-- The diff is not too long, and items with the same id are changed in ways that a diff can express. -/
def FineStays (L : Lib) (r : Root) (pt : Diff.Ptr) (a s : Root) : Prop := ShortFor L pt a s ∧ RootStaysN r.defs a.sabun s.sabun

/-- The objects are of the same definitions, and the same but for the order of items, next ids and signs of zeros. -/
def AlikeObject (y s : Root) : Prop := y = { s with sabun := y.sabun } ∧ AlikeRoot s.defs y.sabun s.sabun

end Verif.Pipeline
