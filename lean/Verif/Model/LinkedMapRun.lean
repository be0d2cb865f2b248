import Verif.Model.LinkedMap
import Verif.Spec.LinkedMap
/-!
# Runs of operations on mutable lists

dochy_core/src/imp/structs/linked_m.rs: the operations of `Op` applied one after another, and the lists that arise this way.
-/
namespace Verif.LinkedMap

section
variable {V : Type}

/-- The operations of the model. -/
def LM.step (m : LM V) : Op V → Res (LM V × Ret)
  | .insertFirst v => (m.insertFirst v).map fun r => (r.1, .id r.2)
  | .insertLast v => (m.insertLast v).map fun r => (r.1, .id r.2)
  | .insertFirstWithId id v => (m.insertFirstWithId id v).map fun r => (r.1, .bool r.2)
  | .insertLastWithId id v => (m.insertLastWithId id v).map fun r => (r.1, .bool r.2)
  | .remove id => (m.remove id).map fun r => (r.1, .bool r.2)
  | .removeFirst => m.removeFirst.map fun r => (r.1, .bool r.2)
  | .removeLast => m.removeLast.map fun r => (r.1, .bool r.2)
  | .moveToFirst id => (m.moveToFirst id).map fun r => (r.1, .bool r.2)
  | .moveToLast id => (m.moveToLast id).map fun r => (r.1, .bool r.2)
  | .moveToPrev next id => (m.moveToPrev next id).map fun r => (r.1, .bool r.2)
  | .moveToNext prev id => (m.moveToNext prev id).map fun r => (r.1, .bool r.2)
  | .setItem id v => (m.setItem id v).map fun r => (r.1, .bool r.2)
  | .setNextId n => .ok (m.setNextId n, .unit)

/-- A run of operations. -/
def LM.run : List (Op V) → LM V → Res (LM V × List Ret)
  | [], m => .ok (m, [])
  | op :: ops, m => (m.step op).bind fun r => (LM.run ops r.1).map fun q => (q.1, r.2 :: q.2)


/-- Every list that arises from `construct` (`new` is `construct []`), `clone` and admissible operations, together with what it
should hold. The next id of the empty list made by `construct` or `clone` is 0 (linked_m.rs:83-85, 392). -/
inductive Reach : LM V → SList V → Prop
  | construct (items n m) : (items.map (·.1)).Nodup → LinkedMap.construct items n = .ok m →
      Reach m ⟨items, if items = [] then 0 else n⟩
  | clone (m s m') : Reach m s → m.clone = .ok m' → Reach m' ⟨s.items, if s.items = [] then 0 else s.nextId⟩
  | step (m s op m' r) : Reach m s → s.Admits op → m.step op = .ok (m', r) → Reach m' (s.step op).1

/-- Events in the life of a list. -/
inductive Event (V : Type) where
  | op (o : Op V)
  | clone

/-- A life of a list: the final list and the ids handed out by insertions, in order. -/
def LM.live : List (Event V) → LM V → Res (LM V × List Nat)
  | [], m => .ok (m, [])
  | .clone :: es, m => m.clone.bind fun m => LM.live es m
  | .op o :: es, m => (m.step o).bind fun r => (LM.live es r.1).map fun q =>
      (q.1, match r.2 with | .id n => n :: q.2 | _ => q.2)

/-- the cursor at an item of the list, or past the end -/
def LM.cursorAt (m : LM V) : Option (Nat × V) → Cursor
  | none => none
  | some x => (m.iterFromId x.1).getD none

end
end Verif.LinkedMap
