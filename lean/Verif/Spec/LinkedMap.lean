/-!
# Specification of mutable lists: an ordered list of (id, item) pairs and the next id
-/
namespace Verif.LinkedMap

/-- What a mutable list holds. -/
structure SList (V : Type) where
  items : List (Nat × V)
  nextId : Nat

/-- The operations that change a list. -/
inductive Op (V : Type) where
  | insertFirst (v : V)
  | insertLast (v : V)
  | insertFirstWithId (id : Nat) (v : V)
  | insertLastWithId (id : Nat) (v : V)
  | remove (id : Nat)
  | removeFirst
  | removeLast
  | moveToFirst (id : Nat)
  | moveToLast (id : Nat)
  | moveToPrev (nextId id : Nat)
  | moveToNext (prevId id : Nat)
  | setItem (id : Nat) (v : V)
  | setNextId (n : Nat)

/-- What an operation returns. -/
inductive Ret where
  | id (n : Nat)
  | bool (b : Bool)
  | unit
  deriving DecidableEq

section
variable {V : Type}

def SList.ids (s : SList V) : List Nat := s.items.map (·.1)

/-- the item with an id -/
def SList.find (s : SList V) (id : Nat) : Option (Nat × V) := s.items.find? (·.1 = id)

/-- the other items -/
def SList.without (s : SList V) (id : Nat) : List (Nat × V) := s.items.filter (·.1 ≠ id)

/-- put `x` before the item with the id `id` -/
def putBefore (id : Nat) (x : Nat × V) (l : List (Nat × V)) : List (Nat × V) :=
  l.flatMap fun y => if y.1 = id then [x, y] else [y]

/-- put `x` after the item with the id `id` -/
def putAfter (id : Nat) (x : Nat × V) (l : List (Nat × V)) : List (Nat × V) :=
  l.flatMap fun y => if y.1 = id then [y, x] else [y]

/-- The effect of an operation on an ordered list. -/
def SList.step (s : SList V) : Op V → SList V × Ret
  | .insertFirst v => (⟨(s.nextId, v) :: s.items, s.nextId + 1⟩, .id s.nextId)
  | .insertLast v => (⟨s.items ++ [(s.nextId, v)], s.nextId + 1⟩, .id s.nextId)
  | .insertFirstWithId id v => if id ∈ s.ids then (s, .bool false) else (⟨(id, v) :: s.items, s.nextId⟩, .bool true)
  | .insertLastWithId id v => if id ∈ s.ids then (s, .bool false) else (⟨s.items ++ [(id, v)], s.nextId⟩, .bool true)
  | .remove id => (⟨s.without id, s.nextId⟩, .bool (decide (id ∈ s.ids)))
  | .removeFirst => (⟨s.items.tail, s.nextId⟩, .bool (!s.items.isEmpty))
  | .removeLast => (⟨s.items.dropLast, s.nextId⟩, .bool (!s.items.isEmpty))
  | .moveToFirst id =>
    match s.find id with
    | some x => (⟨x :: s.without id, s.nextId⟩, .bool true)
    | none => (s, .bool false)
  | .moveToLast id =>
    match s.find id with
    | some x => (⟨s.without id ++ [x], s.nextId⟩, .bool true)
    | none => (s, .bool false)
  | .moveToPrev nextId id =>
    match s.find id with
    | some x =>
      if id ≠ nextId ∧ nextId ∈ s.ids then (⟨putBefore nextId x (s.without id), s.nextId⟩, .bool true) else (s, .bool false)
    | none => (s, .bool false)
  | .moveToNext prevId id =>
    match s.find id with
    | some x =>
      if id ≠ prevId ∧ prevId ∈ s.ids then (⟨putAfter prevId x (s.without id), s.nextId⟩, .bool true) else (s, .bool false)
    | none => (s, .bool false)
  | .setItem id v => (⟨s.items.map fun x => if x.1 = id then (x.1, v) else x, s.nextId⟩, .bool (decide (id ∈ s.ids)))
  | .setNextId n => (⟨s.items, n⟩, .unit)

/-- A run of operations: the final list and what was returned. -/
def SList.run : List (Op V) → SList V → SList V × List Ret
  | [], s => (s, [])
  | op :: ops, s =>
    let r := s.step op
    let q := SList.run ops r.1
    (q.1, r.2 :: q.2)

/-- Inserting with an automatic id requires that the id is free. -/
def SList.Admits (s : SList V) : Op V → Prop
  | .insertFirst _ => s.nextId ∉ s.ids
  | .insertLast _ => s.nextId ∉ s.ids
  | _ => True

/-- Every operation of the run is admissible when its turn comes. -/
def SList.AdmitsAll : List (Op V) → SList V → Prop
  | [], _ => True
  | op :: ops, s => s.Admits op ∧ AdmitsAll ops (s.step op).1

/-- The operations offered by `MListMut` (intf/mlist_mut.rs), where ids are always automatic. -/
def Op.IsPublic : Op V → Prop
  | .insertFirstWithId .. => False
  | .insertLastWithId .. => False
  | .setNextId _ => False
  | _ => True

end
end Verif.LinkedMap
