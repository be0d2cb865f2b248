import Verif.Model.Res
/-!
# The doubly linked hash map behind mutable lists

Model of `dochy_core/src/imp/structs/{linked_m,linked_map_unsafe_iter,linked_map_iter,linked_map_iter_mut}.rs` and of
`dochy_core/src/imp/intf/{mlist_iter_mut,mlist_iter_const}.rs`.

* A raw pointer is an address, null is `none`. The heap maps the addresses of the live boxes to nodes. Each map has its
  own heap; addresses are never used twice (simplification: an allocator may reuse them).
* Following a null pointer or a pointer to a box that was dropped is `panic` (in Rust a panic or undefined behaviour).
* `HashMap<u64, Box<MutNode>>` is an association list from ids to addresses. Replacing or removing an entry drops its box.
* `next_id` is unbounded (the overflow at 2^64 is not modelled).
-/
namespace Verif.LinkedMap

/-- linked_m.rs:23-28 -/
structure Node (V : Type) where
  prev : Option Nat
  next : Option Nat
  item : V
  id : Nat

/-- The live boxes. -/
abbrev Heap (V : Type) := Nat → Option (Node V)

/-- writing or dropping a box -/
def Heap.set {V : Type} (h : Heap V) (a : Nat) (n : Option (Node V)) : Heap V := fun x => if x = a then n else h x

/-- linked_m.rs:14-19, with the heap and the next unused address -/
structure LM (V : Type) where
  heap : Heap V
  fresh : Nat
  map : List (Nat × Nat)
  first : Option Nat
  last : Option Nat
  nextId : Nat

/-- `HashMap::get` -/
def lookup : List (Nat × Nat) → Nat → Option Nat
  | [], _ => none
  | (k, a) :: m, id => if k = id then some a else lookup m id

/-- `HashMap::remove` -/
def erase : List (Nat × Nat) → Nat → List (Nat × Nat)
  | [], _ => []
  | (k, a) :: m, id => if k = id then m else (k, a) :: erase m id

section
variable {V : Type}

/-- linked_m.rs:79-81 -/
def new : LM V := ⟨fun _ => none, 0, [], none, none, 0⟩

/-- `&*ptr` -/
def LM.deref (m : LM V) (p : Option Nat) : Res (Node V) :=
  match p with
  | none => .panic
  | some a => match m.heap a with | some n => .ok n | none => .panic

/-- linked_m.rs:49-52 -/
def LM.setNext (m : LM V) (p q : Option Nat) : Res (LM V) :=
  match p with
  | none => .panic
  | some a => match m.heap a with | some n => .ok { m with heap := m.heap.set a (some { n with next := q }) } | none => .panic

/-- linked_m.rs:57-60 -/
def LM.setPrev (m : LM V) (p q : Option Nat) : Res (LM V) :=
  match p with
  | none => .panic
  | some a => match m.heap a with | some n => .ok { m with heap := m.heap.set a (some { n with prev := q }) } | none => .panic

/-- `Box::new(MutNode::new(id, val))` (linked_m.rs:41-43) -/
def LM.alloc (m : LM V) (id : Nat) (v : V) : LM V × Nat :=
  ({ m with heap := m.heap.set m.fresh (some ⟨none, none, v, id⟩), fresh := m.fresh + 1 }, m.fresh)

/-- `self.map.insert(id, node)`: an entry with the same id is dropped. The flag tells whether there was one. -/
def LM.mapInsert (m : LM V) (id a : Nat) : LM V × Bool :=
  match lookup m.map id with
  | none => ({ m with map := (id, a) :: m.map }, false)
  | some b => ({ m with heap := m.heap.set b none, map := (id, a) :: erase m.map id }, true)

/-- `self.map.remove(&id)` -/
def LM.mapRemove (m : LM V) (id : Nat) : LM V :=
  match lookup m.map id with
  | none => m
  | some b => { m with heap := m.heap.set b none, map := erase m.map id }

/-- linked_m.rs:106 -/
def LM.setNextId (m : LM V) (n : Nat) : LM V := { m with nextId := n }

/-- linked_m.rs:108-125 (`first`, `last`, with the id `first_id`, `last_id`) -/
def LM.entryAt (m : LM V) (p : Option Nat) : Res (Option (Nat × V)) :=
  match p with
  | none => .ok none
  | some a => (m.deref (some a)).map fun n => some (n.id, n.item)

/-- linked_m.rs:108-116 -/
def LM.getFirst (m : LM V) : Res (Option (Nat × V)) := m.entryAt m.first
/-- linked_m.rs:117-125 -/
def LM.getLast (m : LM V) : Res (Option (Nat × V)) := m.entryAt m.last

/-- linked_m.rs:130 -/
def LM.get (m : LM V) (id : Nat) : Res (Option V) :=
  match lookup m.map id with
  | none => .ok none
  | some a => (m.deref (some a)).map fun n => some n.item

/-- linked_m.rs:131: writing through `get_item_mut`; false if there is no such item -/
def LM.setItem (m : LM V) (id : Nat) (v : V) : Res (LM V × Bool) :=
  match lookup m.map id with
  | none => .ok (m, false)
  | some a => (m.deref (some a)).map fun n => ({ m with heap := m.heap.set a (some { n with item := v }) }, true)

/-- linked_m.rs:133 -/
def LM.containsKey (m : LM V) (id : Nat) : Bool := (lookup m.map id).isSome
/-- linked_m.rs:134 -/
def LM.len (m : LM V) : Nat := m.map.length
/-- linked_m.rs:135 -/
def LM.isEmpty (m : LM V) : Bool := m.map.isEmpty

/-- linked_m.rs:137-150 -/
def LM.pullLast (m : LM V) : Res (LM V × Option Nat) :=
  match m.last with
  | none => .ok (m, none)
  | some a => (m.deref (some a)).bind fun n =>
    match n.prev with
    | none => .ok ({ m with last := none, first := none }, some a)
    | some b =>
      (LM.setNext { m with last := some b } (some b) none).bind fun m => (m.setPrev (some a) none).map fun m => (m, some a)

/-- linked_m.rs:152-165 -/
def LM.pullFirst (m : LM V) : Res (LM V × Option Nat) :=
  match m.first with
  | none => .ok (m, none)
  | some a => (m.deref (some a)).bind fun n =>
    match n.next with
    | none => .ok ({ m with first := none, last := none }, some a)
    | some b =>
      (LM.setPrev { m with first := some b } (some b) none).bind fun m => (m.setNext (some a) none).map fun m => (m, some a)

/-- linked_m.rs:167-179 -/
def LM.pull (m : LM V) (id : Nat) : Res (LM V × Option Nat) :=
  match lookup m.map id with
  | none => .ok (m, none)
  | some a =>
    if m.first = some a then m.pullFirst
    else if m.last = some a then m.pullLast
    else
      (m.deref (some a)).bind fun n =>
      (m.setNext n.prev n.next).bind fun m =>
      (m.setPrev n.next n.prev).bind fun m =>
      (m.setNext (some a) none).bind fun m =>
      (m.setPrev (some a) none).map fun m => (m, some a)

/-- linked_m.rs:181-193 -/
def LM.putFirst (m : LM V) (a : Nat) : Res (LM V) :=
  match m.first with
  | none => .ok { m with first := some a, last := some a }
  | some b =>
    if b = a then .panic
    else (LM.setNext { m with first := some a } (some a) (some b)).bind fun m => m.setPrev (some b) (some a)

/-- linked_m.rs:195-207 -/
def LM.putLast (m : LM V) (a : Nat) : Res (LM V) :=
  match m.last with
  | none => .ok { m with first := some a, last := some a }
  | some b =>
    if b = a then .panic
    else (LM.setNext { m with last := some a } (some b) (some a)).bind fun m => m.setPrev (some a) (some b)

/-- linked_m.rs:209-221 -/
def LM.putNext (m : LM V) (prev a : Nat) : Res (LM V) :=
  if prev = a then .panic
  else
    match m.last with
    | none => .panic
    | some l =>
      if prev = l then m.putLast a
      else
        (m.deref (some prev)).bind fun n =>
        (m.setNext (some prev) (some a)).bind fun m =>
        (m.setPrev (some a) (some prev)).bind fun m =>
        (m.setNext (some a) n.next).bind fun m => m.setPrev n.next (some a)

/-- linked_m.rs:223-236 -/
def LM.putPrev (m : LM V) (next a : Nat) : Res (LM V) :=
  if next = a then .panic
  else
    match m.first with
    | none => .panic
    | some f =>
      if next = f then m.putFirst a
      else
        (m.deref (some next)).bind fun n =>
        (m.setNext n.prev (some a)).bind fun m =>
        (m.setPrev (some a) n.prev).bind fun m =>
        (m.setNext (some a) (some next)).bind fun m => m.setPrev (some next) (some a)

/-- linked_m.rs:238-248 -/
def LM.insertLast (m : LM V) (v : V) : Res (LM V × Nat) :=
  let (m, a) := m.alloc m.nextId v
  (m.putLast a).map fun m => let m := (m.mapInsert m.nextId a).1; ({ m with nextId := m.nextId + 1 }, m.nextId)

/-- linked_m.rs:299-305 -/
def LM.insertFirst (m : LM V) (v : V) : Res (LM V × Nat) :=
  let (m, a) := m.alloc m.nextId v
  (m.putFirst a).map fun m => let m := (m.mapInsert m.nextId a).1; ({ m with nextId := m.nextId + 1 }, m.nextId)

/-- linked_m.rs:253-261 -/
def LM.insertFirstWithId (m : LM V) (id : Nat) (v : V) : Res (LM V × Bool) :=
  if m.containsKey id then .ok (m, false)
  else
    let (m, a) := m.alloc id v
    (m.putFirst a).map fun m => ((m.mapInsert id a).1, true)

/-- linked_m.rs:277-285 -/
def LM.insertLastWithId (m : LM V) (id : Nat) (v : V) : Res (LM V × Bool) :=
  if m.containsKey id then .ok (m, false)
  else
    let (m, a) := m.alloc id v
    (m.putLast a).map fun m => ((m.mapInsert id a).1, true)

/-- linked_m.rs:266-272 -/
def LM.insertFirstWithIdUnchecked (m : LM V) (id : Nat) (v : V) : Res (LM V) :=
  let (m, a) := m.alloc id v
  (m.putFirst a).bind fun m => let r := m.mapInsert id a; if r.2 then .panic else .ok r.1

/-- linked_m.rs:290-296 -/
def LM.insertLastWithIdUnchecked (m : LM V) (id : Nat) (v : V) : Res (LM V) :=
  let (m, a) := m.alloc id v
  (m.putLast a).bind fun m => let r := m.mapInsert id a; if r.2 then .panic else .ok r.1

/-- linked_m.rs:307-312 -/
def LM.remove (m : LM V) (id : Nat) : Res (LM V × Bool) :=
  m.pull id |>.bind fun r =>
    match r.2 with
    | none => .ok (r.1, false)
    | some _ => .ok (r.1.mapRemove id, true)

/-- linked_m.rs:313-318 -/
def LM.removeFirst (m : LM V) : Res (LM V × Bool) :=
  m.pullFirst |>.bind fun r =>
    match r.2 with
    | none => .ok (r.1, false)
    | some a => (r.1.deref (some a)).map fun n => (r.1.mapRemove n.id, true)

/-- linked_m.rs:320-325 -/
def LM.removeLast (m : LM V) : Res (LM V × Bool) :=
  m.pullLast |>.bind fun r =>
    match r.2 with
    | none => .ok (r.1, false)
    | some a => (r.1.deref (some a)).map fun n => (r.1.mapRemove n.id, true)

/-- linked_m.rs:327-332 -/
def LM.moveToFirst (m : LM V) (id : Nat) : Res (LM V × Bool) :=
  m.pull id |>.bind fun r =>
    match r.2 with
    | none => .ok (r.1, false)
    | some a => (r.1.putFirst a).map fun m => (m, true)

/-- linked_m.rs:334-339 -/
def LM.moveToLast (m : LM V) (id : Nat) : Res (LM V × Bool) :=
  m.pull id |>.bind fun r =>
    match r.2 with
    | none => .ok (r.1, false)
    | some a => (r.1.putLast a).map fun m => (m, true)

/-- linked_m.rs:341-348 -/
def LM.moveToPrev (m : LM V) (nextId id : Nat) : Res (LM V × Bool) :=
  if id = nextId then .ok (m, false)
  else
    match lookup m.map nextId with
    | none => .ok (m, false)
    | some next =>
      m.pull id |>.bind fun r =>
        match r.2 with
        | none => .ok (r.1, false)
        | some a => (r.1.putPrev next a).map fun m => (m, true)

/-- linked_m.rs:350-357 -/
def LM.moveToNext (m : LM V) (prevId id : Nat) : Res (LM V × Bool) :=
  if id = prevId then .ok (m, false)
  else
    match lookup m.map prevId with
    | none => .ok (m, false)
    | some prev =>
      m.pull id |>.bind fun r =>
        match r.2 with
        | none => .ok (r.1, false)
        | some a => (r.1.putNext prev a).map fun m => (m, true)

/-! ## Iterators -/

/-- linked_map_unsafe_iter.rs:8-11: the cursor (the map is passed to each call) -/
abbrev Cursor := Option Nat

/-- linked_map_unsafe_iter.rs:17-45 `next_const`, `next_mut`, `next_impl`: the item at the cursor, and the moved cursor -/
def Cursor.next (m : LM V) (c : Cursor) : Res (Option (Nat × V) × Cursor) :=
  match c with
  | none => .ok (none, none)
  | some a => (m.deref (some a)).map fun n => (some (n.id, n.item), if m.last = some a then none else n.next)

/-- linked_map_unsafe_iter.rs:47-78 `prev_const`, `prev_mut`, `prev_impl` -/
def Cursor.prev (m : LM V) (c : Cursor) : Res (Option (Nat × V) × Cursor) :=
  match c with
  | none => .ok (none, none)
  | some a => (m.deref (some a)).map fun n => (some (n.id, n.item), if m.first = some a then none else n.prev)

/-- linked_map_unsafe_iter.rs:80-90 -/
def Cursor.current (m : LM V) (c : Cursor) : Res (Option (Nat × V)) := m.entryAt c

/-- linked_map_unsafe_iter.rs:92-96 -/
def Cursor.isAvailable (c : Cursor) : Bool := c.isSome

/-- linked_map_unsafe_iter.rs:98-107 (compares ids) -/
def Cursor.isFirst (m : LM V) (c : Cursor) : Res Bool :=
  match c with
  | none => .ok false
  | some a => (m.deref (some a)).bind fun n => m.getFirst.map fun | some (id, _) => decide (id = n.id) | none => false

/-- linked_map_unsafe_iter.rs:109-118 -/
def Cursor.isLast (m : LM V) (c : Cursor) : Res Bool :=
  match c with
  | none => .ok false
  | some a => (m.deref (some a)).bind fun n => m.getLast.map fun | some (id, _) => decide (id = n.id) | none => false

/-- linked_map_iter.rs:41-43 and linked_map_iter_mut.rs:38-40: `LinkedMapIter(Mut)::is_last` calls `is_first`. -/
def Cursor.safeIsLast (m : LM V) (c : Cursor) : Res Bool := c.isFirst m

/-- mlist_iter_mut.rs:31-35: `MListIterMut::prev` calls `next_mut`. -/
def Cursor.mlistMutPrev (m : LM V) (c : Cursor) : Res (Option (Nat × V) × Cursor) := c.next m

/-- linked_m.rs:361-363 `iter_from_id` (`iter` and `iter_from_last` start at `first`, `last`) -/
def LM.iterFromId (m : LM V) (id : Nat) : Option Cursor := (lookup m.map id).map some

/-- A `for` loop over a cursor, for at most `fuel` rounds. -/
def collect (m : LM V) (step : Cursor → Res (Option (Nat × V) × Cursor)) : Nat → Cursor → Res (List (Nat × V))
  | 0, _ => .ok []
  | fuel + 1, c => (step c).bind fun r =>
    match r.1 with
    | none => .ok []
    | some x => (collect m step fuel r.2).map (x :: ·)

/-- linked_m.rs:359 `iter`, walked to its end (a list of n items takes n + 1 rounds) -/
def LM.iterAll (m : LM V) : Res (List (Nat × V)) := collect m (Cursor.next m) (m.len + 1) m.first

/-- linked_m.rs:360 `iter_from_last`, walked backwards to its end -/
def LM.iterAllRev (m : LM V) : Res (List (Nat × V)) := collect m (Cursor.prev m) (m.len + 1) m.last

/-! ## Construction, cloning, comparison, consumption -/

/-- linked_m.rs:93-99, the loop of `construct` -/
def constructLoop : List (Nat × V) → LM V → Nat → Res (LM V × Nat)
  | [], m, prev => .ok (m, prev)
  | (id, v) :: rest, m, prev =>
    let (m, a) := m.alloc id v
    (m.setNext (some prev) (some a)).bind fun m =>
    (m.setPrev (some a) (some prev)).bind fun m => constructLoop rest (m.mapInsert id a).1 a

/-- linked_m.rs:82-101 `construct` (an empty list ignores `next_id`) -/
def construct (items : List (Nat × V)) (nextId : Nat) : Res (LM V) :=
  match items with
  | [] => .ok new
  | (id, v) :: rest =>
    let (m, a) := (new : LM V).alloc id v
    (constructLoop rest (m.mapInsert id a).1 a).map fun r =>
      { r.1 with first := some a, last := some r.2, nextId := nextId }

/-- linked_m.rs:398-403, the loop of `clone` over the ids of the original -/
def cloneLoop : List (Nat × V) → LM V → Nat → Res (LM V)
  | [], m, _ => .ok m
  | (id, _) :: rest, m, prev =>
    match lookup m.map id with
    | none => .panic
    | some cur =>
      (m.setNext (some prev) (some cur)).bind fun m =>
      (m.setPrev (some cur) (some prev)).bind fun m => cloneLoop rest m cur

/-- linked_m.rs:390-405 `clone`. The copy of a box (its pointers null, linked_m.rs:29-33) has the same address in the heap
of the copy. -/
def LM.clone (m : LM V) : Res (LM V) :=
  if m.isEmpty then .ok new
  else
    let copy : LM V := { m with heap := fun a => (m.heap a).map fun n => { n with prev := none, next := none } }
    m.getFirst.bind fun f => m.getLast.bind fun l =>
    match f, l with
    | some f, some l =>
      match lookup m.map f.1, lookup m.map l.1 with
      | some pf, some pl =>
        m.iterAll.bind fun items =>
          (cloneLoop items.tail { copy with first := some pf, last := some pl } pf)
      | _, _ => .panic
    | _, _ => .panic

/-- the comparison loop of linked_m.rs:413-416 -/
def zipEq [DecidableEq V] : List (Nat × V) → List (Nat × V) → Bool
  | (a, v) :: l, (b, w) :: r => if a ≠ b then false else if v ≠ w then false else zipEq l r
  | _, _ => true

/-- linked_m.rs:409-418 `eq` -/
def LM.beq [DecidableEq V] (m n : LM V) : Res Bool :=
  if m.len ≠ n.len then .ok false
  else m.iterAll.bind fun l => n.iterAll.map fun r => zipEq l r

/-- linked_m.rs:446-451 `LinkedMapIntoIter::next` for all ids -/
def intoLoop : List Nat → LM V → Res (List (Nat × V))
  | [], _ => .ok []
  | id :: ids, m =>
    match lookup m.map id with
    | none => .ok []
    | some a => (m.deref (some a)).bind fun n => (intoLoop ids (m.mapRemove id)).map ((id, n.item) :: ·)

/-- linked_m.rs:438-441, 458-460 `into_iter`, walked to its end -/
def LM.intoIter (m : LM V) : Res (List (Nat × V)) := m.iterAll.bind fun l => intoLoop (l.map (·.1)) m

end
end Verif.LinkedMap
