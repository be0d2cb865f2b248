import Verif.Model.LinkedMapRun
/-!
# The project's tests of mutable lists, run on the model

dochy_core/src/testing/test_linked_m.rs. Each check cites the lines of the test. These are tests of the model against the
results the authors of the code expect (the tests are part of the project and pass there); they are not proofs about the code.
-/
namespace Verif.LinkedMap.Tests

/-- test_linked_m.rs:5-25 `create_map0` to `create_map3` -/
def mapOf (n : Nat) : Res (LM Int) :=
  (LM.run ((List.range n).map fun k => .insertLast (Int.ofNat k)) new).map (·.1)

/-- test_linked_m.rs:95-97 `keys` -/
def keys (m : LM Int) : Res (List Nat) := m.iterAll.map fun l => l.map (·.1)
/-- test_linked_m.rs:92-94 `values` -/
def values (m : LM Int) : Res (List Int) := m.iterAll.map fun l => l.map (·.2)

/-- a statement of a test: a call, or an assertion -/
inductive Stmt where
  | op (o : Op Int)
  | keys (l : List Nat)
  | values (l : List Int)
  | first (v : Int)
  | last (v : Int)
  | firstSome
  | lastSome

def okEq {α : Type} [DecidableEq α] (r : Res α) (v : α) : Bool := match r with | .ok x => decide (x = v) | _ => false

/-- All assertions hold, and no call panics. -/
def check : List Stmt → LM Int → Bool
  | [], _ => true
  | .op o :: l, m => match m.step o with | .ok r => check l r.1 | _ => false
  | .keys k :: l, m => okEq (Tests.keys m) k && check l m
  | .values k :: l, m => okEq (Tests.values m) k && check l m
  | .first v :: l, m => okEq (m.getFirst.map fun o => o.map (·.2)) (some v) && check l m
  | .last v :: l, m => okEq (m.getLast.map fun o => o.map (·.2)) (some v) && check l m
  | .firstSome :: l, m => okEq (m.getFirst.map (·.isSome)) true && check l m
  | .lastSome :: l, m => okEq (m.getLast.map (·.isSome)) true && check l m

def checkAll (m : Res (LM Int)) (l : List Stmt) : Bool := match m with | .ok m => check l m | _ => false

/-- test_linked_m.rs:28-47 `first`, `first_mut`, `first_id` -/
example : (List.range 4).map (fun n => (mapOf n).bind fun m => m.getFirst) =
    [.ok none, .ok (some (0, 0)), .ok (some (0, 0)), .ok (some (0, 0))] := by decide +kernel

/-- test_linked_m.rs:49-68 `last`, `last_mut`, `last_id` -/
example : (List.range 4).map (fun n => (mapOf n).bind fun m => m.getLast) =
    [.ok none, .ok (some (0, 0)), .ok (some (1, 1)), .ok (some (2, 2))] := by decide +kernel

/-- test_linked_m.rs:70-78 `from_id`, `from_id_mut` -/
example : (mapOf 3).bind (fun m => m.get 1) = .ok (some 1) := by decide +kernel

/-- test_linked_m.rs:81-90 -/
example : checkAll (.ok new) [.op (.insertLast 1), .op (.insertLast 2), .op (.insertFirst 3), .op (.insertFirst 4),
    .op (.insertLast 5), .values [4, 3, 1, 2, 5]] = true := by decide +kernel

/-- test_linked_m.rs:100-113 -/
example : ([[1, 2], [1], [], []].zip [3, 2, 1, 0]).all (fun p => checkAll (mapOf p.2) [.op .removeFirst, .keys p.1]) = true := by
  decide +kernel

/-- test_linked_m.rs:116-129 -/
example : ([[0, 1], [0], [], []].zip [3, 2, 1, 0]).all (fun p => checkAll (mapOf p.2) [.op .removeLast, .keys p.1]) = true := by
  decide +kernel

/-- test_linked_m.rs:132-153 -/
example : [(3, 0, [1, 2]), (3, 1, [0, 2]), (3, 2, [0, 1]), (2, 0, [1]), (2, 1, [0]), (1, 0, [])].all
    (fun p => checkAll (mapOf p.1) [.op (.remove p.2.1), .keys p.2.2]) = true := by decide +kernel
example : (mapOf 0).bind (fun m => (m.remove 0).map (·.2)) = .ok false := by decide +kernel

/-- test_linked_m.rs:157-163 -/
example : checkAll (mapOf 0) [
    .op (.moveToFirst 0), .op (.moveToLast 0), .op (.moveToNext 0 0), .op (.moveToPrev 0 0), .op (.moveToNext 0 1),
    .op (.moveToPrev 0 1)] = true := by decide +kernel

/-- test_linked_m.rs:164-170 -/
example : checkAll (mapOf 1) [
    .op (.moveToFirst 0), .op (.moveToLast 0), .op (.moveToNext 0 0), .op (.moveToPrev 0 0), .op (.moveToNext 0 1),
    .op (.moveToPrev 0 1)] = true := by decide +kernel

/-- test_linked_m.rs:171-197 -/
example : checkAll (mapOf 2) [
    .op (.moveToNext 1 0), .keys [1,0], .firstSome, .lastSome, .op (.moveToNext 1 0), .keys [1,0], .firstSome,
    .lastSome, .op (.moveToPrev 1 0), .keys [0,1], .firstSome, .lastSome, .op (.moveToNext 1 0), .keys [1,0],
    .firstSome, .lastSome, .op (.moveToFirst 1), .op (.moveToLast 0), .keys [1,0], .op (.moveToFirst 0), .keys [0,1],
    .op (.moveToLast 0), .keys [1,0], .op (.moveToNext 1 1), .op (.moveToPrev 1 1)] = true := by decide +kernel

/-- test_linked_m.rs:198-291 -/
example : checkAll (mapOf 3) [
    .op (.moveToNext 2 0), .keys [1,2,0], .firstSome, .lastSome, .op (.moveToNext 2 1), .keys [2,1,0], .first 2,
    .last 0, .op (.moveToNext 2 0), .keys [2,0,1], .first 2, .last 1, .op (.moveToNext 2 2), .keys [2,0,1], .first 2,
    .last 1, .op (.moveToNext 1 1), .keys [2,0,1], .first 2, .last 1, .op (.moveToNext 0 0), .keys [2,0,1], .first 2,
    .last 1, .op (.moveToNext 2 0), .keys [2,0,1], .first 2, .last 1, .op (.moveToNext 0 1), .keys [2,0,1], .first 2,
    .last 1, .op (.moveToPrev 2 1), .keys [1,2,0], .firstSome, .lastSome, .op (.moveToPrev 2 0), .keys [1,0,2],
    .first 1, .last 2, .op (.moveToPrev 2 1), .keys [0,1,2], .first 0, .last 2, .op (.moveToPrev 2 2), .keys [0,1,2],
    .first 0, .last 2, .op (.moveToPrev 1 1), .keys [0,1,2], .first 0, .last 2, .op (.moveToPrev 0 0), .keys [0,1,2],
    .first 0, .last 2, .op (.moveToPrev 1 0), .keys [0,1,2], .first 0, .last 2, .op (.moveToPrev 2 1), .keys [0,1,2],
    .first 0, .last 2, .op (.moveToLast 0), .keys [1,2,0], .first 1, .last 0, .op (.moveToLast 2), .keys [1,0,2],
    .first 1, .last 2, .op (.moveToLast 2), .keys [1,0,2], .first 1, .last 2, .op (.moveToFirst 1), .keys [1,0,2],
    .first 1, .last 2, .op (.moveToFirst 0), .keys [0,1,2], .first 0, .last 2, .op (.moveToFirst 2), .keys [2,0,1],
    .first 2, .last 1] = true := by decide +kernel

/-- test_linked_m.rs:296-303: an iterator across a removal -/
example : ((mapOf 3).bind fun m =>
    (Cursor.next m m.first).bind fun a =>
    (Cursor.current m a.2).bind fun b =>
    (Cursor.prev m a.2).bind fun c =>
    (m.remove 1).bind fun m =>
    (Cursor.next m.1 c.2).bind fun d =>
    (Cursor.current m.1 d.2).map fun e => [a.1, b, c.1, d.1, e]) =
    .ok [some (0, 0), some (1, 1), some (1, 1), some (0, 0), some (2, 2)] := by decide +kernel

/-- test_linked_m.rs:305-313: an iterator across a move -/
example : ((mapOf 3).bind fun m =>
    (Cursor.current m m.first).bind fun a =>
    (m.moveToLast 0).bind fun n =>
    (Cursor.prev n.1 m.first).bind fun b =>
    (Cursor.prev n.1 b.2).bind fun c =>
    (Cursor.prev n.1 c.2).bind fun d =>
    (Cursor.prev n.1 d.2).bind fun e =>
    (Cursor.prev n.1 e.2).map fun f => [a, b.1, c.1, d.1, e.1, f.1]) =
    .ok [some (0, 0), some (0, 0), some (2, 2), some (1, 1), none, none] := by decide +kernel

/-- test_linked_m.rs:317-324 `iter_mut` -/
example : ((mapOf 3).bind fun m => (Cursor.next m m.first).bind fun a => (Cursor.next m a.2).map fun b => [a.1, b.1]) =
    .ok [some (0, 0), some (1, 1)] := by decide +kernel

/-- test_linked_m.rs:327-345 `partial_eq` -/
example : (List.range 4).all (fun n => okEq ((mapOf n).bind fun l => (mapOf n).bind fun r => l.beq r) true) = true := by
  decide +kernel
example : ((mapOf 3).bind fun l => (mapOf 3).bind fun r => (r.moveToLast 0).bind fun r => l.beq r.1) = .ok false := by
  decide +kernel

/-- test_linked_m.rs:348-361 `clone` -/
example : (List.range 4).all (fun n => okEq ((mapOf n).bind fun l => l.clone.bind fun r => l.beq r) true) = true := by
  decide +kernel

end Verif.LinkedMap.Tests
