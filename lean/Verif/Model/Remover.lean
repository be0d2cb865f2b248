import Verif.Model.History
/-!
# Removing old history files

Model of `dochy_fs/src/imp/history/remove/*`, `file_hist/file_history.rs:41-79` and `file_hist/file_histories.rs:38-97`.

* The hash maps of the remover are `BMap`s; only lookups and the order of the reported files depend on them (the code
  reports them in an arbitrary order).
* The flag `removable` of an item is an `AtomicBool` changed through shared references. The model collects the positions
  (control number and order) of the items of which the flag has been cleared.
* Files and directories that cannot be removed are not modelled.
-/
namespace Verif.Remover
open VarInt FileName FileHistory Phase History

/-- remove/history_remover_item.rs:8-13 (without the flag `removable`) -/
inductive RItem where
  | mk (cumulative : Bool) (props : Option Props) (children : List (Nat × RItem))

def RItem.cumulative : RItem → Bool
  | .mk c _ _ => c
def RItem.props : RItem → Option Props
  | .mk _ p _ => p
def RItem.children : RItem → BMap RItem
  | .mk _ _ c => c

mutual
/-- remove/composite_remover.rs:7-28 with history_remover_item.rs:80-86 `from` (the items below a child are made before
the child is zipped: the zipper does not look at them) -/
def composite (maxPhase : Nat) (cumulativeOption : Bool) : Node → Nat → BMap RItem
  | .mk ch it, cur =>
    (zip it (compositeAll maxPhase cumulativeOption ch (cur + 1))).filterMap fun x =>
      match x.2.1 with
      | some sub =>
        if cur ≤ maxPhase then some (x.1, RItem.mk (decide (cur + 1 = maxPhase) && cumulativeOption) x.2.2 sub) else none
      | none => some (x.1, RItem.mk (cumulativeOption && decide (cur = maxPhase)) x.2.2 [])
def compositeAll (maxPhase : Nat) (cumulativeOption : Bool) : List (Nat × Node) → Nat → List (Nat × BMap RItem)
  | [], _ => []
  | (i, n) :: r, cur => (i, composite maxPhase cumulativeOption n cur) :: compositeAll maxPhase cumulativeOption r cur
end

/-- remove/history_remover.rs:10-16 -/
abbrev Remover := BMap (BMap RItem)

/-- remove/history_remover.rs:55-70 `from` -/
def fromHistory (maxPhase : Nat) (cumulativeOption : Bool) (h : FileHistory.History) : Remover :=
  h.ctls.map fun e => (e.1, composite maxPhase cumulativeOption e.2 0)

/-- remove/history_remover_item.rs:15-19 -/
structure Cue where
  ctl : Nat
  order : List Nat
  orderLast : Option Nat

/-- remove/history_remover.rs:75-77 -/
def descend : RItem → List Nat → Option RItem
  | item, [] => some item
  | item, i :: r =>
    match BMap.get item.children i with
    | some c => descend c r
    | none => none

/-- remove/history_remover.rs:72-83 `get_item_from_cue` -/
def itemFromCue (items : BMap RItem) (order : List Nat) (orderLast : Option Nat) : Option RItem :=
  match order with
  | [] => none
  | i :: r =>
    match BMap.get items i with
    | none => none
    | some item =>
      match descend item r with
      | none => none
      | some item =>
        match orderLast with
        | none => some item
        | some ind => BMap.get item.children ind

/-- The position of an item: control number and order. -/
abbrev Pos := List Nat

def Cue.pos (c : Cue) : Pos := c.ctl :: (c.order ++ c.orderLast.toList)

/-- remove/history_remover_item.rs:56-66: where to continue after an item has been marked -/
def nextCue (cumulative : Bool) (p : Props) : Option Cue :=
  if cumulative = true ∧ orderLast p ≠ 0 then some ⟨p.control, orderBase p, some (orderLast p - 1)⟩
  else if p.order.length ≠ 1 then some ⟨p.prevCtl, orderBase p, none⟩
  else none

/-- remove/history_remover.rs:21-33 `keep` with history_remover_item.rs:47-67: mark the item and continue at the
item it depends on. Every round goes to a shorter order or a smaller last number, which bounds the number of rounds
(`keepFile`). -/
def keepLoop (r : Remover) : Nat → Cue → List Pos → List Pos
  | 0, _, kept => kept
  | fuel + 1, cue, kept =>
    match BMap.get r cue.ctl with
    | none => kept
    | some items =>
      match itemFromCue items cue.order cue.orderLast with
      | none => kept
      | some item =>
        match item.props with
        | none => kept
        | some p =>
          if cue.pos ∈ kept then kept
          else
            match nextCue item.cumulative p with
            | some cue' => keepLoop r fuel cue' (cue.pos :: kept)
            | none => cue.pos :: kept

/-- remove/history_remover.rs:21-33 -/
def keepFile (r : Remover) (kept : List Pos) (p : Props) : List Pos :=
  keepLoop r (p.order.sum + p.order.length + 1) ⟨p.control, p.order, none⟩ kept

mutual
/-- remove/history_remover_item.rs:69-78 `get_removable_props` -/
def RItem.removable (kept : List Pos) (pos : Pos) : RItem → List Props
  | .mk _ props children => (if pos ∈ kept then [] else props.toList) ++ removableAll kept pos children
/-- remove/history_remover.rs:85-89 -/
def removableAll (kept : List Pos) (pos : Pos) : List (Nat × RItem) → List Props
  | [] => []
  | (i, c) :: r => c.removable kept (pos ++ [i]) ++ removableAll kept pos r
end

/-- remove/history_remover.rs:38-44 `get_removable_props` -/
def removableProps (r : Remover) (kept : List Pos) : List Props := r.flatMap fun e => removableAll kept [e.1] e.2

/-- file_hist/file_history.rs:44: the latest files -/
def latest (n : Nat) (l : List Props) : List Props := l.drop (l.length - n)

/-- file_hist/file_history.rs:41-50 `get_removable_old_items` -/
def removableOldItems (maxPhase : Nat) (cumulativeOption : Bool) (h : FileHistory.History) (keepLatest : Nat) : List Props :=
  let r := fromHistory maxPhase cumulativeOption h
  removableProps r ((latest keepLatest h.listFiles).foldl (keepFile r) [])

/-- file_hist/file_history.rs:68-79 `remove_files` -/
def removeFiles (ps : List Props) (dir : Dir) : Dir := dir.filter fun e => !decide (e.1 ∈ ps.map (·.filename))

/-- file_hist/file_history.rs:56-59 `remove_old_files` -/
def removeOldFiles (o : Opts) (h : FileHistory.History) (keepLatest : Nat) (dir : Dir) : Dir :=
  removeFiles (removableOldItems o.maxPhase o.cumulative.isSome h keepLatest) dir

/-! ## file_histories.rs -/

/-- file_hist/file_histories.rs:75-86: the loop from `ind` down to `1` -/
def sumLoop (lens : List Nat) (keepLatest : Nat) : Nat → Nat → Option Nat
  | 0, _ => none
  | ind + 1, sum =>
    let sum := sum + lens.getD (ind + 1) 0
    if keepLatest < sum then some (ind + 1) else sumLoop lens keepLatest ind sum

/-- One hash directory: the hash, its history and its files. -/
structure Version where
  hash : Nat
  history : FileHistory.History
  dir : Dir

/-- file_hist/file_histories.rs:46-88 `remove_old_files_us`: the hash directories that are left. -/
def removeOldFilesAll (o : Opts) (vec : List Version) (keepLatest : Nat) : List Version :=
  match vec.getLast? with
  | none => []
  | some last =>
    if keepLatest = 0 then []
    else if keepLatest < last.history.listFiles.length then
      [{ last with dir := removeOldFiles o last.history keepLatest last.dir }]
    else
      match sumLoop (vec.map (·.history.listFiles.length)) keepLatest (vec.length - 1) 0 with
      | some index => vec.drop index
      | none => vec

end Verif.Remover
