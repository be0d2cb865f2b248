import Verif.Model.FileName
/-!
# The tree of history files of one directory

Model of `dochy_fs/src/imp/history/file_hist/{file_history,file_history_item,create_file_history}.rs` and
`remove/btree_zipper.rs`. A `BTreeMap<u32, T>` is the list of its entries in ascending key order.
-/
namespace Verif.FileHistory
open VarInt FileName

/-! ## BTreeMap -/

/-- A `BTreeMap<u32, α>` as its ascending list of entries. -/
abbrev BMap (α : Type) := List (Nat × α)

/-- `BTreeMap::get` -/
def BMap.get {α : Type} : BMap α → Nat → Option α
  | [], _ => none
  | (a, x) :: m, k => if a = k then some x else BMap.get m k

/-- `BTreeMap::insert` -/
def BMap.insert {α : Type} : BMap α → Nat → α → BMap α
  | [], k, v => [(k, v)]
  | (a, x) :: m, k, v =>
    if k < a then (k, v) :: (a, x) :: m else if k = a then (k, v) :: m else (a, x) :: BMap.insert m k v

/-! ## BTreeZipper -/

/-- btree_zipper.rs:10-19 (`cur_props`, `cur_his` are `i64`, -1 before the start and `i64::MAX` after the end) -/
structure Zipper (α β : Type) where
  props : BMap α
  his : BMap β
  curProps : Int
  curHis : Int
  rProps : Option α
  rHis : Option β

/-- `i64::MAX` -/
def i64Max : Int := 9223372036854775807

/-- btree_zipper.rs:22-33 -/
def Zipper.new {α β : Type} (props : BMap α) (his : BMap β) : Zipper α β := ⟨props, his, -1, -1, none, none⟩

/-- btree_zipper.rs:57-65 -/
def Zipper.moveProps {α β : Type} (z : Zipper α β) : Zipper α β :=
  match z.props with
  | (cur, p) :: rest => { z with props := rest, rProps := some p, curProps := cur }
  | [] => { z with rProps := none, curProps := i64Max }

/-- btree_zipper.rs:66-74 -/
def Zipper.moveHis {α β : Type} (z : Zipper α β) : Zipper α β :=
  match z.his with
  | (cur, h) :: rest => { z with his := rest, rHis := some h, curHis := cur }
  | [] => { z with rHis := none, curHis := i64Max }

/-- btree_zipper.rs:39-88 `next` (`as u32` of a key is the key) -/
def Zipper.next {α β : Type} (z : Zipper α β) : Option ((Nat × Option β × Option α) × Zipper α β) :=
  if z.curProps = z.curHis ∧ z.curProps = i64Max then none
  else
    let z' :=
      if z.curProps = z.curHis then z.moveProps.moveHis
      else if z.curProps < z.curHis then z.moveProps
      else z.moveHis
    if z'.curProps = z'.curHis then
      if z'.curProps = i64Max then none
      else some ((z'.curProps.toNat, z'.rHis, z'.rProps), z')
    else if z'.curProps < z'.curHis then some ((z'.curProps.toNat, none, z'.rProps), z')
    else some ((z'.curHis.toNat, z'.rHis, none), z')

/-- Running the iterator for at most `fuel` rounds. -/
def Zipper.run {α β : Type} : Nat → Zipper α β → List (Nat × Option β × Option α)
  | 0, _ => []
  | fuel + 1, z =>
    match z.next with
    | none => []
    | some (x, z') => x :: Zipper.run fuel z'

/-- `for … in BTreeZipper::new(props, his)` (each round consumes an entry of one of the maps) -/
def zip {α β : Type} (props : BMap α) (his : BMap β) : List (Nat × Option β × Option α) :=
  (Zipper.new props his).run (props.length + his.length + 1)

/-! ## FileHistoryItem -/

/-- file_history_item.rs:8-11 -/
inductive Node where
  | mk (children : List (Nat × Node)) (items : List (Nat × Props))
  deriving Repr

def Node.children : Node → BMap Node
  | .mk c _ => c
def Node.items : Node → BMap Props
  | .mk _ i => i
/-- file_history_item.rs:14-19 -/
def Node.empty : Node := .mk [] []

/-- file_history.rs:116-123 with file_history_item.rs:28-39: walk down (creating nodes) and insert the file. -/
def Node.add : Node → List Nat → Props → Node
  | n, [], _ => n
  | .mk ch it, [i], p => .mk ch (BMap.insert it i p)
  | .mk ch it, i :: rest, p => .mk (BMap.insert ch i (Node.add ((BMap.get ch i).getD .empty) rest p)) it

/-- file_history_item.rs:79-93 -/
def Node.getProps : Node → List Nat → Option Props
  | _, [] => none
  | .mk _ it, [i] => BMap.get it i
  | .mk ch _, i :: rest =>
    match BMap.get ch i with
    | some c => c.getProps rest
    | none => none

mutual
/-- file_history_item.rs:49-65 -/
def Node.newest : Node → Option Props
  | .mk ch it =>
    match it.getLast?, newestChild ch with
    | some (i, p), some (c, np) => if c < i then some p else np
    | some (_, p), none => some p
    | none, some (_, np) => np
    | none, none => none
/-- file_history_item.rs:41-43 `newest_child`, with its newest file -/
def newestChild : List (Nat × Node) → Option (Nat × Option Props)
  | [] => none
  | [(i, n)] => some (i, n.newest)
  | _ :: y :: r => newestChild (y :: r)
end

mutual
/-- file_history_item.rs:67-77 (the children are flattened before they are zipped: the zipper does not look at them) -/
def Node.flatten : Node → List Props
  | .mk ch it => (zip it (flattenAll ch)).flatMap fun x => x.2.2.toList ++ x.2.1.getD []
def flattenAll : List (Nat × Node) → List (Nat × List Props)
  | [] => []
  | (i, n) :: r => (i, n.flatten) :: flattenAll r
end

/-! ## FileHistory -/

/-- file_history.rs:12-16 (the options are passed where they are used) -/
structure History where
  ctls : BMap Node
  deriving Repr

def History.empty : History := ⟨[]⟩

/-- file_history.rs:116-123 (for a non-empty order) -/
def History.add (h : History) (p : Props) : History :=
  ⟨h.ctls.insert p.control (((h.ctls.get p.control).getD .empty).add p.order p)⟩

/-- file_history.rs:129-135 -/
def History.getProps (h : History) (ctl : Nat) (order : List Nat) : Option Props :=
  match h.ctls.get ctl with
  | some n => n.getProps order
  | none => none

/-- file_name_props.rs:48-51 `order_base` -/
def orderBase (p : Props) : List Nat := p.order.dropLast
/-- file_name_props.rs:52 `order_last` (orders are never empty) -/
def orderLast (p : Props) : Nat := p.order.getLastD 0
/-- file_name_props.rs:44 `phase` -/
def phase (p : Props) : Nat := p.order.length - 1

/-- file_history.rs:145-147 -/
def History.getParent (h : History) (p : Props) : Option Props := h.getProps p.prevCtl (orderBase p)

/-- file_history.rs:95-103 with 91-93 -/
def History.newest (h : History) : Option Props :=
  match newestChild h.ctls with
  | some (_, np) => np
  | none => none

/-- file_history.rs:32-38 -/
def History.listFiles (h : History) : List Props := h.ctls.flatMap fun x => x.2.flatten

/-- create_file_history.rs:7-20: the tree of the recognised file names, in the order in which the directory is listed.
(A name that makes the parser panic makes the whole call panic.) -/
def createHistory : List Bytes → History → Res History
  | [], h => .ok h
  | name :: rest, h =>
    (analyze name).bind fun
    | some p => createHistory rest (h.add p)
    | none => createHistory rest h

end Verif.FileHistory
