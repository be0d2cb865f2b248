import Verif.Model.Validate
/-!
# Adjusting an object to a new source version

Model of `dochy_core/src/imp/version_adjuster/*.rs`.

The loops of the code go through the members of a definition and take (`remove`) the stored value of each. The nested lists of an
item are adjusted when their value is taken. Here all values of an item are adjusted first, each with its own outcome
(`adjustValues`); an outcome that is never taken plays no role.
-/
namespace Verif.Core
open Diff

/-- linked_m.rs:82-101 `construct` keeps the next id, but not the one of an empty list (C17). -/
def constructNext (items : List (Nat × Item)) (next : Nat) : Nat := if items.length = 0 then 0 else next

/-- adjust_mut_list_item_ref.rs:9-25 `adjust_mut_list_item_ref` -/
def adjustRefs : AMap (Qv String × VType) → AMap (Qv String) → AMap (Qv String) → AMap (Qv String)
  | [], _, result => result
  | (k, d) :: r, old, result =>
    match old.get k with
    | some q => adjustRefs r (old.remove k) (result.insert k q)
    | none => adjustRefs r old (if canUndef d.2 then result.insert k .undef else result)

/-- adjust_mut_list_item_sabun.rs:23-63: the loop over the members of the definition; `old` has the outcomes of adjusting the stored values. -/
def adjustLoop : AMap DefVal → AMap (Res SabVal) → AMap SabVal → Res (AMap SabVal)
  | [], _, result => .ok result
  | (k, d) :: r, old, result =>
    match old.get k with
    | some out => out.bind fun v => adjustLoop r (old.remove k) (result.insert k v)
    | none =>
      match d with
      | .param p vt => adjustLoop r old (if canUndef vt then result.insert k (.param (toUndefined p)) else result)
      | .milDef _ undefiable => adjustLoop r old (if undefiable then result.insert k .milNone else result)
      | .cilDef _ => .err

/-! The functions below take the rule `inner` by which the definition of a nested list is found. The code has the rule `innerDef`; the
rule is a parameter in order to say what the code would do with another one. -/

/-- adjust_mut_list_item_sabun.rs:53: the definition with which the list stored in the member `k` is adjusted. It is the definition
of the item that has the member, not the one of the member. -/
def innerDef (d : ListDef) (_k : String) : ListDef := d

mutual
/-- adjust_mut_list.rs:32-39 `adjust_mut_list` with 11-22 `adjust_mut` -/
def adjustItems (inner : ListDef → String → ListDef) (d : ListDef) : List (Nat × Item) → Res (List (Nat × Item))
  | [] => .ok []
  | (id, it) :: r => (adjustItem inner d it).bind fun it' => (adjustItems inner d r).map fun r' => (id, it') :: r'
/-- adjust_mut_list.rs:15-19: one item -/
def adjustItem (inner : ListDef → String → ListDef) (d : ListDef) : Item → Res Item
  | .mk values refs =>
    (adjustLoop d.members (adjustValues inner d values) []).map fun v => .mk v (adjustRefs d.refs.refs refs [])
/-- adjust_mut_list_item_sabun.rs:45-62 for every stored value -/
def adjustValues (inner : ListDef → String → ListDef) (d : ListDef) : List (String × SabVal) → List (String × Res SabVal)
  | [] => []
  | (k, v) :: r => (k, adjustValue inner (inner d k) v) :: adjustValues inner d r
/-- adjust_mut_list_item_sabun.rs:45-62 -/
def adjustValue (inner : ListDef → String → ListDef) (d : ListDef) : SabVal → Res SabVal
  | .param p => .ok (.param p)
  | .mil items next => (adjustItems inner d items).map fun l => .mil l (constructNext items next)
  | .milNone => .ok .milNone
  | .cil _ => .err
end

/-- version_adjuster.rs:46-72: the value of a mutable list `k`; `none` if nothing is inserted -/
def adjustMlist (inner : ListDef → String → ListDef) (d : ListDef) : RootSab → Res (Option RootSab)
  | .list (some l) => (adjustItems inner d l.1).map fun l' => some (.list (some (l', constructNext l.1 l.2)))
  | .list none => .ok (some (.list none))
  | .param _ => .ok none

/-- version_adjuster.rs:29-76: the loop over the members of the new definition -/
def adjustMembers (inner : ListDef → String → ListDef) (oldDefs : AMap RootVal) :
    AMap RootVal → AMap RootSab → AMap RootSab → Res (AMap RootSab)
  | [], _, sabun => .ok sabun
  | (k, .param p vt) :: r, oldSabun, sabun =>
    if canUndef vt && (oldDefs.get k).isNone then
      adjustMembers inner oldDefs r oldSabun (sabun.insert k (.param (toUndefined p)))
    else
      match oldSabun.get k with
      | some x => adjustMembers inner oldDefs r (oldSabun.remove k) (sabun.insert k x)
      | none => adjustMembers inner oldDefs r oldSabun sabun
  | (k, .mlist d undefiable) :: r, oldSabun, sabun =>
    if undefiable && (oldDefs.get k).isNone then adjustMembers inner oldDefs r oldSabun (sabun.insert k (.list none))
    else
      match oldSabun.get k with
      | some x =>
        (adjustMlist inner d x).bind fun y =>
          adjustMembers inner oldDefs r (oldSabun.remove k) (match y with | some v => sabun.insert k v | none => sabun)
      | none => adjustMembers inner oldDefs r oldSabun sabun
  | _ :: r, oldSabun, sabun => adjustMembers inner oldDefs r oldSabun sabun

/-- version_adjuster.rs:18-84 `adjust_versions`, with a rule for nested lists -/
def adjustWith (inner : ListDef → String → ListDef) (new old : RootObj) (validation : Bool) : Res RootObj :=
  (adjustMembers inner old.defs new.defs old.sabun new.sabun).bind fun sabun =>
    let r := { new with sabun := sabun }
    (if validation then validateRoot r true else .ok ()).map fun _ => r

/-- version_adjuster.rs:18-84 `adjust_versions` -/
def adjustVersions (new old : RootObj) (validation : Bool) : Res RootObj := adjustWith innerDef new old validation

end Verif.Core
