import Verif.Model.Compaction
/-!
# Phases of history files

Model of `dochy_fs/src/imp/history/algo/*` and `fs/write_phase_file.rs`.

Sizes and counts are natural numbers: the `u64`/`usize` additions are not checked for overflow (that needs 2^64 bytes
of diff files). The floating-point comparison `should_shift_to_parent_phase` is a parameter `shift`, about which
nothing is assumed, so the theorems hold whatever it answers.
-/
namespace Verif.Phase
open VarInt Codec Compaction

/-- history_options.rs:99-102 `CumulativeOptions` -/
structure Cumulative where
  limitNth : Option Nat
  limitCount : Option Nat
  deriving Repr, DecidableEq

/-- history_options.rs:35-41 `HistoryOptions` (without the thread flags), also 128-136 `HistoryOptionsBuilder`. -/
structure Opts where
  maxPhase : Nat
  updatePhase0 : Bool
  cumulative : Option Cumulative
  deriving Repr, DecidableEq

/-- history_options.rs:115-123 `CumulativeOptions::from` -/
def Cumulative.build (c : Cumulative) : Res Cumulative :=
  if c.limitNth = some 0 then .err
  else if c.limitCount = some 0 then .err
  else .ok c

/-- history_options.rs:72-94 `HistoryOptions::from` -/
def Opts.build (b : Opts) : Res Opts :=
  let ok : Res Opts :=
    match b.cumulative with
    | none => .ok b
    | some c => c.build.map fun c => { b with cumulative := some c }
  if b.maxPhase = 0 then
    if b.updatePhase0 = false then .err
    else
      match b.cumulative with
      | some c => if c.limitNth.isSome then .err else if c.limitCount.isSome then .err else ok
      | none => ok
  else ok

/-- history_options.rs:167-177, 202-209: the defaults -/
def Opts.default : Opts := ⟨3, true, some ⟨some 1, some 10⟩⟩

/-- phase_data_item.rs:5-9 -/
structure Item where
  mySize : Nat
  totalSize : Nat
  totalLen : Nat
  deriving Repr, DecidableEq

/-- phase_data_item.rs:12-17 -/
def Item.new (size : Nat) : Item := ⟨size, 0, 0⟩
/-- phase_data_item.rs:19-22 -/
def Item.add (size : Nat) (it : Item) : Item := { it with totalSize := it.totalSize + size, totalLen := it.totalLen + 1 }

/-- phase_data.rs:8-10, the items from phase 0 downwards -/
abbrev Data := List Item

/-- phase_data.rs:13-15 -/
def Data.new (size : Nat) : Data := [Item.new size]
/-- phase_data.rs:17-22 -/
def Data.push (d : Data) (size : Nat) : Data := d.map (Item.add size) ++ [Item.new size]
/-- phase_data.rs:29-35 (popping while there are more than `next` items) -/
def Data.popAndPush (d : Data) (next size : Nat) : Data := Data.push (d.take next) size
/-- phase_data.rs:44-46 (the subtraction panics below zero, `get` gives `None` beyond the end) -/
def Data.climb (d : Data) (c : Nat) : Res (Option Item) :=
  if d.length < 1 + c then .panic else .ok d[d.length - 1 - c]?

/-- sorting (phase_data.rs:78) -/
def insertSorted (x : Nat) : List Nat → List Nat
  | [] => [x]
  | y :: ys => if x ≤ y then x :: y :: ys else y :: insertSorted x ys
def sortNat : List Nat → List Nat
  | [] => []
  | x :: xs => insertSorted x (sortNat xs)

/-- phase_data.rs:72-81 `get_nth_largest_files_size` -/
def Data.nthLargest (d : Data) (nth : Nat) : Res (Option Nat) :=
  let nth := if nth = 0 then 1 else nth
  let sizes := sortNat (d.map (·.mySize))
  if sizes.length < nth then .panic else .ok sizes[sizes.length - nth]?

/-- The signature of should_shift_to_parent_phase.rs:4-6: parent size, size and number of its descendants, size and
number of the current subtree. -/
abbrev Shift := Nat → Nat → Nat → Nat → Nat → Bool

/-- should_shift_to_parent_phase.rs:4-20 in exact arithmetic (the code rounds to `f64`, see `Model/Shift.lean`); used in examples only. -/
def shiftExact : Shift := fun ps ds dl cs cl => decide ((ps + ds) * (1 + dl + cl) < (ps + ds + cs) * (1 + dl))

/-- `unwrap` -/
def unwrap {α : Type} : Res (Option α) → Res α
  | .ok (some a) => .ok a
  | .ok none => .panic
  | .err => .err
  | .panic => .panic

/-- calc_next_phase.rs:26-30: is the count limit reached? -/
def countReached (cu : Cumulative) (parent : Item) : Bool :=
  match cu.limitCount with
  | some lim => decide (lim ≤ parent.totalLen)
  | none => false

/-- calc_next_phase.rs:25-38: must a further cumulative file be avoided? -/
def cumulativeFull (o : Opts) (d : Data) (parent : Item) : Res Bool :=
  match o.cumulative with
  | none => .ok false
  | some cu =>
    if countReached cu parent then .ok true
    else
      match cu.limitNth with
      | none => .ok false
      | some nth => (d.nthLargest nth).map fun
        | some size => decide (size ≤ parent.totalSize)
        | none => false

/-- calc_next_phase.rs:13-49, the loop from `i` with `rem` rounds left. -/
def phaseLoop (o : Opts) (shift : Shift) (d : Data) : Nat → Nat → Res Nat
  | 0, _ => .ok (if o.updatePhase0 = false then 1 else 0)
  | rem + 1, i =>
    (unwrap (d.climb i)).bind fun cur =>
    (unwrap (d.climb (i + 1))).bind fun par =>
    if shift par.mySize par.totalSize par.totalLen (cur.mySize + cur.totalSize) (1 + cur.totalLen) = false then
      if i = 0 then
        (cumulativeFull o d par).bind fun full =>
        if full then phaseLoop o shift d rem (i + 1) else .ok (d.length - 1)
      else .ok (d.length - 1 - i)
    else phaseLoop o shift d rem (i + 1)

/-- calc_next_phase.rs:5-50 `calc_next_phase` -/
def calcNextPhase (o : Opts) (shift : Shift) (d : Data) : Res Nat :=
  if d.length ≤ o.maxPhase then .ok d.length else phaseLoop o shift d (d.length - 1) 0

/-! ## Storage -/

/-- `u64 as i64` / `usize as i64` -/
def asI64Wrap (n : Nat) : Int := if n % 2 ^ 64 < 2 ^ 63 then (n % 2 ^ 64 : Nat) else ((n % 2 ^ 64 : Nat) : Int) - 2 ^ 64

/-- phase_data_item.rs:28-32 -/
def Item.encode (it : Item) : List KVal :=
  [compInt (asI64Wrap it.mySize), compInt (asI64Wrap it.totalSize), compInt (asI64Wrap it.totalLen)]

/-- phase_data.rs:48-55 -/
def Data.encode (d : Data) : List KVal := compInt (asI64Wrap d.length) :: d.flatMap Item.encode

/-- phase_data_item.rs:42-49 -/
def readInt : List KVal → Res (Int × List KVal)
  | v :: rest => match asI64 v with | some i => .ok (i, rest) | none => .err
  | [] => .err

/-- phase_data_item.rs:34-39 -/
def Item.decode (vals : List KVal) : Res (Item × List KVal) :=
  (readInt vals).bind fun (a, r) =>
  (readInt r).bind fun (b, r) =>
  (readInt r).bind fun (c, r) => .ok (⟨asUsize a, asUsize b, asUsize c⟩, r)

/-- phase_data.rs:65-68 -/
def decodeItems : Nat → List KVal → Res Data
  | 0, _ => .ok []
  | n + 1, vals => (Item.decode vals).bind fun (it, r) => (decodeItems n r).bind fun its => .ok (it :: its)

/-- phase_data.rs:57-70 (`vec_with_capacity_safe` fails with `Err` on absurd lengths; such a length also runs out of
values, so the outcome is the same) -/
def Data.decode : List KVal → Res Data
  | [] => .err
  | v :: rest => match asI64 v with
    | some len => decodeItems (asUsize len) rest
    | none => .err

/-- write_phase_file.rs:6-13: contents of the file -/
def phaseFile (d : Data) (diff : Bytes) : Res Bytes := (encodeVals d.encode).map (· ++ diff)

/-- derive_impl.rs:38-40 and open_diff_file_without_metadata.rs: read the statistics; what is left is the diff. -/
def readPhaseFile (file : Bytes) : Res (Data × Bytes) :=
  (decodeVals file).bind fun (vals, rest) => (Data.decode vals).map fun d => (d, rest)

end Verif.Phase
