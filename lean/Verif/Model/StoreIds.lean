import Verif.Model.Compaction
/-!
# The compact representation of a set of member ids

Model of `dochy_diff/src/imp/write/{store_ids,write_store_ids}.rs` and of
`dochy_diff/src/imp/read/{reader,read_store_ids}.rs`.

Simplifications: `u64`/`usize` are natural numbers (`Nat`), the range is a hypothesis of the theorems; the keys of a
`BTreeMap<usize, _>` are a list of ids in ascending order; reserving memory (`vec_with_capacity_safe`) never fails.
-/
namespace Verif.Diff
open VarInt Codec Compaction

/-- store_ids.rs:6-11 `StoredIDs`. -/
inductive StoredIDs where
  | zero
  | u64 (b : Nat)
  | bits (v : List Nat)
  | numbers (v : List Nat)
  deriving DecidableEq, Repr

/-- store_ids.rs:13-15 `StoredIDsType`. -/
inductive IdsType where
  | zero
  | u64
  | bits
  | numbers
  deriving DecidableEq, Repr

/-- store_ids.rs:172-178 `max_and_len`: the last key of the map and the number of keys. -/
def maxAndLen (keys : List Nat) : Nat × Nat :=
  match keys.getLast? with
  | none => (0, 0)
  | some id => (id, keys.length)

/-- store_ids.rs:118-164 `calc_type`. -/
def calcType (max len : Nat) : IdsType :=
  if len = 0 then .zero
  else if max < 64 then if len > max / 11 then .u64 else .numbers
  else if max < 32768 then if len > max / 24 then .bits else .numbers
  else if max < 8388608 then if len > max / 32 then .bits else .numbers
  else if max < 2147483648 then if len > max / 40 then .bits else .numbers
  else if len > max / 48 then .bits else .numbers

/-- store_ids.rs:59-63 `update_u64`. -/
def updateU64 (keys : List Nat) (r : Nat) : Nat := keys.foldl (fun r i => r ||| (1 <<< i)) r

/-- store_ids.rs:88-97 `update_bits`.  The access is unchecked in the code; here an index out of range changes nothing, and
`Lemmas/StoreIds.lean` shows that the index is always in range. -/
def updateBits (keys : List Nat) (r : List Nat) : List Nat :=
  keys.foldl (fun r i => r.modify (i / 64) (· ||| (1 <<< (i % 64)))) r

/-- store_ids.rs:17-30 `store_ids` with 52-57 `get_u64`, 65-75 `get_bits`, 99-104 `get_numbers`, 112-116 `update_numbers` and
166-170 `update_max_and_len`. -/
def storeIds (params lists : List Nat) : StoredIDs :=
  let max := Nat.max (Nat.max 0 (maxAndLen params).1) (maxAndLen lists).1
  let len := 0 + (maxAndLen params).2 + (maxAndLen lists).2
  match calcType max len with
  | .zero => .zero
  | .u64 => .u64 (updateU64 lists (updateU64 params 0))
  | .bits => .bits (updateBits lists (updateBits params (List.replicate (max / 64 + 1) 0)))
  | .numbers => .numbers (params ++ lists)

/-- store_ids.rs:32-49 `store_ids_ref` with 77-86 `get_bits_ref` and 106-110 `get_numbers_ref`. -/
def storeIdsRef (refs : List Nat) : StoredIDs :=
  let max := Nat.max 0 (maxAndLen refs).1
  let len := 0 + (maxAndLen refs).2
  match calcType max len with
  | .zero => .zero
  | .u64 => .u64 (updateU64 refs 0)
  | .bits => .bits (updateBits refs (List.replicate (max / 64 + 1) 0))
  | .numbers => .numbers refs

/-- `u64 as i64`, `usize as i64` (64 bit). -/
def i64OfU64 (n : Nat) : Int := if n < 2 ^ 63 then (n : Int) else (n : Int) - 2 ^ 64

/-- `comp_int(n as i64)`, as used for every id and length. -/
def compU64 (n : Nat) : KVal := compInt (i64OfU64 n)

/-- write_store_ids.rs:5-32 `write_stored_ids`. -/
def writeStoredIds : StoredIDs → List KVal
  | .zero => [.bit true, .bit false]
  | .u64 b => [.bit true, compU64 b]
  | .bits b => [.bit false, .bit true, compU64 b.length] ++ b.map compU64
  | .numbers n => [.bit false, .bit false, compU64 n.length] ++ n.map compU64

/-- diff_error.rs:15-18 `ast_i64` of the next value (reader.rs:14-19 `read`). -/
def readI64 : Rd KVal Int := Rd.bind readOne fun k => Rd.lift (Res.ofOption (asI64 k))

/-- diff_error.rs:19-21 `ast_bool` of the next value. -/
def readBool : Rd KVal Bool := Rd.bind readOne fun k => Rd.lift (Res.ofOption (asBool k))

/-- diff_error.rs:25-27 `ast_string` of the next value. -/
def readStr : Rd KVal String := Rd.bind readOne fun k => Rd.lift (Res.ofOption (asString k))

/-- `r.read()?.ast_i64()? as u64` or `as usize`. -/
def readU64 : Rd KVal Nat := Rd.bind readI64 fun i => Rd.pure (asUsize i)

/-- reader.rs:21-28 `read_u64_array` and 30-37 `read_usize_array`. -/
def readU64Array : Rd KVal (List Nat) := Rd.bind readU64 fun len => readTimes readU64 len

/-- read_store_ids.rs:5-22 `read_stored_ids`. -/
def readStoredIds : Rd KVal StoredIDs :=
  Rd.bind readBool fun b =>
    if b then Rd.bind readU64 fun bits => Rd.pure (if bits = 0 then .zero else .u64 bits)
    else Rd.bind readBool fun c =>
      if c then Rd.bind readU64Array fun v => Rd.pure (.bits v)
      else Rd.bind readU64Array fun v => Rd.pure (.numbers v)

/-- The loop over the 64 flags of a word: read_params.rs:8-21 `read_params`, read_lists.rs:7-23 `read_lists` and
read_refs.rs:38-56 `read_refs_bits`, which differ in what is done for a flag that is set (`f`, which may yield nothing).
The arguments are the remaining number of rounds, `flag` and `index`. -/
def flagLoop {α : Type} (bits offset : Nat) (f : Nat → Rd KVal (Option α)) : Nat → Nat → Nat → Rd KVal (List (Nat × α))
  | 0, _, _ => Rd.pure []
  | n + 1, flag, index =>
    Rd.bind (if bits &&& flag ≠ 0 then f (index + offset) else Rd.pure none) fun a =>
      let here := a.toList.map fun a => (index + offset, a)
      let flag' := flag <<< 1 % 2 ^ 64
      if bits < flag' then Rd.pure here
      else Rd.bind (flagLoop bits offset f n flag' (index + 1)) fun rest => Rd.pure (here ++ rest)

/-- One word: `flag` starts at 1, `index` at 0. -/
def readWord {α : Type} (bits offset : Nat) (f : Nat → Rd KVal (Option α)) : Rd KVal (List (Nat × α)) :=
  flagLoop bits offset f 64 1 0

/-- The loop over the words of a bit list, `offset` growing by 64: read_list.rs:69-78, read_root.rs:26-35,
read_refs.rs:17-21. -/
def readWords64 {α : Type} (f : Nat → Rd KVal (Option α)) : List Nat → Nat → Rd KVal (List (Nat × α))
  | [], _ => Rd.pure []
  | b :: bs, offset =>
    Rd.bind (readWord b offset f) fun xs => Rd.bind (readWords64 f bs (offset + 64)) fun ys => Rd.pure (xs ++ ys)

/-- The loop over a list of numbers: read_list.rs:87-93, read_root.rs:41-45, read_lists_numbers.rs:9-25,
read_refs.rs:25-32. -/
def readNumbers {α : Type} (f : Nat → Rd KVal (Option α)) : List Nat → Rd KVal (List (Nat × α))
  | [] => Rd.pure []
  | id :: ids =>
    Rd.bind (f id) fun a => Rd.bind (readNumbers f ids) fun rest => Rd.pure (a.toList.map (fun a => (id, a)) ++ rest)

end Verif.Diff
