import Verif.Model.StoreIds
import Verif.Spec.LinkedMap
/-!
# Objects, their definitions and diffs

Model of the data that `dochy_diff` works on: `dochy_core/src/imp/structs/{qv,rust_param,param_type,var_type,
list_sab_value,root_sab_value,rust_list,meta_table}.rs` and `dochy_diff/src/imp/{structs_write,structs_read}.rs`.

Simplifications.
* A member is addressed by its id.  `HashM<String, ListSabValue>` is a list with one optional entry per member id, because
  every key has exactly one id in the definition and every id one key in the `MetaTable`.  Keys that are not in the
  definition do not occur.
* The definition (`ListDefObj`) and the `MetaTables` built from it (meta_table.rs:98-153) are one thing here: the definition
  of a mutable list gives the `MList`/`OptMil` entry, the definition of a constant one gives no entry.
* A mutable list (`LinkedMap`) is the ordered list that it is proved to behave like (C14).
* Nesting is by levels: a list of level `n + 1` holds rows whose lists have level `n`; level 0 has no lists. Every
  definition has a finite depth, so it is a definition of some level.
* Contents of `f64`, `Vec<f64>` and `Vec<i64>` are bit patterns.
* Values of constant inner lists (`Cil`) do not occur in mutable lists; get_diff ignores them.
-/
namespace Verif.Diff
open VarInt Codec Compaction LinkedMap

/-- qv.rs:4 `Qv`. -/
inductive Qv (α : Type) where
  | val (a : α)
  | undef
  | null
  deriving DecidableEq, Repr

/-- param_type.rs `ParamType`. -/
inductive PType where
  | bool | int | float | string | intArray | floatArray | binary
  deriving DecidableEq, Repr

/-- var_type.rs `VarType`. -/
inductive VType where
  | normal | nullable | undefiable | undefNullable
  deriving DecidableEq, Repr

/-- rust_param.rs:9-19 `RustParam`. -/
inductive Param where
  | bool (q : Qv Bool)
  | int (q : Qv Int)
  | float (q : Qv (BitVec 64))
  | string (q : Qv String)
  | intArray (q : Qv (List (BitVec 64)))
  | floatArray (q : Qv (List (BitVec 64)))
  | binary (q : Qv Bytes)
  deriving DecidableEq, Repr

/-- list_sab_value.rs:9-15 `ListSabValue` (without `Cil`) and root_sab_value.rs `RootSabValue`; `X` is the type of lists. -/
inductive Cell (X : Type) where
  | param (p : Param)
  | mil (l : Option X)
  deriving DecidableEq

/-- rust_list.rs:142-147 `MutItem`. -/
structure Row (X : Type) where
  values : List (Option (Cell X))
  refs : List (Option (Qv String))
  deriving DecidableEq

deriving instance DecidableEq for SList

/-- rust_list.rs:99-101 `MutListVal`, by level. -/
@[reducible] def Obj : Nat → Type
  | 0 => Empty
  | n + 1 => SList (Row (Obj n))

/-- meta_table.rs:55-60 `MetaValue` with 62-66 `MetaParam`; `S` is the type of the definitions of lists. -/
inductive Col (S : Type) where
  | param (pt : PType) (vt : VType)
  | mlist (s : S)
  | optMil (s : S)

/-- meta_table.rs:42-46 `MetaTables`; no entry for a constant list. -/
structure Table (S : Type) where
  items : List (Option (Col S))
  refs : List VType

/-- The definition of a list, by level. -/
@[reducible] def Sch : Nat → Type
  | 0 => Empty
  | n + 1 => Table (Sch n)

section
variable {S X : Type}

/-- meta_table.rs:76-81 `MetaTable::get`, and `HashMap::get` of the values of an item. -/
def entry {α : Type} (l : List (Option α)) (id : Nat) : Option α := l[id]?.join

/-- meta_table.rs:83-92 `get_tables`. -/
def Col.tables : Col S → Option S
  | .param .. => none
  | .mlist s => some s
  | .optMil s => some s

end

/-- structs_write.rs:46-50 `ListItemDiffW` (the `BTreeMap`s are ascending lists of pairs), structs_read.rs `ListItemDiffR`. -/
structure RowDiff (D : Type) where
  params : List (Nat × Param)
  refs : List (Nat × Qv String)
  lists : List (Nat × Option D)
  deriving DecidableEq

/-- structs_write.rs:35-44 `ListItemDiffEnumW` and `BS`, structs_read.rs `ListItemDiffEnumR` and `CS`. -/
inductive ItemDiff (D : Type) where
  | delete
  | create (prev : Option Nat) (d : RowDiff D)
  | modify (d : RowDiff D)
  deriving DecidableEq

/-- structs_write.rs:20-24 `ListDiffW`, structs_read.rs `ListDiffR`. The `meta` of the former is the one of the definition. -/
structure ListDiff (D : Type) where
  items : List (Nat × ItemDiff D)
  next : Nat
  deriving DecidableEq

/-- The diff of a list, by level. -/
@[reducible] def DiffT : Nat → Type
  | 0 => Empty
  | n + 1 => ListDiff (DiffT n)

/-- structs_write.rs:5-9 `RootDiffW`, structs_read.rs `RootDiffR`. -/
structure RootDiff (D : Type) where
  params : List (Nat × Param)
  lists : List (Nat × Option D)
  deriving DecidableEq

instance instDecObj : (n : Nat) → DecidableEq (Obj n)
  | 0 => inferInstanceAs (DecidableEq Empty)
  | n + 1 => by
    haveI := instDecObj n
    exact inferInstanceAs (DecidableEq (SList (Row (Obj n))))

instance instDecDiffT : (n : Nat) → DecidableEq (DiffT n)
  | 0 => inferInstanceAs (DecidableEq Empty)
  | n + 1 => by
    haveI := instDecDiffT n
    exact inferInstanceAs (DecidableEq (ListDiff (DiffT n)))

/-- A root object: one optional entry per member id. -/
abbrev Root (n : Nat) := List (Option (Cell (Obj n)))

/-- The `MetaTable` of a root object. -/
abbrev RootSch (n : Nat) := List (Option (Col (Sch n)))

end Verif.Diff
