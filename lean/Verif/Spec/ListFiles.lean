import Verif.Model.ListFiles
import Verif.Spec.HashDir
/-! # What a list of saved files is -/
namespace Verif.ListFiles
open Codec VarInt HashDir Filesys


/-- the hash that a folder is named after -/
def hashOf (name : Bytes) : Option Nat := if name.length = 32 ∧ ∀ b ∈ name, HexByte b then some (hexNumber name) else none

/-- the files of a folder that can be shown: without those of the system and those whose metadata is not there -/
def shownOf (hash : Nat) (d : List (Option FEntry)) : List FileData :=
  d.filterMap fun e => match e with
    | some ⟨name, _, some (t, n)⟩ => if isReserved (lossy name) then none else some ⟨hash, t, n, lossy name⟩
    | _ => none

/-- the files of all folders that are named after a hash and can be opened -/
def shown (entries : List (Option PEntry)) : List FileData :=
  entries.flatMap fun e => match e with
    | some ⟨name, some true, some d⟩ => match hashOf (lossy name) with | some h => shownOf h d | none => []
    | _ => []

/-- nothing that has to do with saved files: no folder, or one that is not named after a hash -/
def Other (e : Option PEntry) : Prop := ∃ p, e = some p ∧ (p.isDir = some false ∨ (p.isDir = some true ∧ hashOf (lossy p.name) = none))

/-- an entry that cannot be read, or a folder named after a hash that cannot be opened -/
def Unreadable (e : Option PEntry) : Prop :=
  ∀ p, e = some p → p.isDir = none ∨ (p.isDir = some true ∧ (hashOf (lossy p.name)).isSome ∧ p.opened = none)

/-- An unreadable entry comes before the first folder of saved files. -/
def StartsBad (entries : List (Option PEntry)) : Prop := ∃ a e r, entries = a ++ e :: r ∧ (∀ x ∈ a, Other x) ∧ Unreadable e

/-- no folder whose name panics with overflow checks (C43) -/
def NoFatal (checked : Bool) (entries : List (Option PEntry)) : Prop :=
  checked = true → ∀ p, some p ∈ entries → p.isDir = some true → ¬ FatalName (lossy p.name)

/-- the number of entries of all folders -/
def size (entries : List (Option PEntry)) : Nat :=
  (entries.map fun e => match e with | some ⟨_, _, some d⟩ => d.length + 1 | _ => 1).sum

/-- The entries are those of the save folder on the disk, and all of them can be read. -/
structure OnDisk {V : Type} (d : Disk V) (entries : List (Option PEntry)) : Prop where
  /-- no errors -/
  plain : ∀ e ∈ entries, ∃ p b, e = some p ∧ p.isDir = some b ∧
    (b = true → ∃ l, p.opened = some l ∧ ∀ x ∈ l, ∃ f, x = some f ∧ f.isDir = false ∧ f.stat.isSome)
  /-- the folders of the disk, with their files -/
  folder : ∀ name f, d.dirs name = some f → ∃ p l, some p ∈ entries ∧ p.name = name ∧ p.isDir = some true ∧ p.opened = some l ∧
    ∀ y, (f y).isSome ↔ ∃ x, some x ∈ l ∧ x.name = y
  /-- no other folders -/
  only : ∀ p, some p ∈ entries → p.isDir = some true → (d.dirs p.name).isSome
  /-- no name twice -/
  once : entries.Pairwise fun a b => ∀ p q, a = some p → b = some q → p.name ≠ q.name
  onceIn : ∀ p l, some p ∈ entries → p.opened = some l → l.Pairwise fun a b => ∀ x y, a = some x → b = some y → x.name ≠ y.name

/-- A file of the disk that belongs in the list. -/
def Saved {V : Type} (d : Disk V) (hash : Nat) (name : Bytes) : Prop :=
  hash < 2 ^ 128 ∧ isReserved name = false ∧ (d.read (hashToFolderName hash) name).isSome

/-- All names are UTF-8. -/
def Utf8Names {V : Type} (d : Disk V) : Prop := ∀ folder name, (d.read folder name).isSome → (strOfBytes name).isSome

end Verif.ListFiles
