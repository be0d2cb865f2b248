import Verif.Model.Pipeline
import Verif.Spec.Archive
import Verif.Spec.Source
import Verif.Spec.Session
import Verif.Props.DiffLoaded
/-!
# What a source is and what may be saved, from the bytes on the disk

For C75 and C76.
-/
namespace Verif.Pipeline
open Codec VarInt Source Core Named

/-- A file is text, its name has a stem, and the text is this json value. -/
def FileOf (L : Lib) (f : String × Bytes) (j : String × JVal) : Prop :=
  ∃ s, strOfBytes f.2 = some s ∧ fileStem f.1 = some j.1 ∧ Json5.fromStr L.uni L.pf L.fromU32 s.toList = .ok j.2

/-- the name of an entry -/
def nodeName : Archive.Node → String
  | .file n _ => n
  | .dir n _ => n
  | .other n => n

/-- The files of a source, in the order of their paths. -/
def Src.Files (L : Lib) : Src → List (String × Bytes) → Prop
  | .dir p es, files => Archive.Sorted files ∧ ∀ q d, (q, d) ∈ files ↔ Archive.Holds jsonOpts p es q d
  | .archive b, files => ∃ d rest, Archive.readArchive L.fns b = .ok (d, rest) ∧ files = d.btree.map fun e => (e.1, e.2.2)

/-- The files can be archived: there are not too many, they are not too large, and their compression can be undone. -/
def FitsArchive (L : Lib) (files : List (String × Bytes)) : Prop :=
  files.length < 2 ^ 62 ∧ (∀ f ∈ files, (strBytes f.1).length < 2 ^ 63 ∧ Archive.Undoes L.fns f.2) ∧
    ∀ out, Archive.writeArchive (files.map fun f => (f.1, L.compress f.2)) = .ok out → out.length < 2 ^ 63

/-- A version of the source as C73 needs it: an entry of a folder has one name; the files say no numeric ids, and each name of the root
is declared once; the object is valid, has no undefiable list, fits the memory, and lists inside of lists have
ids below 11 and at most 22 members beside them (C13). -/
structure Usable (L : Lib) (v : Src) : Prop where
  names : ∀ p es, v = .dir p es → (es.map nodeName).Nodup
  archive : ∀ p es, v = .dir p es → ∀ files, v.Files L files → FitsArchive L files
  json : ∀ files js, v.Files L files → List.Forall₂ (FileOf L) files js → (∀ e ∈ js, Plain e.2) ∧ ∃ l, SourceDecls js l ∧ Distinct l
  valid : ∀ r h, v.root L = .ok (r, h) → validateRoot r.erase false = .ok ()
  memory : ∀ r h, v.root L = .ok (r, h) → ListsInMemory r.sabun ∧ r.defs.length < 2 ^ 62
  lists : ∀ r h, v.root L = .ok (r, h) → (∀ k id d, r.defs.get k ≠ some (id, .mlist d true)) ∧
    ∃ c, c < 2 ^ 62 ∧ ∀ k id d u, r.defs.get k = some (id, .mlist d u) → Legible c d

/-- What is saved: the object after a session that started with the loaded object, settled as C73 needs it, with a diff that fits. -/
structure Saved (L : Lib) (a b : Root) : Prop where
  object : b = { a with sabun := b.sabun }
  session : Session a.defs a.sabun b.sabun
  settled : RootSettled a.defs a.sabun b.sabun
  fits : ∀ vals out, (ops L).diff a b = .ok vals → encodeVals vals = .ok out → out.length < 2 ^ 60

/-- The same object, up to the order of maps. -/
def SameObject (a b : Root) : Prop := b = { a with sabun := b.sabun } ∧ SameRoot a.defs a.sabun b.sabun

/-- The functions for the versions of the source that occur. -/
def opsOn (L : Lib) (P : Src → Prop) : Filesys.FsOps {v // P v} Root where
  root v := (ops L).root v.1
  archive v := (ops L).archive v.1
  read := (ops L).read
  check := (ops L).check
  diff := (ops L).diff
  app := (ops L).app
  adjust := (ops L).adjust

/-- The versions that occur: each is usable, and different ones with the same hash have the same object. -/
structure Versions (L : Lib) (P : Src → Prop) : Prop where
  usable : ∀ v, P v → Usable L v
  collision : ∀ v v' s s' h, P v → P v' → v.root L = .ok (s, h) → v'.root L = .ok (s', h) → s = s'

/-- what comes before the names of the entries of a folder in their paths -/
def prefixOf (p : String) : String := if p = "" ∨ p.toList.getLast? = some '/' then p else p ++ "/"

/-- A name that an entry of a folder can have. -/
def NameOk (n : String) : Prop := n ≠ "" ∧ n ≠ "." ∧ n ≠ ".." ∧ '/' ∉ n.toList

end Verif.Pipeline
