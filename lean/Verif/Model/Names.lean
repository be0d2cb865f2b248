import Verif.Model.DiffData
/-!
# Member names in the source

Model of `dochy_core/src/imp/json_to_rust/json_name.rs`, `structs/var_type.rs:20-28`, `rust_to_json/name_with_suffix.rs`. Strings are lists
of characters. The regular expression `^([@a-z_][a-zA-Z0-9_]*)([!?]*)$` is written as a recogniser: no character belongs to two of its
parts, so there is at most one match.
-/
namespace Verif.Names
open Diff

/-- json_name.rs:78 `[@a-z_]` -/
def isHead (c : Char) : Bool := c == '@' || ('a' ≤ c && c ≤ 'z') || c == '_'
/-- json_name.rs:78 `[a-zA-Z0-9_]` -/
def isTail (c : Char) : Bool := ('a' ≤ c && c ≤ 'z') || ('A' ≤ c && c ≤ 'Z') || ('0' ≤ c && c ≤ '9') || c == '_'
/-- json_name.rs:78 `[!?]` -/
def isMark (c : Char) : Bool := c == '!' || c == '?'

/-- json_name.rs:77-80 `analyze_name`: the two groups -/
def analyzeName : List Char → Option (List Char × List Char)
  | [] => none
  | c :: r =>
    if isHead c then
      let suffix := r.dropWhile isTail
      if suffix.all isMark then some (c :: r.takeWhile isTail, suffix) else none
    else none

/-- json_name.rs:82-101 `value_type_and_name` -/
def valueTypeAndName (s : List Char) : Option (VType × List Char) :=
  match analyzeName s with
  | none => none
  | some (name, suffix) =>
    if suffix = ['!', '?'] ∨ suffix = ['?', '!'] then some (.undefNullable, name)
    else if suffix = ['!'] then some (.undefiable, name)
    else if suffix = ['?'] then some (.nullable, name)
    else if suffix = [] then some (.normal, name)
    else none

/-- json_name.rs:7-12 `SystemNames` -/
inductive System where
  | old | id | ref | enum
  deriving DecidableEq

/-- json_name.rs:14-17 `NameType` -/
inductive NameType where
  | name (n : List Char) (vt : VType)
  | system (s : System)
  deriving DecidableEq

/-- json_name.rs:19-35 `json_name` -/
def jsonName (s : List Char) : Option NameType :=
  if s = ['O', 'l', 'd'] then some (.system .old)
  else if s = ['I', 'D'] then some (.system .id)
  else if s = ['R', 'e', 'f'] then some (.system .ref)
  else if s = ['E', 'n', 'u', 'm'] then some (.system .enum)
  else (valueTypeAndName s).map fun x => .name x.2 x.1

/-- json_name.rs:38-45 `json_simple_name` -/
def jsonSimpleName (s : List Char) : Option (List Char) :=
  match jsonName s with
  | some (.name n .normal) => some n
  | _ => none

/-- var_type.rs:20-28 `to_suffix` -/
def toSuffix : VType → List Char
  | .normal => []
  | .nullable => ['?']
  | .undefiable => ['!']
  | .undefNullable => ['!', '?']

/-- name_with_suffix.rs:3-5 -/
def nameWithSuffix (name : List Char) (vt : VType) : List Char := name ++ toSuffix vt

end Verif.Names
