import Verif.Model.Res
/-!
# Loading with one thread and with worker threads

Model of `dochy_fs/src/imp/common/apply_items.rs`.

`S` is the type of objects, `B` that of the contents of a file after its metadata, `R` that of prepared diffs (`RootDiffR`).
A file that cannot be opened is `none`.  Preparing a diff (`DochyDiff::prepare`: decode and read) depends on the definition
only, which does not change while diffs are applied.  Every object that the callback `func` is given is recorded.
-/
namespace Verif.ApplyItems

section
variable {S B R : Type}

/-- The functions that `apply_items` calls. -/
structure Fns (S B R : Type) where
  prep : B → Res R
  app : S → R → Res S

/-- apply_items.rs:10-20 `apply_items_st`; `apply_diff` prepares and applies (apply_diff.rs:12-18). -/
def applySt (F : Fns S B R) : List (Option B) → S → List S × Res S
  | [], s => ([], .ok s)
  | none :: _, _ => ([], .err)
  | some b :: rest, s =>
    match (F.prep b).bind (F.app s) with
    | .ok s' => let r := applySt F rest s'; (s' :: r.1, r.2)
    | .err => ([], .err)
    | .panic => ([], .panic)

/-- `HashMap<usize, RootDiffR>`; apply_items.rs:48 `map.insert`. -/
def put (map : Nat → Option R) (i : Nat) (r : R) : Nat → Option R := fun j => if j = i then some r else map j

/-- `map.remove` -/
def take (map : Nat → Option R) (i : Nat) : Nat → Option R := fun j => if j = i then none else map j

/-- apply_items.rs:54-68 `apply_several_items`; `fuel` bounds the rounds (it is never exhausted, see `applySeveral_spec`). -/
def applySeveral (F : Fns S B R) : Nat → Nat → (Nat → Option R) → S → List S × Res (Nat × (Nat → Option R) × S)
  | 0, k, map, s => ([], .ok (k, map, s))
  | fuel + 1, k, map, s =>
    match map k with
    | some d =>
      match F.app s d with
      | .ok s' => let r := applySeveral F fuel (k + 1) (take map k) s'; (s' :: r.1, r.2)
      | .err => ([], .err)
      | .panic => ([], .panic)
    | none => ([], .ok (k, map, s))

/-- apply_items.rs:46-51: the receiving loop, `count` rounds to go, with the messages that arrive; `stuck` is what happens
when a message is awaited and none will come. -/
def receive (F : Fns S B R) (fuel : Nat) (stuck : Res S) : Nat → List (Nat × R) → Nat → (Nat → Option R) → S → List S × Res S
  | 0, _, _, _, s => ([], .ok s)
  | _ + 1, [], _, _, _ => ([], stuck)
  | count + 1, (i, d) :: arr, k, map, s =>
    match applySeveral F fuel k (put map i d) s with
    | (tr, .ok (k', map', s')) => let r := receive F fuel stuck count arr k' map' s'; (tr ++ r.1, r.2)
    | (tr, .err) => (tr, .err)
    | (tr, .panic) => (tr, .panic)

/-- apply_items.rs:31-37: the contents that the reading thread gets, up to the first file that cannot be opened (`unwrap`
panics and ends that thread). -/
def readable : List (Option B) → List B
  | some b :: rest => b :: readable rest
  | _ => []

/-- The diffs that are sent: those that could be prepared, each with the index of its file. -/
def sent (F : Fns S B R) : List B → Nat → List (Nat × R)
  | [], _ => []
  | b :: rest, i =>
    match F.prep b with
    | .ok r => (i, r) :: sent F rest (i + 1)
    | _ => sent F rest (i + 1)

/-- Every diff that was read can be prepared. -/
def Preparable (F : Fns S B R) (files : List (Option B)) : Prop := ∀ b ∈ readable files, ∃ r, F.prep b = .ok r

/-- What loading with worker threads may do: the messages arrive in any order; when all were received and more are awaited,
`recv` fails as all senders are gone.  A worker that cannot prepare its diff panics (`unwrap`), which in a `rayon` pool ends the
process at some time. -/
inductive Mt (F : Fns S B R) (files : List (Option B)) (s : S) : List S × Res S → Prop
  | run (arr : List (Nat × R)) (harr : arr.Perm (sent F (readable files) 0)) (hp : Preparable F files) :
      Mt F files s (receive F (files.length + 1) .err files.length arr 0 (fun _ => none) s)
  | runAbort (arr : List (Nat × R)) (harr : arr.Perm (sent F (readable files) 0)) (hp : ¬ Preparable F files) :
      Mt F files s (receive F (files.length + 1) .panic files.length arr 0 (fun _ => none) s)
  | abort (tr : List S) (hp : ¬ Preparable F files) : Mt F files s (tr, .panic)

end
end Verif.ApplyItems
