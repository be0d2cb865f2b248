/-!
# Result of a Rust function

A Rust function of the modelled crates ends in one of three ways: a value, an `Err(..)` value, or a panic
(index out of range, checked arithmetic overflow, `unwrap` on `None`, explicit `panic!`).  All three are data.
The error payload (an `anyhow`/custom error with text) is not modelled.
-/
namespace Verif

/-- Outcome of a Rust call. -/
inductive Res (α : Type u) where
  | ok (a : α)
  | err
  | panic
  deriving Repr, DecidableEq

namespace Res

/-- Sequencing as done by the `?` operator (and by panics, which always propagate). -/
def bind {α : Type u} {β : Type v} (r : Res α) (f : α → Res β) : Res β :=
  match r with
  | ok a => f a
  | err => err
  | panic => panic

def map {α : Type u} {β : Type v} (f : α → β) (r : Res α) : Res β :=
  r.bind fun a => ok (f a)

/-- `Option` turned into a result, `None` being an `Err`. -/
def ofOption {α : Type u} : Option α → Res α
  | some a => ok a
  | none => err

@[simp] theorem bind_ok {α : Type u} {β : Type v} (a : α) (f : α → Res β) : (ok a).bind f = f a := rfl
@[simp] theorem bind_err {α : Type u} {β : Type v} (f : α → Res β) : (err : Res α).bind f = err := rfl
@[simp] theorem bind_panic {α : Type u} {β : Type v} (f : α → Res β) : (panic : Res α).bind f = panic := rfl
@[simp] theorem map_ok {α : Type u} {β : Type v} (a : α) (f : α → β) : (ok a).map f = ok (f a) := rfl
@[simp] theorem map_err {α : Type u} {β : Type v} (f : α → β) : (err : Res α).map f = err := rfl
@[simp] theorem map_panic {α : Type u} {β : Type v} (f : α → β) : (panic : Res α).map f = panic := rfl
@[simp] theorem ofOption_some {α : Type u} (a : α) : ofOption (some a) = ok a := rfl
@[simp] theorem ofOption_none {α : Type u} : ofOption (none : Option α) = err := rfl

theorem bind_eq_ok {α : Type u} {β : Type v} {r : Res α} {f : α → Res β} {b : β} :
    r.bind f = ok b ↔ ∃ a, r = ok a ∧ f a = ok b := by
  cases r <;> simp

theorem bind_assoc {α : Type u} {β : Type v} {γ : Type w} (r : Res α) (f : α → Res β) (g : β → Res γ) :
    (r.bind f).bind g = r.bind fun a => (f a).bind g := by
  cases r <;> rfl

/-- The call returned a value. -/
def isOk {α : Type u} : Res α → Bool
  | ok _ => true
  | _ => false

instance : Monad Res where
  pure := ok
  bind := bind

@[simp] theorem pure_eq {α : Type u} (a : α) : (Pure.pure a : Res α) = ok a := rfl
@[simp] theorem monad_bind_eq {α β : Type u} (r : Res α) (f : α → Res β) : (r >>= f) = r.bind f := rfl

end Res
end Verif
