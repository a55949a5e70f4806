/-!
# Outcomes of C++ calls

A modelled C++ call either returns normally, throws an exception, or runs into undefined behaviour
(out-of-bounds access, null dereference, ...).  Undefined behaviour is a distinct outcome and is never
silently replaced by a default value.
-/

namespace Verif

/-- The exception classes the modelled code throws. -/
inductive Err where
  | invalidArgument
  | runtimeError
  | outOfRange
  | lengthError
  | badAlloc
  | badOptionalAccess
  deriving DecidableEq, Repr

/-- Result of a modelled call. -/
inductive Outcome (α : Type u) where
  | ok (a : α)
  | throws (e : Err)
  | ub
  deriving DecidableEq, Repr

namespace Outcome

/-- Sequencing: an exception or undefined behaviour ends the computation. -/
def bind (x : Outcome α) (f : α → Outcome β) : Outcome β :=
  match x with
  | ok a => f a
  | throws e => throws e
  | ub => ub

instance : Monad Outcome where
  pure := ok
  bind := bind

@[simp] theorem pure_eq (a : α) : (pure a : Outcome α) = ok a := rfl
@[simp] theorem ok_bind (a : α) (f : α → Outcome β) : (ok a >>= f) = f a := rfl
@[simp] theorem throws_bind (e : Err) (f : α → Outcome β) : (throws e >>= f) = throws e := rfl
@[simp] theorem ub_bind (f : α → Outcome β) : ((ub : Outcome α) >>= f) = ub := rfl

theorem bind_eq_ok {x : Outcome α} {f : α → Outcome β} {b : β} :
    (x >>= f) = ok b ↔ ∃ a, x = ok a ∧ f a = ok b := by
  cases x <;> simp

/-- A loop producing one result per element; the first exception or undefined behaviour ends it. -/
def traverse (f : α → Outcome β) : List α → Outcome (List β)
  | [] => ok []
  | x :: xs => do
      let y ← f x
      let ys ← traverse f xs
      return y :: ys

theorem traverse_ok {f : α → Outcome β} {g : α → β} : ∀ {xs : List α}, (∀ x ∈ xs, f x = ok (g x)) →
    traverse f xs = ok (xs.map g)
  | [], _ => rfl
  | x :: xs, h => by
      simp only [traverse, h x (by simp), ok_bind, traverse_ok (xs := xs) (fun y hy => h y (by simp [hy])), pure_eq,
        List.map_cons]

/-- Access to an array element without a check. -/
def get (l : List α) (i : Nat) : Outcome α :=
  match l[i]? with
  | some x => ok x
  | none => ub

end Outcome

end Verif
