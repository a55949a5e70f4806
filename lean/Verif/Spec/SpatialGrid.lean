import Verif.Model.SpatialGrid
import Mathlib.Order.Basic

/-! # Specification: a partial map from items to boxes -/

namespace Verif.SpatialGrid.Spec

open Verif

variable {R : Type}

/-- The boxes stored after a history. -/
def live (ops : List (Op R)) : Nat → Option (Box R) :=
  ops.foldl (fun l op =>
    match op with
    | .insert fi b => fun i => if i = fi then some b else l i
    | .remove fi => fun i => if i = fi then none else l i
    | .query _ _ => l) (fun _ => none)

/-- The protocol of the callers: a face is not inserted while it is already in the grid, and only faces that have been
inserted at some time are removed. -/
def Valid (ops : List (Op R)) : Prop :=
  ∀ pre op post, ops = pre ++ op :: post →
    match op with
    | .insert fi _ => live pre fi = none
    | .remove fi => ∃ b, Op.insert fi b ∈ pre
    | .query _ _ => True

/-- Calls `fn` on the items in order until it returns false. -/
def callUntil {σ : Type} (fn : σ → Nat → σ × Bool) : List Nat → σ → σ × Bool
  | [], s => (s, true)
  | x :: xs, s => match fn s x with
    | (s', true) => callUntil fn xs s'
    | (s', false) => (s', false)

variable [LE R]

/-- Closed boxes overlap. -/
def Overlap (a b : Box R) : Prop :=
  (a.lo.1 ≤ b.hi.1 ∧ b.lo.1 ≤ a.hi.1) ∧ (a.lo.2.1 ≤ b.hi.2.1 ∧ b.lo.2.1 ≤ a.hi.2.1) ∧
  (a.lo.2.2 ≤ b.hi.2.2 ∧ b.lo.2.2 ≤ a.hi.2.2)

/-- The box is not inverted. -/
def Proper (a : Box R) : Prop := a.lo.1 ≤ a.hi.1 ∧ a.lo.2.1 ≤ a.hi.2.1 ∧ a.lo.2.2 ≤ a.hi.2.2

end Verif.SpatialGrid.Spec
