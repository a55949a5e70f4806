import Verif.Model.Polynomial
import Mathlib.Data.Finset.Sort

/-!
# polynomial/unisolvent_point_set.hpp

The random numbers `dist(gen)` are an arbitrary stream `draw 0, draw 1, …`.  A `std::set<Index>` is a finite set, listed in
increasing order by its iterators.  The `while` loop need not end: `none` is the outcome of a loop that has not ended after
`fuel` iterations.  `rcond` is Eigen's estimate `FullPivLU::rcond()` of the matrix of a basis, an arbitrary function.
-/

namespace Verif.Unisolvent

open Verif

/-- `unisolvent_point_set.hpp:44-46` - the `while` loop of a trial, from a position of the stream. -/
def fill (draw : Nat → Nat) (l : Nat) : (fuel : Nat) → Finset Nat → Nat → Option (Finset Nat × Nat)
  | 0, _, _ => none
  | fuel + 1, set, pos =>
      if set.card < l then fill draw l fuel (insert (draw pos) set) (pos + 1) else some (set, pos)

/-- `unisolvent_point_set.hpp:37-39` - the variables of the trial loop, and the position in the random stream. -/
structure State where
  bestSet : Finset Nat
  bestRcond : ℝ
  found : Bool
  pos : Nat

open Classical in
/-- `unisolvent_point_set.hpp:48-59` - using the set of a trial; `points(indices, kAll)` is undefined for an index out of
range. -/
noncomputable def useSet (dim deg : Nat) (rcond : Poly.Lagrange → ℝ) (points : List (Fin dim → ℝ)) (st : State)
    (set : Finset Nat) : Outcome State :=
  match Outcome.traverse (Outcome.get points) (set.sort (· ≤ ·)) with
  | .throws e => .throws e
  | .ub => .ub
  | .ok pts =>
      match Poly.Lagrange.new dim deg pts [] with
      | .throws .invalidArgument => .ok st
      | .throws e => .throws e
      | .ub => .ub
      | .ok b =>
          if st.bestRcond < rcond b then .ok { st with bestSet := set, bestRcond := rcond b, found := true }
          else .ok { st with found := true }

/-- `unisolvent_point_set.hpp:41-60` - the loop of trials. -/
noncomputable def trials (dim deg : Nat) (rcond : Poly.Lagrange → ℝ) (points : List (Fin dim → ℝ)) (draw : Nat → Nat)
    (fuel : Nat) : (n : Nat) → State → Option (Outcome State)
  | 0, st => some (.ok st)
  | n + 1, st =>
      match fill draw (Poly.basisSize dim deg) fuel ∅ st.pos with
      | none => none
      | some (set, pos) =>
          match useSet dim deg rcond points { st with pos := pos } set with
          | .ok st' => trials dim deg rcond points draw fuel n st'
          | .throws e => some (.throws e)
          | .ub => some .ub

/-- `unisolvent_point_set.hpp:25-67` - the constructor; the result is `point_idcs_`.  With no points the distribution has an
empty range, which is undefined. -/
noncomputable def build (dim : Nat) (rcond : Poly.Lagrange → ℝ) (draw : Nat → Nat) (fuel : Nat)
    (points : List (Fin dim → ℝ)) (degree : Int) : Option (Outcome (List Nat)) :=
  if degree < 0 then some (.ok [])
  else if points.length = 0 then some .ub
  else
    match trials dim degree.toNat rcond points draw fuel 100 ⟨∅, 0, false, 0⟩ with
    | none => none
    | some (.throws e) => some (.throws e)
    | some .ub => some .ub
    | some (.ok st) =>
        if !st.found then some (.throws .runtimeError)
        else some (.ok (st.bestSet.sort (· ≤ ·)))

end Verif.Unisolvent
