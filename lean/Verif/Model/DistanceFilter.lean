import Verif.Model.Outcome
import Mathlib.Data.Real.Basic

/-!
# point_cloud/distance_filter.hpp : DistanceFilter

A distance is a real number or `none` for NaN.  `search d i` is what `KdTree::radius_search` returns for the `i`-th point
and radius `d` (the theorems of C17 assume that it returns exactly the points within the radius; for what the tree of the code
returns see C91).  Index sets are lists of natural numbers; an index past the end makes `points_.row(i)` undefined.
-/

namespace Verif.DistanceFilter

open Verif

/-- `distance_filter.hpp:104-107` (the points by their number). -/
structure DF where
  n : Nat
  filtered : Bool
  indices : List Nat

/-- `distance_filter.hpp:25` -/
def DF.new (n : Nat) : DF := ⟨n, false, []⟩

/-- `distance_filter.hpp:22` - the double nearest to `2 ^ -63` -/
noncomputable def kMinDistance : ℝ := 1 / 2 ^ 63

/-- `distance_filter.hpp:41-54` - `removed` is `indices_to_remove`. -/
def loop (n : Nat) (search : Nat → List Nat) : List Nat → List Nat → Outcome (List Nat)
  | [], removed => .ok removed
  | i :: is, removed =>
      if removed.contains i then loop n search is removed
      else if i < n then loop n search is (removed ++ (search i).filter (fun j => j != i))
      else .ub

/-- `distance_filter.hpp:56-61` -/
def keep (indices removed : List Nat) : List Nat := indices.filter (fun i => !removed.contains i)

/-- `distance_filter.hpp:31-65` -/
noncomputable def DF.filter (search : ℝ → Nat → List Nat) (f : DF) (distance : Option ℝ) (indices : List Nat) :
    DF × Outcome Unit :=
  match distance with
  | none => (f, .throws .invalidArgument)
  | some d =>
      open Classical in
      if ¬ d ≥ kMinDistance then (f, .throws .invalidArgument)
      else
        match loop f.n (search d) indices [] with
        | .ok removed => ({ f with indices := keep indices removed, filtered := true }, .ok ())
        | .throws e => (f, .throws e)
        | .ub => (f, .ub)

/-- `distance_filter.hpp:27-29, 98-102` -/
noncomputable def DF.filterAll (search : ℝ → Nat → List Nat) (f : DF) (distance : Option ℝ) : DF × Outcome Unit :=
  f.filter search distance (List.range f.n)

/-- `distance_filter.hpp:85-89` -/
def DF.filteredIndices (f : DF) : Outcome (List Nat) := if f.filtered then .ok f.indices else .throws .runtimeError

/-- `distance_filter.hpp:67-78` - the rows of `m`. -/
def DF.apply (f : DF) (m : List α) : Outcome (List α) :=
  if !f.filtered then .throws .runtimeError
  else if m.length ≠ f.n then .throws .invalidArgument
  else Outcome.traverse (Outcome.get m) f.indices

end Verif.DistanceFilter
