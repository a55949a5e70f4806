import Verif.Model.Cli
import Verif.Props.Table
import Verif.Props.DistanceFilter
import Verif.Props.CrossValidate

/-!
# What a table file holds
-/

namespace Verif.Cli

open Verif Verif.Table

variable {N : Num}

/-- The file is a table with these rows of `n` numbers each. -/
def Holds (N : Num) (file : List Char) (rows : List (List N.D)) (n : Nat) : Prop :=
  (∀ r ∈ rows, r.length = n) ∧ ∃ m, readTable N delims file = .ok m ∧ m.Is rows n

/-- the point in a row -/
def pointOf {D : Type} (dim : Nat) (row : List D) : List D := row.take dim

/-- A kd-tree that finds exactly the points within the radius. -/
def SearchOk (dist : List D → List D → ℝ) (search : List (List D) → ℝ → Nat → List Nat) : Prop :=
  (∀ p q, dist p q = dist q p) ∧
    ∀ points, DistanceFilter.ExactSearch points.length (fun i j => dist (points.getD i []) (points.getD j [])) (search points)

end Verif.Cli
