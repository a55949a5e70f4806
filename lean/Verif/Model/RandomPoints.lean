import Verif.Model.Outcome
import Mathlib.Analysis.Real.Sqrt
import Mathlib.Analysis.SpecialFunctions.Pow.Real

/-!
# src/point_cloud/random_points.cpp

Doubles are real numbers.  The random numbers are an arbitrary stream `u 0, u 1, …`.
-/

namespace Verif.RandomPoints

open Verif

abbrev P3 := Fin 3 → ℝ

/-- `random_points.cpp:18-24` - the `k`-th point of the cuboid: three numbers are drawn for `x`, `y`, `z` in this order. -/
noncomputable def cuboidPoint (lo hi : P3) (u : Nat → ℝ) (k : Nat) : P3 :=
  let size := hi - lo
  lo + ![u (3 * k) * size 0, u (3 * k + 1) * size 1, u (3 * k + 2) * size 2]

open Classical in
/-- `random_points.cpp:7-27`; `minCoeff` is the least of the three coefficients. -/
noncomputable def inCuboid (lo hi : P3) (u : Nat → ℝ) (n : Nat) : Outcome (List P3) :=
  let size := hi - lo
  if ¬ (min (min (size 0) (size 1)) (size 2) > 0) then .throws .invalidArgument
  else .ok ((List.range n).map (cuboidPoint lo hi u))

open Classical in
/-- `random_points.cpp:45-49` - the `do … while` loop; `none`: it has not ended after `fuel` iterations.  Returns `x1`, `x2` and
the position in the stream. -/
noncomputable def drawDisk (u : Nat → ℝ) : (fuel : Nat) → Nat → Option (ℝ × ℝ × Nat)
  | 0, _ => none
  | fuel + 1, pos =>
      let x1 := u pos
      let x2 := u (pos + 1)
      let rsq := x1 * x1 + x2 * x2
      if rsq ≥ 1 then drawDisk u fuel (pos + 2) else some (x1, x2, pos + 2)

/-- `random_points.cpp:51-55` -/
noncomputable def spherePoint (c : P3) (r x1 x2 : ℝ) : P3 :=
  let rsq := x1 * x1 + x2 * x2
  let x := 2 * x1 * Real.sqrt (1 - rsq)
  let y := 2 * x2 * Real.sqrt (1 - rsq)
  let z := 1 - 2 * rsq
  c + r • ![x, y, z]

/-- `random_points.cpp:41-56` - the loop over the points. -/
noncomputable def sphereLoop (c : P3) (r : ℝ) (u : Nat → ℝ) (fuel : Nat) : (n : Nat) → Nat → Option (List P3)
  | 0, _ => some []
  | n + 1, pos =>
      match drawDisk u fuel pos with
      | none => none
      | some (x1, x2, pos) =>
          match sphereLoop c r u fuel n pos with
          | none => none
          | some ps => some (spherePoint c r x1 x2 :: ps)

open Classical in
/-- `random_points.cpp:31-59` -/
noncomputable def onSphere (c : P3) (r : ℝ) (u : Nat → ℝ) (fuel n : Nat) : Option (Outcome (List P3)) :=
  if ¬ (r > 0) then some (.throws .invalidArgument)
  else (sphereLoop c r u fuel n 0).map Outcome.ok

end Verif.RandomPoints
