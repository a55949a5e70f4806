import Verif.Model.NormalEstimator
import Mathlib.Analysis.Real.Sqrt

/-!
# src/point_cloud/plane_estimator.cpp

Doubles are real numbers.  The singular value decomposition (Eigen's `JacobiSVD`) is an arbitrary function from the rows of a
matrix to singular values and the columns of `V`; what is relied on is `SvdOf` in `Verif/Spec/PlaneEstimator.lean`.
-/

namespace Verif.Plane

open Verif
open Verif.Normals (V3 dot Cloud)

/-- `Eigen::JacobiSVD<Points3>(..., ComputeFullV)`: `singularValues()` and the columns of `matrixV()` -/
abbrev Svd := List V3 → V3 × (Fin 3 → V3)

/-- `plane_estimator.hpp:27-32` -/
structure Estimate where
  pointErr : ℝ
  lineErr : ℝ
  planeErr : ℝ
  planeFactor : ℝ
  basis : Fin 3 → V3

/-- `plane_estimator.cpp:43` - `points.colwise().mean()` -/
noncomputable def barycenter (points : List V3) : V3 := fun j => (points.map (fun p => p j)).sum / points.length

/-- `plane_estimator.cpp:44` - `points.rowwise() - barycenter` -/
noncomputable def centred (points : List V3) : List V3 := points.map (fun p => p - barycenter points)

/-- `plane_estimator.cpp:8-30` - with fewer than three points the third singular value is read out of bounds (the assertion is
compiled out in release builds). -/
noncomputable def estimate (svd : Svd) (points : List V3) : Outcome Estimate :=
  if points.length < 3 then .ub
  else
    let s := (svd (centred points)).1
    let n : ℝ := points.length
    let pointErr := Real.sqrt (s 0 ^ 2 + s 1 ^ 2 + s 2 ^ 2) / Real.sqrt n
    let lineErr := Real.sqrt (s 1 ^ 2 + s 2 ^ 2) / Real.sqrt n
    let planeErr := |s 2| / Real.sqrt n
    let pointErr := max pointErr 1e-10
    let lineErr := max lineErr (1e-10 * pointErr)
    let planeErr := max planeErr (1e-10 * lineErr)
    .ok ⟨pointErr, lineErr, planeErr, lineErr * lineErr / (planeErr * pointErr), (svd (centred points)).2⟩

/-- `plane_estimator.cpp:36` - `basis_.col(2)` -/
def Estimate.planeNormal (e : Estimate) : V3 := e.basis 2

/-- The plane factor and the normal as the normal estimator reads them (`normal_estimator.cpp:58-60, 121-123`); the value for fewer than three
points is never used (`Cloud.planeEst`). -/
noncomputable def factorAndNormal (svd : Svd) (points : List V3) : ℝ × V3 :=
  match estimate svd points with
  | .ok e => (e.planeFactor, e.planeNormal)
  | _ => (0, 0)

/-- The normal estimator with this plane estimator: `PlaneEstimator est(points_(nn_indices, kAll))`. -/
noncomputable def cloud (svd : Svd) (n : Nat) (point : Nat → V3) (knn : Nat → Nat → List Nat) (radius : Nat → ℝ → List (Nat × ℝ)) : Cloud :=
  ⟨n, point, knn, radius, fun nn => factorAndNormal svd (nn.map point)⟩

end Verif.Plane
