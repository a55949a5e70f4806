import Verif.Model.EstimateNormals
import Verif.Props.PlaneEstimator

/-!
# What estimate-normals writes
-/

namespace Verif.EstimateNormals

open Verif Verif.Normals Verif.Plane Verif.Plane.Spec

/-- Not more than one of `--k` and `--radius`, and not more than one of `--point`, `--direction` and `--closed`, is given. -/
def NoConflict (a : Args) : Prop :=
  (a.k = none ∨ a.radius = none) ∧ (a.point = none ∨ a.direction = none) ∧ (a.point = none ∨ a.closed = none) ∧ (a.direction = none ∨ a.closed = none)

/-- The normals `v` point where the options say: toward the point, along the direction, or consistently within each part of the surface and not
downwards at the highest point of the part, with neighbours among the nearest `k` points. -/
def Faces (n : Nat) (point : Nat → V3) (knn : Nat → Nat → List Nat) (a : Args) (v : Nat → V3) : Prop :=
  (∀ p, a.point = some p → ∀ i < n, 0 ≤ dot (v i) (p - point i)) ∧
  (∀ d, a.direction = some d → ∀ i < n, 0 ≤ dot (v i) d) ∧
  (a.point = none → a.direction = none → ∃ parts : List (List Nat), parts.flatten.Nodup ∧ (∀ i, i ∈ parts.flatten ↔ i < n ∧ ¬ isZero (v i)) ∧
    ∀ part ∈ parts,
      (∃ root ∈ part, ∀ i ∈ part, i ≠ root → ∃ p ∈ part, i ∈ knn p (min (a.closed.getD 100) n).toNat ∧ 0 ≤ dot (v i) (v p)) ∧
      ∃ top ∈ part, (∀ i ∈ part, point i 2 ≤ point top 2) ∧ 0 ≤ v top 2)

/-- `v` is `e` or `-e`. -/
def Same (v e : V3) : Prop := v = e ∨ v = -e

/-- From the lists of points `nn` (by index), the plane of one with the largest plane factor; its normal is kept, up to its sign, if the factor reaches the
threshold. -/
def Kept (svd : Svd) (point : Nat → V3) (lists : List (List Nat)) (threshold : ℝ) (v : V3) : Prop :=
  ∃ nn ∈ lists, (∀ nn' ∈ lists, (factorAndNormal svd (nn'.map point)).1 ≤ (factorAndNormal svd (nn.map point)).1) ∧
    ((factorAndNormal svd (nn.map point)).1 < threshold → v = 0) ∧
    (threshold ≤ (factorAndNormal svd (nn.map point)).1 → Same v (factorAndNormal svd (nn.map point)).2)

end Verif.EstimateNormals
