import Verif.Model.PlaneEstimator

/-!
# Best-fitting points, lines and planes
-/

namespace Verif.Plane.Spec

open Verif
open Verif.Normals (V3 dot)

/-- What is relied on about a singular value decomposition of the matrix with the rows `A`: the columns of `V` are orthonormal, the singular
values are not negative and decrease, and the columns of `A * V` are orthogonal and as long as the singular values. -/
structure SvdOf (A : List V3) (s : V3) (V : Fin 3 → V3) : Prop where
  orthonormal : ∀ k l, dot (V k) (V l) = if k = l then 1 else 0
  nonneg : ∀ k, 0 ≤ s k
  decreasing : s 1 ≤ s 0 ∧ s 2 ≤ s 1
  columns : ∀ k l, (A.map (fun a => dot a (V k) * dot a (V l))).sum = if k = l then s k ^ 2 else 0

/-- The squared distance of `p` from the point `c`. -/
def distPoint2 (c p : V3) : ℝ := dot (p - c) (p - c)

/-- The squared distance of `p` from the line through `c` with the unit direction `d`. -/
def distLine2 (c d p : V3) : ℝ := dot (p - c) (p - c) - dot (p - c) d ^ 2

/-- The squared distance of `p` from the plane through `c` with the unit normal `w`. -/
def distPlane2 (c w p : V3) : ℝ := dot (p - c) w ^ 2

/-- The root mean square of distances given by their squares. -/
noncomputable def rms (dist2 : V3 → ℝ) (points : List V3) : ℝ := Real.sqrt ((points.map dist2).sum / points.length)

/-- `w` is the normal of a plane that fits the points best: no plane has smaller root mean square distance. -/
def BestNormal (points : List V3) (w : V3) : Prop :=
  dot w w = 1 ∧ ∃ c, ∀ c' w', dot w' w' = 1 → rms (distPlane2 c w) points ≤ rms (distPlane2 c' w') points

/-- `l` lists all the points (by index), the nearest to the point `i` first. -/
def ByDistance (n : Nat) (point : Nat → V3) (i : Nat) (l : List Nat) : Prop :=
  l.Perm (List.range n) ∧ l.Pairwise (fun a b => distPoint2 (point i) (point a) ≤ distPoint2 (point i) (point b))

/-- `nn` are `k` points (by index) nearest to the point `i`. -/
structure Nearest (n : Nat) (point : Nat → V3) (i k : Nat) (nn : List Nat) : Prop where
  nodup : nn.Nodup
  count : nn.length = k
  range : ∀ j ∈ nn, j < n
  nearest : ∀ j ∈ nn, ∀ l < n, l ∉ nn → distPoint2 (point i) (point j) ≤ distPoint2 (point i) (point l)

end Verif.Plane.Spec
