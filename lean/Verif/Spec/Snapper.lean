import Verif.Spec.Thinner
import Verif.Spec.MeshDefects

/-!
# What snapping a mesh to points may do
-/

namespace Verif.Snapper.Spec

open Verif Verif.AbstractMesh Verif.Geometry
open Verif.Thinner (Input dotP toE)
open Verif.Thinner.Spec (pos tri normal)
open Verif.MeshDefects.Spec (DistinctCorners)

/-- The transformation is a matrix. -/
def IsLinear (T : P3 → P3) : Prop := ∃ A : P3 →ₗ[ℝ] P3, ∀ x, T x = A x

/-- The arguments the theorems are about: an oriented manifold mesh, tolerances that are non-negative (none given means zero) and a positive
resolution. -/
structure Valid (I : Input) : Prop where
  corners : ∀ f ∈ I.faces, Nondeg f ∧ f.1 < I.vertices.length ∧ f.2.1 < I.vertices.length ∧ f.2.2 < I.vertices.length
  manifold : Manifold (fun i => I.faces[i]?)
  tolerances : I.tolerances = [] ∨ I.tolerances.length = I.points.length
  nonneg : ∀ t ∈ I.tolerances, 0 ≤ t
  resolution : 0 < I.resolution
  transform : IsLinear I.T

/-- No two faces (with three different corners each) meet except in a common corner or edge. -/
def Embedded (vs : List P3) (fs : List Face) : Prop :=
  ∀ (i j : Nat) (f g : Face), i ≠ j → fs[i]? = some f → fs[j]? = some g → DistinctCorners (tri vs f) → DistinctCorners (tri vs g) →
    ¬ Cross (tri vs f) (tri vs g)

/-- The directed sides of the faces, with repetitions. -/
def sides (fs : List Face) : List (Nat × Nat) := fs.flatMap fun f => [(f.1, f.2.1), (f.2.1, f.2.2), (f.2.2, f.1)]

/-- How many more faces have the side `u -> v` than `v -> u`. -/
def net (fs : List Face) (u v : Nat) : ℤ := ((sides fs).count (u, v) : ℤ) - ((sides fs).count (v, u) : ℤ)

/-- The same for the vertices that there are. -/
def netOf (fs : List Face) : Option Nat → Option Nat → ℤ
  | some u, some v => net fs u v
  | _, _ => 0

/-- The distance of a snap point to a triangle, in the transformed frame. -/
noncomputable def distTo (T : P3 → P3) (t : P3 × P3 × P3) (q : P3) : ℝ := Metric.infDist (toE (T q)) (Thinner.Spec.surface T t)

/-- The first two corners are in different places (a condition of the distance computation). -/
def Proper (T : P3 → P3) (t : P3 × P3 × P3) : Prop := T t.1 ≠ T t.2.1

end Verif.Snapper.Spec
