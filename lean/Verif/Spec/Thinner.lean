import Verif.Model.Thinner
import Verif.Spec.AbstractMesh
import Verif.Spec.Geometry
import Verif.Model.Predicates
import Mathlib.Topology.MetricSpace.HausdorffDistance

/-!
# What thinning a snapped mesh may do

A mesh is a partial map from face numbers to faces.
-/

namespace Verif.Thinner.Spec

open Verif Verif.AbstractMesh Verif.Thinner Verif.Geometry

/-- The arguments the theorems are about: an oriented manifold mesh whose vertices are in different places, tolerances that are
non-negative (none given means zero), a positive resolution and an invertible transformation. -/
structure Valid (I : Input) : Prop where
  corners : ∀ f ∈ I.faces, Nondeg f ∧ f.1 < I.vertices.length ∧ f.2.1 < I.vertices.length ∧ f.2.2 < I.vertices.length
  manifold : Manifold (fun i => I.faces[i]?)
  positions : I.vertices.Nodup
  tolerances : I.tolerances = [] ∨ I.tolerances.length = I.points.length
  nonneg : ∀ t ∈ I.tolerances, 0 ≤ t
  resolution : 0 < I.resolution
  transform : Function.Injective I.T

/-- The position of a vertex. -/
noncomputable def pos (vs : List P3) (v : Nat) : P3 := vs.getD v 0

/-- The corners of a face, in space. -/
noncomputable def tri (vs : List P3) (f : Face) : P3 × P3 × P3 := (pos vs f.1, pos vs f.2.1, pos vs f.2.2)

/-- The transformed triangle, with its interior. -/
noncomputable def surface (T : P3 → P3) (t : P3 × P3 × P3) : Set E3 := convexHull ℝ {toE (T t.1), toE (T t.2.1), toE (T t.2.2)}

/-- The snap point `q` is within the distance `tol` of the triangle, in the transformed frame. -/
def Honors (T : P3 → P3) (t : P3 × P3 × P3) (q : P3) (tol : ℝ) : Prop := Metric.infDist (toE (T q)) (surface T t) ≤ tol

/-- The vertex is in the place of a snap point. -/
def IsSnapped (I : Input) (v : Nat) : Prop := pos I.vertices v ∈ I.points

/-- The tolerance of a snap point. -/
def HasTolerance (I : Input) (i : Nat) (tol : ℝ) : Prop := if I.tolerances = [] then tol = 0 else I.tolerances[i]? = some tol

/-- Two vertices of a face. -/
def Adjacent (F : Nat → Option Face) (u v : Nat) : Prop := ∃ i f, F i = some f ∧ Corner f u ∧ Corner f v ∧ u ≠ v

/-- `u -> v` is a side of a face, and `v -> u` is not: a directed edge of the boundary. -/
def BoundaryEdge (F : Nat → Option Face) (u v : Nat) : Prop :=
  (∃ i f, F i = some f ∧ Side f u v) ∧ ∀ i f, F i = some f → ¬ Side f v u

/-- A directed segment in space that is a boundary edge of the mesh. -/
def BoundarySegment (vs : List P3) (fs : List Face) (p q : P3) : Prop :=
  ∃ u v, BoundaryEdge (fun i => fs[i]?) u v ∧ pos vs u = p ∧ pos vs v = q

/-- The normal of a triangle in the transformed frame (twice its area long). -/
noncomputable def normal (T : P3 → P3) (t : P3 × P3 × P3) : P3 := crossP (T t.2.1 - T t.1) (T t.2.2 - T t.1)

/-- Vertex `a` was merged into its neighbour `b`, and all guarantees were kept. -/
structure Collapse (I : Input) (F F' : Nat → Option Face) (a b : Nat) : Prop where
  /-- both are snap points -/
  snapped : IsSnapped I a ∧ IsSnapped I b
  /-- they are the ends of an edge of the mesh -/
  edge : Adjacent F a b
  /-- the faces with both are gone, the others have `b` in place of `a` -/
  faces : ∀ i, F' i = merged F a b i
  /-- it is still an oriented manifold -/
  manifold : Manifold F'
  /-- `a` was not on the boundary -/
  interior : ∀ u, ¬ BoundaryEdge F a u ∧ ¬ BoundaryEdge F u a
  /-- a common neighbour of `a` and `b` is the third corner of a face on the edge -/
  link : ∀ u, Adjacent F u a → Adjacent F u b → ∃ i f, F i = some f ∧ Corner f u ∧ Corner f a ∧ Corner f b
  /-- at least one face at `a` stays -/
  remains : ∃ i f, F i = some f ∧ Corner f a ∧ ¬ Corner f b
  /-- the faces that stay do not flip -/
  unflipped : ∀ i f f', F i = some f → Corner f a → F' i = some f' →
    0 ≤ dotP (normal I.T (tri I.vertices f')) (normal I.T (tri I.vertices f))
  /-- no new edge is longer than 1.3 times the resolution -/
  short : ∀ u, Adjacent F u a → ¬ Adjacent F u b → u ≠ b →
    ‖toE (I.T (pos I.vertices b)) - toE (I.T (pos I.vertices u))‖ ≤ 1.3 * I.resolution
  /-- every snap point near the surface stays near the surface -/
  honored : ∀ i q tol, I.points[i]? = some q → HasTolerance I i tol →
    (∃ j f, F j = some f ∧ Honors I.T (tri I.vertices f) q tol) → ∃ j f, F' j = some f ∧ Honors I.T (tri I.vertices f) q tol
  /-- two faces that cross afterwards crossed before, or both were retargeted -/
  crossing : ∀ i j f g, i ≠ j → F' i = some f → F' j = some g → Cross (tri I.vertices f) (tri I.vertices g) →
    (F i = some f ∧ F j = some g) ∨ ((∃ f₀, F i = some f₀ ∧ Corner f₀ a) ∧ ∃ g₀, F j = some g₀ ∧ Corner g₀ a)

/-- What is checked before `a` is merged into `b`. -/
structure Safe (I : Input) (F : Nat → Option Face) (a b : Nat) : Prop where
  /-- both are snap points -/
  snapped : IsSnapped I a ∧ IsSnapped I b
  /-- they are the ends of an edge of the mesh -/
  edge : Adjacent F a b
  /-- at least three faces have the corner `a` -/
  star : ∃ i j k f g h, i ≠ j ∧ j ≠ k ∧ i ≠ k ∧ F i = some f ∧ F j = some g ∧ F k = some h ∧ Corner f a ∧ Corner g a ∧ Corner h a
  /-- `a` is not on the boundary -/
  interior : ∀ u, ¬ BoundaryEdge F a u ∧ ¬ BoundaryEdge F u a
  /-- a common neighbour of `a` and `b` is the third corner of a face on the edge -/
  link : ∀ u, Adjacent F u a → Adjacent F u b → ∃ i f, F i = some f ∧ Corner f u ∧ Corner f a ∧ Corner f b
  /-- a face at `a` stays -/
  remains : ∃ i f, F i = some f ∧ Corner f a ∧ ¬ Corner f b
  /-- the faces that stay do not flip -/
  unflipped : ∀ i f f', F i = some f → Corner f a → merged F a b i = some f' →
    0 ≤ dotP (normal I.T (tri I.vertices f')) (normal I.T (tri I.vertices f))
  /-- no new edge is longer than 1.3 times the resolution -/
  short : ∀ u, Adjacent F u a → ¬ Adjacent F u b → u ≠ b →
    ‖toE (I.T (pos I.vertices b)) - toE (I.T (pos I.vertices u))‖ ≤ 1.3 * I.resolution
  /-- a snap point near a face at `a` is near a face, afterwards, that was retargeted or has a corner of one that was -/
  honored : ∀ i q tol, I.points[i]? = some q → HasTolerance I i tol →
    (∃ j f, F j = some f ∧ Corner f a ∧ Honors I.T (tri I.vertices f) q tol) →
    ∃ j f k g g' v, merged F a b j = some f ∧ Honors I.T (tri I.vertices f) q tol ∧
      F k = some g ∧ Corner g a ∧ merged F a b k = some g' ∧ Corner g' v ∧ Corner f v
  /-- no retargeted face is reported to intersect a face that is not at `a` -/
  clear : ∀ i f f' j g, F i = some f → Corner f a → merged F a b i = some f' → F j = some g → ¬ Corner g a →
    MeshDefects.trianglesIntersect (Predicates.narrow Predicates.kTinyFactor) (tri I.vertices f') (tri I.vertices g) ≠ .ok true

/-- A sequence of collapses. -/
inductive Collapses (I : Input) : (Nat → Option Face) → (Nat → Option Face) → Prop where
  | refl (F) : Collapses I F F
  | step {F F' F'' a b} : Collapses I F F' → Collapse I F' F'' a b → Collapses I F F''

end Verif.Thinner.Spec
