import Verif.Model.Refiner
import Verif.Spec.Snapper

/-!
# What refining the vertices of a mesh may do

Positions are a function of the vertex number.
-/

namespace Verif.Refiner.Spec

open Verif Verif.AbstractMesh Verif.Geometry
open Verif.Thinner (dotP crossP toE)
open Verif.Snapper.Spec (IsLinear)
open Verif.MeshDefects.Spec (DistinctCorners)

/-- The arguments the theorems are about: an oriented manifold mesh, a positive resolution, and a field with one value for every point. -/
structure Valid (I : Input) : Prop where
  corners : ∀ f ∈ I.faces, Nondeg f ∧ f.1 < I.vertices.length ∧ f.2.1 < I.vertices.length ∧ f.2.2 < I.vertices.length
  manifold : Manifold (fun i => I.faces[i]?)
  resolution : 0 < I.resolution
  transform : IsLinear I.T
  values : ∀ ps, (I.field ps).length = ps.length

/-- The position of a vertex. -/
noncomputable def pos (vs : List P3) (v : Nat) : P3 := vs.getD v 0

/-- The corners of a face, in space. -/
def corners (p : Nat → P3) (f : Face) : P3 × P3 × P3 := (p f.1, p f.2.1, p f.2.2)

/-- The normal of a triangle. -/
def normal (t : P3 × P3 × P3) : P3 := crossP (t.2.1 - t.1) (t.2.2 - t.1)

/-- Four corners of a cube around the origin that form a regular tetrahedron. -/
def tetrahedron (d : ℝ) : Nat → P3
  | 0 => (d, d, d)
  | 1 => (d, -d, -d)
  | 2 => (-d, d, -d)
  | _ => (-d, -d, d)

/-- The points at which the field is evaluated: four around every vertex, a thousandth of the resolution away in every coordinate. -/
def Sampling (I : Input) (ps : List P3) : Prop :=
  ps.length = 4 * I.vertices.length ∧
  ∀ v k, v < I.vertices.length → k < 4 → ps[4 * v + k]? = some (pos I.vertices v + tetrahedron (I.resolution / 1000) k)

/-- `c` and `g` are the value and the gradient of the affine function of the offset that takes the four values. -/
def Fits (d : ℝ) (vals : Nat → ℝ) (c : ℝ) (g : P3) : Prop := ∀ k, k < 4 → c + dotP g (tetrahedron d k) = vals k

/-- `step` is the Newton step for the zero of an affine function with the value `c` and the gradient `g`, shortened to half the resolution
(in the transformed frame) if it is longer. -/
def NewtonStep (I : Input) (c : ℝ) (g step : P3) : Prop :=
  ∃ t : ℝ, 0 ≤ t ∧ t ≤ 1 ∧ step = (t * (c / dotP g g)) • g ∧ ‖toE (I.T step)‖ ≤ I.resolution / 2 ∧
    (t < 1 → ‖toE (I.T step)‖ = I.resolution / 2)

/-- A coordinate after snapping to the sides of the box: a coordinate very near to a side is put on it
(if the box is not too thin). -/
def SnapsTo (tiny lo hi x y : ℝ) : Prop :=
  (|x - lo| < tiny → 2 * tiny ≤ |lo - hi| → y = lo) ∧ (|x - hi| < tiny → 2 * tiny ≤ |lo - hi| → y = hi) ∧ (tiny ≤ |x - lo| → tiny ≤ |x - hi| → y = x) ∧
  (y = x ∨ y = lo ∨ y = hi)

/-- A point after snapping. -/
def Snapped (I : Input) (x y : P3) : Prop :=
  SnapsTo (I.resolution / 10 ^ 10) I.lo.1 I.hi.1 x.1 y.1 ∧ SnapsTo (I.resolution / 10 ^ 10) I.lo.2.1 I.hi.2.1 x.2.1 y.2.1 ∧
  SnapsTo (I.resolution / 10 ^ 10) I.lo.2.2 I.hi.2.2 x.2.2 y.2.2

/-- The affine function (of the offset from the vertex) with the values of the field minus the isovalue at the points around the vertex. -/
def FitAt (I : Input) (v : Nat) (c : ℝ) (g : P3) : Prop :=
  ∃ ps, Sampling I ps ∧ Fits (I.resolution / 1000) (fun k => (I.field ps).getD (4 * v + k) 0 - I.isovalue) c g

/-- The place the vertex should move to. -/
def Goal (I : Input) (v : Nat) (q : P3) : Prop :=
  ∃ c g step, FitAt I v c g ∧ g ≠ 0 ∧ NewtonStep I c g step ∧ Snapped I (pos I.vertices v - step) q

/-- The positions after moving the vertex `v` to `q`. -/
def moveTo (p : Nat → P3) (v : Nat) (q : P3) : Nat → P3 := Function.update p v q

/-- The mesh allows the move: no face at `v` turns over or degenerates, and no face at `v` crosses another face afterwards. -/
structure Admissible (I : Input) (p : Nat → P3) (v : Nat) (q : P3) : Prop where
  upright : ∀ f ∈ I.faces, Corner f v → 0 < dotP (normal (corners p f)) (normal (corners (moveTo p v q) f))
  clear : ∀ (i j : Nat) (f g : Face), i ≠ j → I.faces[i]? = some f → I.faces[j]? = some g → Corner f v →
    DistinctCorners (corners p g) → ¬ Cross (corners (moveTo p v q) f) (corners (moveTo p v q) g)

/-- A reason for rejecting the move: a face at `v` would turn over or degenerate, or a face at `v` would be reported to intersect another
face. -/
def Objection (I : Input) (p : Nat → P3) (v : Nat) (q : P3) : Prop :=
  (∃ f ∈ I.faces, Corner f v ∧ dotP (normal (corners p f)) (normal (corners (moveTo p v q) f)) ≤ 0) ∨
  ∃ (i j : Nat) (f g : Face), i ≠ j ∧ I.faces[i]? = some f ∧ I.faces[j]? = some g ∧ Corner f v ∧
    MeshDefects.trianglesIntersect (Predicates.narrow Predicates.kTinyFactor) (corners (moveTo p v q) f) (corners (moveTo p v q) g) = .ok true

/-- What happens to the vertex `v`. -/
inductive Step (I : Input) (v : Nat) (p : Nat → P3) : (Nat → P3) → Prop where
  /-- the field is flat around it -/
  | flat (c : ℝ) : FitAt I v c 0 → Step I v p p
  /-- it does not move -/
  | rejected (q : P3) : Goal I v q → Objection I p v q → Step I v p p
  /-- it moves -/
  | moved (q : P3) : Goal I v q → Admissible I p v q → Step I v p (moveTo p v q)

end Verif.Refiner.Spec
