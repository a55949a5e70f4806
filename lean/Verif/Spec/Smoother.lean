import Verif.Spec.Thinner
import Verif.Model.Smoother
import Mathlib.Geometry.Euclidean.Angle.Unoriented.Basic

/-!
# What smoothing a snapped mesh may do

A mesh is a partial map from face numbers to faces.
-/

namespace Verif.Smoother.Spec

open Verif Verif.AbstractMesh Verif.Thinner Verif.Thinner.Spec Verif.Geometry

open Classical in
/-- The angle between the normals of two triangles in the transformed frame; a degenerate triangle counts as folded back. -/
noncomputable def bend (T : P3 → P3) (s t : P3 × P3 × P3) : ℝ :=
  if normal T s = 0 ∨ normal T t = 0 then 3.141592653589793
  else InnerProductGeometry.angle (toE (normal T s)) (toE (normal T t))

open Classical in
/-- The bend at the edge between the face with the side `u -> v` and the face with the side `v -> u`; zero if there are not both. -/
noncomputable def edgeBend (I : Input) (F : Nat → Option Face) (u v : Nat) : ℝ :=
  if h : ∃ p : Face × Face, (∃ i, F i = some p.1 ∧ Side p.1 u v) ∧ ∃ j, F j = some p.2 ∧ Side p.2 v u then
    bend I.T (tri I.vertices h.choose.1) (tri I.vertices h.choose.2)
  else 0

/-- The sum over all edges (every edge appears with both directions, so it is halved). -/
noncomputable def totalBend (I : Input) (F : Nat → Option Face) : ℝ :=
  (∑ u ∈ Finset.range I.vertices.length, ∑ v ∈ Finset.range I.vertices.length, edgeBend I F u v) / 2

/-- The edge `x y` between two faces was replaced by the edge between their other corners `c` and `d`, and all guarantees were kept. -/
structure Flipped (I : Input) (F F' : Nat → Option Face) (fi fj x y c d : Nat) : Prop where
  /-- the two faces -/
  left : ∃ f, F fi = some f ∧ Side f x y ∧ Side f y c ∧ Side f c x
  right : ∃ f, F fj = some f ∧ Side f y x ∧ Side f x d ∧ Side f d y
  /-- are replaced -/
  left' : F' fi = some (c, x, d)
  right' : F' fj = some (d, y, c)
  /-- and no other -/
  others : ∀ i, i ≠ fi → i ≠ fj → F' i = F i
  /-- the new edge is new -/
  fresh : c ≠ d ∧ ¬ Thinner.Spec.Adjacent F c d
  /-- the mesh is still an oriented manifold -/
  manifold : Manifold F'
  /-- the surface is flatter -/
  flatter : totalBend I F' < totalBend I F - 1 / 1000000
  /-- the new edge is not longer than 1.3 times the resolution or the old edge -/
  short : ‖toE (I.T (pos I.vertices c)) - toE (I.T (pos I.vertices d))‖ ≤
    max ‖toE (I.T (pos I.vertices x)) - toE (I.T (pos I.vertices y))‖ (1.3 * I.resolution)
  /-- every snap point near the surface stays near the surface -/
  honored : ∀ i q tol, I.points[i]? = some q → HasTolerance I i tol →
    (∃ j f, F j = some f ∧ Honors I.T (tri I.vertices f) q tol) → ∃ j f, F' j = some f ∧ Honors I.T (tri I.vertices f) q tol
  /-- two faces that cross afterwards crossed before, or are the two new ones -/
  crossing : ∀ i j f g, i ≠ j → F' i = some f → F' j = some g → Cross (tri I.vertices f) (tri I.vertices g) →
    (F i = some f ∧ F j = some g) ∨ (i = fi ∧ j = fj) ∨ (i = fj ∧ j = fi)

/-- The mesh with the edge `x y` of the faces `fi` and `fj` flipped. -/
def flipped (F : Nat → Option Face) (fi fj x y c d : Nat) : Nat → Option Face :=
  fun i => if i = fi then some (c, x, d) else if i = fj then some (d, y, c) else F i

/-- What is checked before the edge `x y` is flipped. -/
structure Allowed (I : Input) (F : Nat → Option Face) (fi fj x y c d : Nat) : Prop where
  /-- the two faces at the edge -/
  left : ∃ f, F fi = some f ∧ Side f x y ∧ Side f y c ∧ Side f c x
  right : ∃ f, F fj = some f ∧ Side f y x ∧ Side f x d ∧ Side f d y
  /-- the new edge is new -/
  fresh : c ≠ d ∧ ¬ Thinner.Spec.Adjacent F c d
  /-- the surface gets flatter -/
  flatter : totalBend I (flipped F fi fj x y c d) < totalBend I F - 1 / 1000000
  /-- the new edge is not longer than 1.3 times the resolution or the old edge -/
  short : ‖toE (I.T (pos I.vertices c)) - toE (I.T (pos I.vertices d))‖ ≤
    max ‖toE (I.T (pos I.vertices x)) - toE (I.T (pos I.vertices y))‖ (1.3 * I.resolution)
  /-- a snap point near one of the two faces is near a new face or a face across one of the other four edges -/
  honored : ∀ i q tol, I.points[i]? = some q → HasTolerance I i tol →
    (∃ f, (F fi = some f ∨ F fj = some f) ∧ Honors I.T (tri I.vertices f) q tol) →
    ∃ f, (f = (c, x, d) ∨ f = (d, y, c) ∨ ∃ j, F j = some f ∧ (Side f x c ∨ Side f c y ∨ Side f d x ∨ Side f y d)) ∧
      Honors I.T (tri I.vertices f) q tol
  /-- no new face is reported to intersect another face -/
  clear : ∀ f j g, f = (c, x, d) ∨ f = (d, y, c) → F j = some g → j ≠ fi → j ≠ fj →
    MeshDefects.trianglesIntersect (Predicates.narrow Predicates.kTinyFactor) (tri I.vertices f) (tri I.vertices g) ≠ .ok true

/-- The two faces at the edge `x y` and the faces across their other four edges are the same. -/
structure SameAround (F F' : Nat → Option Face) (fi fj x y c d : Nat) : Prop where
  left : F' fi = F fi
  right : F' fj = F fj
  outer : ∀ i f, Side f x c ∨ Side f c y ∨ Side f d x ∨ Side f y d → (F i = some f ↔ F' i = some f)

/-- A sequence of `n` flips. -/
inductive Flips (I : Input) : Nat → (Nat → Option Face) → (Nat → Option Face) → Prop where
  | refl (F) : Flips I 0 F F
  | step {n F F' F'' fi fj x y c d} : Flips I n F F' → Flipped I F' F'' fi fj x y c d → Flips I (n + 1) F F''

/-- The edge `x y` could not be flipped in one of the meshes in the sequence, and its surroundings have not changed since. -/
def Settled (I : Input) (F₀ F : Nat → Option Face) (fi fj x y c d : Nat) : Prop :=
  ∃ n k F₁, Flips I n F₀ F₁ ∧ Flips I k F₁ F ∧ SameAround F₁ F fi fj x y c d ∧ ¬ Allowed I F₁ fi fj x y c d

/-- `x y` is the edge between the faces `fi` and `fj`, whose other corners are `c` and `d`. -/
def Between (F : Nat → Option Face) (fi fj x y c d : Nat) : Prop :=
  (∃ f, F fi = some f ∧ Side f x y ∧ Side f y c ∧ Side f c x) ∧ ∃ f, F fj = some f ∧ Side f y x ∧ Side f x d ∧ Side f d y

/-- An entry with the greatest key is taken out of the queue. -/
structure IsPop (pop : Pop) : Prop where
  empty : pop [] = none
  greatest : ∀ q, q ≠ [] → ∃ e rest, pop q = some (e, rest) ∧ q.Perm (e :: rest) ∧ ∀ e' ∈ q, e'.improve ≤ e.improve

end Verif.Smoother.Spec
