import Verif.Model.Clusterer
import Verif.Spec.Refiner
import Mathlib.Algebra.BigOperators.Group.Finset.Basic

/-!
# What merging the vertices of each lattice node may do
-/

namespace Verif.Clusterer.Spec

open Verif Verif.AbstractMesh Verif.Geometry
open Verif.PrimLattice (Prim)
open Verif.Thinner (dotP crossP)
open Verif.Refiner.Spec (SnapsTo)
open Verif.Snapper.Spec (IsLinear sides net)
open Verif.MeshDefects.Spec (DistinctCorners PathOrCycle link Incident IsSchedule)

/-- The position of a vertex. -/
noncomputable def pos (vs : List P3) (v : Nat) : P3 := vs.getD v 0

/-- The corners of a face, in space. -/
noncomputable def corners (vs : List P3) (f : Face) : P3 × P3 × P3 := (pos vs f.1, pos vs f.2.1, pos vs f.2.2)

/-- The arguments the theorems are about: the faces refer to vertices, in three different places each, and the lattice and the resolution are
proper. -/
structure Valid (I : Input) : Prop where
  corners : ∀ f ∈ I.faces, f.1 < I.vertices.length ∧ f.2.1 < I.vertices.length ∧ f.2.2 < I.vertices.length
  distinct : ∀ f ∈ I.faces, DistinctCorners (Spec.corners I.vertices f)
  lattice : I.L.det ≠ 0
  resolution : 0 < I.resolution
  threadsV : ∀ r n, IsSchedule n (I.schedV r n)
  threadsF : ∀ r n, IsSchedule n (I.schedF r n)
  order : ∀ l x, x ∈ I.ord l ↔ x ∈ l

/-- Two vertices are joined: a side of a face, both ends of which are nearest to the same node. -/
def Link (I : Input) (u v : Nat) : Prop := (u, v) ∈ sides I.faces ∧ I.L.rounded (pos I.vertices u) = I.L.rounded (pos I.vertices v)

/-- The vertices that would be merged into one: all vertices that are connected by such sides, at least two, and their node is strictly inside the
extended box.  They are listed in ascending order. -/
structure Candidate (I : Input) (c : List Nat) : Prop where
  ascending : c.Pairwise (· < ·)
  two : 2 ≤ c.length
  bound : ∀ v ∈ c, v < I.vertices.length
  connected : ∀ u ∈ c, ∀ v, v < I.vertices.length → (v ∈ c ↔ Relation.EqvGen (Link I) u v)
  inside : ∀ v ∈ c, let p := I.L.position (I.L.rounded (pos I.vertices v)); let lo := I.L.extLo 1; let hi := I.L.extHi 1
    (lo.1 < p.1 ∧ p.1 < hi.1) ∧ (lo.2.1 < p.2.1 ∧ p.2.1 < hi.2.1) ∧ (lo.2.2 < p.2.2 ∧ p.2.2 < hi.2.2)

/-- Merging every list of `K` into one vertex: `num` is the new number of a vertex.  The place of a merged vertex is `place` of its list. -/
structure Numbering (I : Input) (K : List Nat → Prop) (place : List Nat → P3) (num : Nat → Nat) (vs : List P3) : Prop where
  same : ∀ u v, Incident I.faces u → Incident I.faces v → (num u = num v ↔ u = v ∨ ∃ c, K c ∧ u ∈ c ∧ v ∈ c)
  bound : ∀ v, Incident I.faces v → num v < vs.length
  onto : ∀ n, n < vs.length → ∃ v, Incident I.faces v ∧ num v = n
  kept : ∀ v, Incident I.faces v → (∀ c, K c → v ∉ c) → pos vs (num v) = pos I.vertices v
  merged : ∀ c v, K c → v ∈ c → pos vs (num v) = place c

/-- Renaming the corners of a face. -/
def rename (num : Nat → Nat) (f : Face) : Face := (num f.1, num f.2.1, num f.2.2)

/-- The faces after renaming, without those that have lost a corner. -/
def renamed (num : Nat → Nat) (fs : List Face) : List Face := (fs.map (rename num)).filter fun f => f.1 ≠ f.2.1 ∧ f.2.1 ≠ f.2.2 ∧ f.2.2 ≠ f.1

/-- The number of faces with an edge, in whichever direction. -/
def edgeCount (fs : List Face) (u v : Nat) : Nat := (sides fs).countP fun e => e = (u, v) ∨ e = (v, u)

/-- Two faces are the same triangle seen from its two sides. -/
def Opposite (f g : Face) : Prop := g = (f.1, f.2.2, f.2.1) ∨ g = (f.2.2, f.2.1, f.1) ∨ g = (f.2.1, f.1, f.2.2)

/-- The number of faces with the corners of `f`, in whichever order. -/
def coincident (fs : List Face) (f : Face) : Nat := fs.countP fun g => [f.1, f.2.1, f.2.2].Perm [g.1, g.2.1, g.2.2]

/-- The face is one of a pair that lies back to back and is dropped: there is its opposite, there is no third face with these corners, and each
of the three edges has two or four faces. -/
def Folded (fs : List Face) (f : Face) : Prop :=
  (∃ g ∈ fs, Opposite f g) ∧ coincident fs f = 2 ∧
    ∀ u v, (u, v) ∈ sides [f] → edgeCount fs u v = 2 ∨ edgeCount fs u v = 4

/-- The mesh that results from merging the lists of `K`. -/
structure Quotient (I : Input) (K : List Nat → Prop) (place : List Nat → P3) (num : Nat → Nat) (out : Out) : Prop where
  numbering : Numbering I K place num out.vertices
  faces : ∃ p : Face → Bool, (∀ f, p f = true ↔ ¬ Folded (renamed num I.faces) f) ∧ out.faces = (renamed num I.faces).filter p

/-- The two triangles cross according to the code's test (C55 relates it to points in common). -/
def Meet (s t : P3 × P3 × P3) : Prop := MeshDefects.trianglesIntersect (Predicates.narrow Predicates.kTinyFactor) s t = .ok true

/-- The face crosses another one; the one that comes first in the list is the first argument of the test. -/
def Intersecting (vs : List P3) (fs : List Face) (f : Face) : Prop :=
  ∃ (i j : Nat) (g : Face), i ≠ j ∧ fs[i]? = some f ∧ fs[j]? = some g ∧
    (if i < j then Meet (corners vs f) (corners vs g) else Meet (corners vs g) (corners vs f))

/-- The vertex has a defect: the faces around it are not a fan, or it is a corner of a face that intersects another one. -/
def Flagged (out : Out) (a : Nat) : Prop :=
  (Incident out.faces a ∧ ¬ PathOrCycle (link out.faces a)) ∨ ∃ f ∈ out.faces, Corner f a ∧ Intersecting out.vertices out.faces f

/-- The vertex is a merged one, of the list `c`. -/
def IsMerged (K : List Nat → Prop) (num : Nat → Nat) (c : List Nat) (a : Nat) : Prop := K c ∧ ∃ v ∈ c, num v = a

/-- Two vertices share a face. -/
def Neighbors (fs : List Face) (a b : Nat) : Prop := a ≠ b ∧ ∃ f ∈ fs, Corner f a ∧ Corner f b

/-- The list that is to blame for a defect of the vertex `a`: its own if it is a merged vertex, otherwise every one whose merged vertex shares a
face with it. -/
def Blamed (K : List Nat → Prop) (num : Nat → Nat) (out : Out) (a : Nat) (c : List Nat) : Prop :=
  IsMerged K num c a ∨ ((∀ c', ¬ IsMerged K num c' a) ∧ ∃ b, IsMerged K num c b ∧ Neighbors out.faces a b)

/-- The rounds: start with merging the lists of `K`; as long as a list is to blame for a defect, undo all the merges to blame and start again.  The last
round merges `K'` and gives `out`. -/
inductive Rounds (I : Input) (place : List Nat → P3) : (List Nat → Prop) → Out → (List Nat → Prop) → Prop
  | done {K : List Nat → Prop} {num : Nat → Nat} {out : Out} : Quotient I K place num out → (∀ a c, Flagged out a → ¬ Blamed K num out a c) →
      Rounds I place K out K
  | undo {K K₁ K' : List Nat → Prop} {num : Nat → Nat} {tried out : Out} : Quotient I K place num tried → (∃ a c, Flagged tried a ∧ Blamed K num tried a c) →
      (∀ c, K₁ c ↔ K c ∧ ¬ ∃ a, Flagged tried a ∧ Blamed K num tried a c) → Rounds I place K₁ out K' → Rounds I place K out K'

/-! ## The place of a merged vertex -/

/-- Twice the area of a triangle times the squared distance of a point to its plane. -/
noncomputable def planeEnergy (t : P3 × P3 × P3) (x : P3) : ℝ :=
  let n := crossP (t.2.1 - t.1) (t.2.2 - t.1)
  dotP n (x - t.1) ^ 2 / √(dotP n n)

/-- The sum over triangles, in the transformed frame. -/
noncomputable def energy (T : P3 → P3) (ts : List (P3 × P3 × P3)) (x : P3) : ℝ := (ts.map fun t => planeEnergy (T t.1, T t.2.1, T t.2.2) x).sum

/-- What the eigenvalue solver promises for a symmetric matrix: ascending eigenvalues, orthonormal eigenvectors. -/
structure IsEigen (a : M3) (r : (Nat → ℝ) × (Nat → P3)) : Prop where
  ascending : r.1 0 ≤ r.1 1 ∧ r.1 1 ≤ r.1 2
  eigen : ∀ k < 3, vecMul (r.2 k) a = r.1 k • r.2 k
  orthonormal : ∀ j < 3, ∀ k < 3, dotP (r.2 j) (r.2 k) = if j = k then 1 else 0

/-- The matrix is symmetric. -/
def Symmetric (a : M3) : Prop := a.1.2.1 = a.2.1.1 ∧ a.1.2.2 = a.2.2.1 ∧ a.2.1.2.2 = a.2.2.2.1

/-- Snapping to the sides of the box. -/
def Snapped (I : Input) (x y : P3) : Prop :=
  SnapsTo (I.resolution / 10 ^ 10) I.L.lo.1 I.L.hi.1 x.1 y.1 ∧ SnapsTo (I.resolution / 10 ^ 10) I.L.lo.2.1 I.L.hi.2.1 x.2.1 y.2.1 ∧
    SnapsTo (I.resolution / 10 ^ 10) I.L.lo.2.2 I.L.hi.2.2 x.2.2 y.2.2

/-- The cells of the lattice are much larger than the distance of snapping: a point well inside of a cell stays in the cell. -/
def SnapSafe (I : Input) : Prop := ∀ p lc q, Snapped I (I.L.clampToNode p lc) q → I.L.rounded q = lc

/-- Where the vertices `c` are merged, in the transformed frame: `lam` and `e` are the principal values and directions of the energy of the planes of
the faces around them.  If at most one direction matters, at the centroid; otherwise at the place of least energy that is reached from the
centroid in the directions that matter. -/
def IsFit (I : Input) (c : List Nat) (x : P3) : Prop :=
  ∃ (lam : Nat → ℝ) (e : Nat → P3) (mean : P3),
    (c.length : ℝ) • mean = (c.map fun v => I.T (pos I.vertices v)).sum ∧
    (∀ j < 3, ∀ k < 3, dotP (e j) (e k) = if j = k then 1 else 0) ∧ lam 0 ≤ lam 1 ∧ lam 1 ≤ lam 2 ∧
    (let ts := (I.faces.filter fun f => f.1 ∈ c ∨ f.2.1 ∈ c ∨ f.2.2 ∈ c).map (corners I.vertices)
     (∀ y h, (energy I.T ts (y + h) + energy I.T ts (y - h)) / 2 - energy I.T ts y = lam 0 * dotP h (e 0) ^ 2 + lam 1 * dotP h (e 1) ^ 2 + lam 2 * dotP h (e 2) ^ 2) ∧
     (lam 1 ≤ lam 2 / 1000 → x = mean) ∧
     (lam 2 / 1000 < lam 1 → (∀ k < 3, lam k ≤ lam 2 / 1000 → dotP (x - mean) (e k) = 0) ∧
       ∀ z, (∀ k < 3, lam k ≤ lam 2 / 1000 → dotP (z - mean) (e k) = 0) → energy I.T ts x ≤ energy I.T ts z))

/-- Where the vertices `c` are merged: at the fitted place, or the nearest one (in lattice coordinates) that is safely nearest to their node, snapped
to the box. -/
def IsPlace (I : Input) (c : List Nat) (p : P3) : Prop :=
  ∃ x, IsFit I c x ∧ ∀ v ∈ c, Snapped I (I.L.clampToNode (I.Tinv x) (I.L.rounded (pos I.vertices v))) p

end Verif.Clusterer.Spec
