import Verif.Spec.Graph
import Verif.Model.MeshDefects

/-! # Specification: links of vertices, intersecting pairs -/

namespace Verif.MeshDefects.Spec

open Verif Graph.Spec

/-- The three corners are distinct vertices. -/
def NonDegenerate (f : Face) : Prop := f.1 ≠ f.2.1 ∧ f.2.1 ≠ f.2.2 ∧ f.2.2 ≠ f.1

/-- The edge of the face opposite to the vertex `v`, oriented along the face. -/
def opposite (v : Nat) (f : Face) : Option (Nat × Nat) :=
  if f.1 = v then some (f.2.1, f.2.2) else if f.2.1 = v then some (f.2.2, f.1)
  else if f.2.2 = v then some (f.1, f.2.1) else none

/-- The link of a vertex: the edges opposite to it in the faces around it. -/
def link (faces : List Face) (v : Nat) : List (Nat × Nat) := faces.filterMap (opposite v)

/-- Some face has the vertex. -/
def Incident (faces : List Face) (v : Nat) : Prop := ∃ f ∈ faces, f.1 = v ∨ f.2.1 = v ∨ f.2.2 = v

/-- `x` is a vertex of the link. -/
def OnLink (es : List (Nat × Nat)) (x : Nat) : Prop := ∃ e ∈ es, e.1 = x ∨ e.2 = x

/-- A connected simple graph of maximum degree two, i.e. a single path or a single cycle. -/
def PathOrCycle (es : List (Nat × Nat)) : Prop :=
  Simple es ∧ (∀ x y, OnLink es x → OnLink es y → Reach es x y) ∧ ∀ x, degree es x ≤ 2

/-- `t` are the positions of the corners of face number `fi`. -/
def IsTriangle {R : Type} (vertices : List (Point R)) (faces : List Face) (fi : Nat)
    (t : Point R × Point R × Point R) : Prop :=
  ∃ f, faces[fi]? = some f ∧ vertices[f.1]? = some t.1 ∧ vertices[f.2.1]? = some t.2.1 ∧ vertices[f.2.2]? = some t.2.2

/-- Three different positions. -/
def DistinctCorners {R : Type} (t : Point R × Point R × Point R) : Prop :=
  t.1 ≠ t.2.1 ∧ t.2.1 ≠ t.2.2 ∧ t.2.2 ≠ t.1

/-- A schedule of a parallel loop over `0 .. n-1`: every iteration is executed exactly once, by some thread, in some
order. -/
def IsSchedule (n : Nat) (sched : List (List Nat)) : Prop := sched.flatten.Perm (List.range n)

end Verif.MeshDefects.Spec
