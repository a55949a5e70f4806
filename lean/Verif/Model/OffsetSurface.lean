import Verif.Model.SdfData
import Verif.Model.InequalityFitter
import Mathlib.LinearAlgebra.CrossProduct

/-!
# examples/offset_surface/main.cpp

Exact arithmetic.  The tree of libigl and its barycentric coordinates are parameters: what the tree reports for a point is a `Hit`.  Reading the table and
the mesh, the model and the generation of the surface are those of the other modules.
-/

namespace Verif.OffsetSurface

open Verif Verif.Normals

/-- `main.cpp:158-164` - the vertices and faces -/
structure Mesh where
  vertices : List V3
  faces : List (Nat × Nat × Nat)

/-- `main.cpp:35` - `Halfedge` -/
abbrev Halfedge := Nat × Nat

/-- `main.cpp:51-54` - the halfedges of a face in the order of the loop -/
def halfedges (f : Nat × Nat × Nat) : List Halfedge := [(f.1, f.2.1), (f.2.1, f.2.2), (f.2.2, f.1)]

/-- `main.cpp:53-61` - one pass of the loop; the hash set `boundary_` is a list without repetitions -/
def toggle (b : List Halfedge) (he : Halfedge) : List Halfedge :=
  if he.swap ∈ b then b.erase he.swap
  else if he ∈ b then b else he :: b

/-- `main.cpp:51-63` - `boundary_` -/
def boundary (faces : List (Nat × Nat × Nat)) : List Halfedge := (faces.flatMap halfedges).foldl toggle []

/-- `main.cpp:65-68` - `boundary_vertices_` -/
def boundaryVertices (faces : List (Nat × Nat × Nat)) : List Nat := (boundary faces).flatMap fun he => [he.1, he.2]

/-- `main.cpp:78-80, 87-88` - what the tree and `igl::barycentric_coordinates` answer: the number of a face, the closest point, the squared distance, the coordinates
of the closest point in the face -/
structure Hit where
  fi : Nat
  closest : V3
  d2 : ℝ
  l : Fin 3 → ℝ

/-- The vertex number `v`.  (`vertices_.row(v)` is read for numbers that the mesh file gives; libigl has checked nothing.) -/
def Mesh.at (m : Mesh) (v : Nat) : V3 := m.vertices.getD v 0

/-- The corners of face number `fi`. -/
def Mesh.face (m : Mesh) (fi : Nat) : Nat × Nat × Nat := m.faces.getD fi (0, 0, 0)

/-- `f(i)` -/
def corner (f : Nat × Nat × Nat) (i : Fin 3) : Nat := ![f.1, f.2.1, f.2.2] i

open Classical in
/-- `main.cpp:90-104` - is the closest point on the border of the mesh? -/
noncomputable def onBoundary (m : Mesh) (h : Hit) : Bool :=
  let f := m.face h.fi
  decide (∃ i : Fin 3,
    (|h.l (i + 2)| < 1e-10 ∧ (corner f i, corner f (i + 1)) ∈ boundary m.faces) ∨
    (|1 - h.l i| < 1e-10 ∧ corner f i ∈ boundaryVertices m.faces))

/-- `main.cpp:106` - the normal of a face -/
noncomputable def Mesh.normal (m : Mesh) (fi : Nat) : V3 :=
  let f := m.face fi
  Sdf.normalized (crossProduct (m.at f.2.1 - m.at f.1) (m.at f.2.2 - m.at f.1))

open Classical in
/-- `std::copysign` for a magnitude that is not negative (the sign of a negative zero is not modelled) -/
noncomputable def copysign (x s : ℝ) : ℝ := if s < 0 then -x else x

open Classical in
/-- `main.cpp:106-110` - the entry of `D` for the point `p` -/
noncomputable def signedDistance (m : Mesh) (p : V3) (h : Hit) : ℝ :=
  let d := dot (m.normal h.fi) (p - m.at (m.face h.fi).1)
  if onBoundary m h then d else copysign (Real.sqrt h.d2) d

/-- `main.cpp:71-114` - `SignedDistanceField::operator()`: the closest points and the signed distances -/
noncomputable def field (m : Mesh) (tree : V3 → Hit) (points : List V3) : List (V3 × ℝ) :=
  points.map fun p => ((tree p).closest, signedDistance m p (tree p))

/-- The three numbers that `fit_inequality` is given for a point; NaN is `none`. -/
structure Row where
  value : Option ℝ
  lb : Option ℝ
  ub : Option ℝ

open Classical in
/-- `main.cpp:170-178` - what becomes of the distance `d` of a point with the given side (NaN is `none`) -/
noncomputable def split (side : Option ℝ) (d : ℝ) : Row :=
  match side with
  | none => ⟨some d, none, none⟩
  | some s => if s < 0 then ⟨none, some d, none⟩ else if s > 0 then ⟨none, none, some d⟩ else ⟨some d, none, none⟩

/-- `main.cpp:165-179` - the rows of `D`, `DL`, `DU` -/
noncomputable def rows (m : Mesh) (tree : V3 → Hit) (table : List (V3 × Option ℝ)) : List Row :=
  table.map fun r => split r.2 (signedDistance m r.1 (tree r.1))

/-- `main.cpp:132-136` - `OffsetFieldFunction::operator()` at a point; `f` is the fitted interpolant -/
noncomputable def offsetField (m : Mesh) (tree : V3 → Hit) (f : V3 → ℝ) (p : V3) : ℝ :=
  signedDistance m p (tree p) - f (tree p).closest

end Verif.OffsetSurface
