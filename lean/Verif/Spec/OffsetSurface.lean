import Verif.Model.OffsetSurface

/-!
# What is meant by the distance from a mesh and by its border
-/

namespace Verif.OffsetSurface

open Verif Verif.Normals

/-- `x` is a point of the triangle `a b c`. -/
def InTriangle (a b c x : V3) : Prop :=
  ∃ w : Fin 3 → ℝ, (∀ i, 0 ≤ w i) ∧ w 0 + w 1 + w 2 = 1 ∧ x = w 0 • a + w 1 • b + w 2 • c

/-- `x` is a point of the surface. -/
def OnMesh (m : Mesh) (x : V3) : Prop := ∃ f ∈ m.faces, InTriangle (m.at f.1) (m.at f.2.1) (m.at f.2.2) x

/-- What a correct tree reports for `p`: a point of the surface nearest to `p`, a face it belongs to, its coordinates in the face and the squared distance.
There may be several such answers. -/
structure Nearest (m : Mesh) (p : V3) (h : Hit) : Prop where
  fi : h.fi < m.faces.length
  nonneg : ∀ i, 0 ≤ h.l i
  sum : h.l 0 + h.l 1 + h.l 2 = 1
  point : h.closest = h.l 0 • m.at (m.face h.fi).1 + h.l 1 • m.at (m.face h.fi).2.1 + h.l 2 • m.at (m.face h.fi).2.2
  d2 : h.d2 = dot (p - h.closest) (p - h.closest)
  least : ∀ x, OnMesh m x → dot (p - h.closest) (p - h.closest) ≤ dot (p - x) (p - x)

/-- The directed edge `u -> v` is a side of some face. -/
def IsSide (faces : List (Nat × Nat × Nat)) (u v : Nat) : Prop :=
  ∃ f ∈ faces, (f.1 = u ∧ f.2.1 = v) ∨ (f.2.1 = u ∧ f.2.2 = v) ∨ (f.2.2 = u ∧ f.1 = v)

/-- The border: the sides that no other face has in the opposite direction. -/
def BorderEdge (faces : List (Nat × Nat × Nat)) (u v : Nat) : Prop := IsSide faces u v ∧ ¬ IsSide faces v u

/-- An oriented manifold as far as its edges are concerned: no directed edge belongs to two faces, and the corners of a face are different. -/
def Oriented (faces : List (Nat × Nat × Nat)) : Prop :=
  (faces.flatMap halfedges).Nodup ∧ ∀ f ∈ faces, f.1 ≠ f.2.1 ∧ f.2.1 ≠ f.2.2 ∧ f.2.2 ≠ f.1

/-- The face has an area. -/
def HasArea (m : Mesh) (fi : Nat) : Prop :=
  crossProduct (m.at (m.face fi).2.1 - m.at (m.face fi).1) (m.at (m.face fi).2.2 - m.at (m.face fi).1) ≠ 0

/-- The reported point is, up to a tolerance of 1e-10 in its coordinates, on a side of its face that is on the border, or in a corner of it that is on
the border. -/
def NearBorder (m : Mesh) (h : Hit) : Prop :=
  ∃ i : Fin 3, (|h.l (i + 2)| < 1e-10 ∧ BorderEdge m.faces (corner (m.face h.fi) i) (corner (m.face h.fi) (i + 1))) ∨
    (|1 - h.l i| < 1e-10 ∧ ∃ v, BorderEdge m.faces (corner (m.face h.fi) i) v ∨ BorderEdge m.faces v (corner (m.face h.fi) i))

end Verif.OffsetSurface
