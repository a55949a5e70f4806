import Verif.Model.AbstractMesh

/-!
# What the mesh is, and what its queries should answer
-/

namespace Verif.AbstractMesh

open Verif

/-- The three corners are distinct. -/
def Nondeg (f : Face) : Prop := f.1 ≠ f.2.1 ∧ f.2.1 ≠ f.2.2 ∧ f.2.2 ≠ f.1

/-- The face with a number: `none` if there is no such face or it was deleted. -/
def faceAt (m : Mesh) (fi : Nat) : Option Face := if fi < m.nf ∧ m.deleted fi = false then some (m.face fi) else none

/-- `a -> b` is a directed side of the face. -/
def Side (f : Face) (a b : Nat) : Prop := (f.1 = a ∧ f.2.1 = b) ∨ (f.2.1 = a ∧ f.2.2 = b) ∨ (f.2.2 = a ∧ f.1 = b)

/-- `v` is a corner of the face. -/
def Corner (f : Face) (v : Nat) : Prop := f.1 = v ∨ f.2.1 = v ∨ f.2.2 = v

/-- No directed edge is a side of two of the faces. -/
def Manifold (F : Nat → Option Face) : Prop :=
  ∀ fi fj f g a b, F fi = some f → F fj = some g → Side f a b → Side g a b → fi = fj

/-- `h` is side number `h mod 4` of the face number `h / 4`, and goes from `a` to `b`. -/
def IsHalfedge (m : Mesh) (h a b : Nat) : Prop :=
  ∃ f, faceAt m (h / 4) = some f ∧
    ((h % 4 = 0 ∧ f.1 = a ∧ f.2.1 = b) ∨ (h % 4 = 1 ∧ f.2.1 = a ∧ f.2.2 = b) ∨ (h % 4 = 2 ∧ f.2.2 = a ∧ f.1 = b))

/-- All queries give the answers they should. -/
structure Consistent (m : Mesh) : Prop where
  /-- faces have three different corners -/
  corners : ∀ fi f, faceAt m fi = some f → Nondeg f
  /-- oriented and manifold: a directed edge belongs to at most one face -/
  manifold : Manifold (faceAt m)
  /-- `halfedge_of(a, b)` -/
  halfedgeOf : ∀ a b h, m.halfedgeOf a b = some h ↔ IsHalfedge m h a b
  /-- `opposite(h)` -/
  opposite : ∀ h h', m.opposite h = .ok (some h') ↔ ∃ a b, IsHalfedge m h a b ∧ IsHalfedge m h' b a
  /-- `vertex_faces(v)` -/
  vertexFaces : ∀ v, (m.vertexFaces v).Nodup ∧ ∀ fi, fi ∈ m.vertexFaces v ↔ ∃ f, faceAt m fi = some f ∧ Corner f v

/-- `v` is not a corner of any face. -/
def NewVertex (m : Mesh) (v : Nat) : Prop := ∀ fi f, faceAt m fi = some f → ¬ Corner f v

/-- The faces after merging `v` into `w`: those with both are gone, and the others have `w` in place of `v`. -/
def merged (F : Nat → Option Face) (v w : Nat) (i : Nat) : Option Face :=
  (F i).bind fun f =>
    if (f.1 = v ∨ f.2.1 = v ∨ f.2.2 = v) ∧ (f.1 = w ∨ f.2.1 = w ∨ f.2.2 = w) then none
    else some (if f.1 = v then w else f.1, if f.2.1 = v then w else f.2.1, if f.2.2 = v then w else f.2.2)

end Verif.AbstractMesh
