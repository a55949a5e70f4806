import Verif.Model.Clip
import Verif.Spec.Geometry

/-! # What clipping a mesh to a box means -/

namespace Verif.Clip

open Verif Geometry

/-- the cross product of the edges of a triangle: its oriented normal, of twice its area in length -/
def normal (t : Tri) : P3 :=
  let u := (t.2.1.1 - t.1.1, t.2.1.2.1 - t.1.2.1, t.2.1.2.2 - t.1.2.2)
  let v := (t.2.2.1 - t.1.1, t.2.2.2.1 - t.1.2.1, t.2.2.2.2 - t.1.2.2)
  (u.2.1 * v.2.2 - u.2.2 * v.2.1, u.2.2 * v.1 - u.1 * v.2.2, u.1 * v.2.1 - u.2.1 * v.1)

/-- the closed triangle -/
def In (x : P3) (t : Tri) : Prop := InTriangle x t.1 t.2.1 t.2.2

/-- strictly inside the triangle -/
def StrictIn (x : P3) (t : Tri) : Prop := ∃ r s u : ℝ, 0 < r ∧ 0 < s ∧ 0 < u ∧ r + s + u = 1 ∧ x = r • t.1 + s • t.2.1 + u • t.2.2

/-- the two triangles do not overlap -/
def Apart (t t' : Tri) : Prop := ¬∃ x, StrictIn x t ∧ StrictIn x t'

/-- `t'` is a part of `t` that faces the same way -/
def Part (t' t : Tri) : Prop := (∃ c : ℝ, 0 < c ∧ normal t' = c • normal t) ∧ ∀ x, In x t' → In x t

/-- in the closed box -/
def InBox (lo hi x : P3) : Prop := (lo.1 ≤ x.1 ∧ x.1 ≤ hi.1) ∧ (lo.2.1 ≤ x.2.1 ∧ x.2.1 ≤ hi.2.1) ∧ (lo.2.2 ≤ x.2.2 ∧ x.2.2 ≤ hi.2.2)

/-- strictly inside the box -/
def Inside (lo hi x : P3) : Prop := (lo.1 < x.1 ∧ x.1 < hi.1) ∧ (lo.2.1 < x.2.1 ∧ x.2.1 < hi.2.1) ∧ (lo.2.2 < x.2.2 ∧ x.2.2 < hi.2.2)

/-- both points are on or beyond one and the same side of the box -/
def Beyond (lo hi p q : P3) : Prop :=
  (hi.1 ≤ p.1 ∧ hi.1 ≤ q.1) ∨ (p.1 ≤ lo.1 ∧ q.1 ≤ lo.1) ∨ (hi.2.1 ≤ p.2.1 ∧ hi.2.1 ≤ q.2.1) ∨ (p.2.1 ≤ lo.2.1 ∧ q.2.1 ≤ lo.2.1) ∨
  (hi.2.2 ≤ p.2.2 ∧ hi.2.2 ≤ q.2.2) ∨ (p.2.2 ≤ lo.2.2 ∧ q.2.2 ≤ lo.2.2)

/-- both points are on one and the same side of the box -/
def OnSide (lo hi p q : P3) : Prop :=
  (p.1 = hi.1 ∧ q.1 = hi.1) ∨ (p.1 = lo.1 ∧ q.1 = lo.1) ∨ (p.2.1 = hi.2.1 ∧ q.2.1 = hi.2.1) ∨ (p.2.1 = lo.2.1 ∧ q.2.1 = lo.2.1) ∨
  (p.2.2 = hi.2.2 ∧ q.2.2 = hi.2.2) ∨ (p.2.2 = lo.2.2 ∧ q.2.2 = lo.2.2)

/-- the directed edges of a face -/
def dirEdges (f : α × α × α) : List (α × α) := [(f.1, f.2.1), (f.2.1, f.2.2), (f.2.2, f.1)]

/-- `v` is between `a` and `b` in every coordinate -/
def Btw (v a b : P3) : Prop :=
  (min a.1 b.1 ≤ v.1 ∧ v.1 ≤ max a.1 b.1) ∧ (min a.2.1 b.2.1 ≤ v.2.1 ∧ v.2.1 ≤ max a.2.1 b.2.1) ∧
  (min a.2.2 b.2.2 ≤ v.2.2 ∧ v.2.2 ≤ max a.2.2 b.2.2)

/-- The interpolation stays between its arguments. -/
def Arith.Between (A : Arith) : Prop := ∀ th a b, (a.1 < th ∧ th < b.1) ∨ (b.1 < th ∧ th < a.1) →
  (min a.2.1 b.2.1 ≤ (A.interp th a b).2.1 ∧ (A.interp th a b).2.1 ≤ max a.2.1 b.2.1) ∧
  (min a.2.2 b.2.2 ≤ (A.interp th a b).2.2 ∧ (A.interp th a b).2.2 ≤ max a.2.2 b.2.2)

/-- the three positions of a face -/
def Mesh.pos (m : Mesh) (f : Face) : Option Tri :=
  match m.vertices[f.1]?, m.vertices[f.2.1]?, m.vertices[f.2.2]? with
  | some p, some q, some r => some (p, q, r)
  | _, _, _ => none

/-- the faces refer to vertices -/
def Mesh.Valid (m : Mesh) : Prop := ∀ f ∈ m.faces, f.1 < m.vertices.length ∧ f.2.1 < m.vertices.length ∧ f.2.2 < m.vertices.length

end Verif.Clip
