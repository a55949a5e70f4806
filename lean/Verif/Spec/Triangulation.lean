import Verif.Spec.AbstractMesh
import Mathlib.Algebra.BigOperators.Group.Finset.Defs
import Mathlib.Data.Real.Basic
import Mathlib.Data.List.Rotate

/-!
# What a triangulation of a polygon is

The vertices `0, 1, ..., n - 1` are the corners of the polygon in order, the later ones are interior points.
-/

namespace Verif.Triangulation.Spec

open Verif Verif.AbstractMesh

/-- `u -> v` is an edge of the polygon with `n` corners, run through in order, or in reverse order. -/
def PolyEdge (n : Nat) (reversed : Prop) (u v : Nat) : Prop :=
  (¬ reversed ∧ u < n ∧ v = (u + 1) % n) ∨ (reversed ∧ v < n ∧ u = (v + 1) % n)

/-- `u -> v` is a directed side of one of the faces. -/
def Uses (fs : List Face) (u v : Nat) : Prop := ∃ f ∈ fs, Side f u v

/-- The two corners have a (nonnegative) label in common. -/
def ShareLabel (labels : List (Int × Int)) (u v : Nat) : Prop :=
  ∃ a b, labels[u]? = some a ∧ labels[v]? = some b ∧ ∃ x : Int, 0 ≤ x ∧ (x = a.1 ∨ x = a.2) ∧ (x = b.1 ∨ x = b.2)

/-- The faces triangulate the polygon as a surface: -/
structure Triangulates (n ni : Nat) (reversed : Prop) (fs : List Face) : Prop where
  /-- three different corners -/
  corners : ∀ f ∈ fs, Nondeg f
  /-- out of the given points -/
  range : ∀ f ∈ fs, ∀ v, Corner f v → v < n + ni
  /-- no directed edge in two faces, so at most two faces on an edge, and then consistently oriented -/
  manifold : Manifold (fun i => fs[i]?)
  /-- no two faces on the same three corners -/
  twins : ∀ (i j : Nat) (f g : Face), fs[i]? = some f → fs[j]? = some g → (∀ v, Corner f v ↔ Corner g v) → i = j
  /-- the edges with one face only are those of the polygon, in its direction -/
  boundary : ∀ u v, Uses fs u v ∧ ¬ Uses fs v u ↔ PolyEdge n reversed u v

/-- The interior points that are used. -/
def usedPoints (n ni : Nat) (fs : List Face) : List Nat :=
  (List.range ni).filter fun k => fs.any fun f => f.1 == n + k || f.2.1 == n + k || f.2.2 == n + k

/-! ## Clipping ears

`area u v w` is (the computed value of) twice the signed area. -/

/-- The consecutive corners `p c q` of a ring, whose other corners are `r`, form an ear: a counterclockwise triangle with none of the others in
it, whose base may be an edge. -/
def IsEar (area : Nat → Nat → Nat → ℝ) (tol : ℝ) (labels : List (Int × Int)) (p c q : Nat) (r : List Nat) : Prop :=
  tol < area p c q ∧ ¬ ShareLabel labels p q ∧ ∀ v ∈ r, area p c v < 0 ∨ area c q v < 0 ∨ area q p v < 0

/-- Clipping one ear after the other until a triangle is left (`true`) or there is no ear (`false`); with the ears and the triangle. -/
inductive EarClips (area : Nat → Nat → Nat → ℝ) (tol : ℝ) (labels : List (Int × Int)) : List Nat → Bool → List Face → Prop
  | last (a b c : Nat) : EarClips area tol labels [a, b, c] true [(a, b, c)]
  | clip {ring ring' : List Nat} {p c q : Nat} {r : List Nat} {s : Bool} {fs : List Face} : r ≠ [] → ring ~r (p :: c :: q :: r) →
      IsEar area tol labels p c q r → ring' ~r (p :: q :: r) → EarClips area tol labels ring' s fs → EarClips area tol labels ring s ((p, c, q) :: fs)
  | stuck {ring : List Nat} : 3 < ring.length → (∀ p c q r, ring ~r (p :: c :: q :: r) → ¬ IsEar area tol labels p c q r) →
      EarClips area tol labels ring false []

/-! ## In the plane -/

/-- Twice the signed area of a triangle, positive if it is counterclockwise. -/
def area2 (a b c : ℝ × ℝ) : ℝ := (b.1 - a.1) * (c.2 - a.2) - (b.2 - a.2) * (c.1 - a.1)

/-- The corner number `i` of a polygon. -/
def pt (pts : List (ℝ × ℝ)) (i : Nat) : ℝ × ℝ := pts.getD i (0, 0)

/-- Twice the signed area of a polygon. -/
def polyArea2 (poly : List (ℝ × ℝ)) : ℝ :=
  ∑ i ∈ Finset.range poly.length, ((pt poly i).1 * (pt poly ((i + 1) % poly.length)).2 - (pt poly ((i + 1) % poly.length)).1 * (pt poly i).2)

/-- `x` is in the interior of the triangle, counterclockwise ... -/
def InsideCcw (a b c x : ℝ × ℝ) : Prop := 0 < area2 a b x ∧ 0 < area2 b c x ∧ 0 < area2 c a x

/-- ... or clockwise. -/
def InsideCw (a b c x : ℝ × ℝ) : Prop := area2 a b x < 0 ∧ area2 b c x < 0 ∧ area2 c a x < 0

/-- `x` is on the segment. -/
def OnSegment (p q x : ℝ × ℝ) : Prop := ∃ t : ℝ, 0 ≤ t ∧ t ≤ 1 ∧ x = (p.1 + t * (q.1 - p.1), p.2 + t * (q.2 - p.2))

open Classical in
/-- How an edge crosses the ray from `x` to the right: 1 upwards, -1 downwards. -/
noncomputable def crossing (p q x : ℝ × ℝ) : ℤ :=
  if p.2 ≤ x.2 ∧ x.2 < q.2 ∧ 0 < area2 p q x then 1 else if q.2 ≤ x.2 ∧ x.2 < p.2 ∧ area2 p q x < 0 then -1 else 0

/-- How often a polygon winds around a point. -/
noncomputable def winding (poly : List (ℝ × ℝ)) (x : ℝ × ℝ) : ℤ :=
  ∑ i ∈ Finset.range poly.length, crossing (pt poly i) (pt poly ((i + 1) % poly.length)) x

/-- Squared distance. -/
def dist2 (p q : ℝ × ℝ) : ℝ := (p.1 - q.1) ^ 2 + (p.2 - q.2) ^ 2

/-- The weights of the corners that give a point. -/
noncomputable def coords (a b c x : ℝ × ℝ) : ℝ × ℝ × ℝ :=
  (area2 x b c / area2 a b c, area2 a x c / area2 a b c, area2 a b x / area2 a b c)

open Classical in
/-- Away from the sides of the faces, a point is in as many faces, counted with their orientation, as the polygon winds around it. -/
def Covers (poly pts : List (ℝ × ℝ)) (reversed : Prop) (fs : List Face) : Prop :=
  ∀ x, (∀ u v, Uses fs u v → ¬ OnSegment (pt pts u) (pt pts v) x) →
    ((fs.countP fun f => decide (InsideCcw (pt pts f.1) (pt pts f.2.1) (pt pts f.2.2) x) : ℕ) : ℤ) -
      ((fs.countP fun f => decide (InsideCw (pt pts f.1) (pt pts f.2.1) (pt pts f.2.2) x) : ℕ) : ℤ) =
    (if reversed then -1 else 1) * winding poly x

/-- The corners of the bounding box. -/
def IsBox (pts : List (ℝ × ℝ)) (lo hi : ℝ × ℝ) : Prop :=
  (∀ p ∈ pts, lo.1 ≤ p.1 ∧ lo.2 ≤ p.2 ∧ p.1 ≤ hi.1 ∧ p.2 ≤ hi.2) ∧
    (∃ p ∈ pts, p.1 = lo.1) ∧ (∃ p ∈ pts, p.2 = lo.2) ∧ (∃ p ∈ pts, p.1 = hi.1) ∧ (∃ p ∈ pts, p.2 = hi.2)

/-- A point is outside of all counterclockwise faces, by the tolerance at least ... -/
def Outside (pts : List (ℝ × ℝ)) (fs : List Face) (x : ℝ × ℝ) : Prop :=
  ∀ f ∈ fs, 0 < area2 (pt pts f.1) (pt pts f.2.1) (pt pts f.2.2) → ∃ l, l = coords (pt pts f.1) (pt pts f.2.1) (pt pts f.2.2) x ∧
    (l.1 < -1e-9 ∨ l.2.1 < -1e-9 ∨ l.2.2 < -1e-9)

/-- ... or within the tolerance of a corner or of an edge of the polygon ... -/
def OnCorner (n : Nat) (reversed : Prop) (pts : List (ℝ × ℝ)) (fs : List Face) (x : ℝ × ℝ) : Prop :=
  ∃ f ∈ fs, ∃ a b c, Side f a b ∧ Side f b c ∧ Side f c a ∧ 0 < area2 (pt pts a) (pt pts b) (pt pts c) ∧ ∃ l, l = coords (pt pts a) (pt pts b) (pt pts c) x ∧
    -1e-9 ≤ l.1 ∧ -1e-9 ≤ l.2.1 ∧ |l.2.2| ≤ 1e-9 ∧ (l.1 < 1e-9 ∨ l.2.1 < 1e-9 ∨ PolyEdge n reversed a b)

/-- ... or inside of a counterclockwise face, by more than the tolerance ... -/
def WellInside (pts : List (ℝ × ℝ)) (fs : List Face) (x : ℝ × ℝ) : Prop :=
  ∃ f ∈ fs, 0 < area2 (pt pts f.1) (pt pts f.2.1) (pt pts f.2.2) ∧ ∃ l, l = coords (pt pts f.1) (pt pts f.2.1) (pt pts f.2.2) x ∧
    1e-9 < l.1 ∧ 1e-9 < l.2.1 ∧ 1e-9 < l.2.2

/-- ... or within the tolerance of an inner edge of a counterclockwise face, away from its ends. -/
def OnInnerEdge (n : Nat) (reversed : Prop) (pts : List (ℝ × ℝ)) (fs : List Face) (x : ℝ × ℝ) : Prop :=
  ∃ f ∈ fs, ∃ a b c, Side f a b ∧ Side f b c ∧ Side f c a ∧ 0 < area2 (pt pts a) (pt pts b) (pt pts c) ∧ ∃ l, l = coords (pt pts a) (pt pts b) (pt pts c) x ∧
    1e-9 ≤ l.1 ∧ 1e-9 ≤ l.2.1 ∧ |l.2.2| ≤ 1e-9 ∧ ¬ PolyEdge n reversed a b

/-- No interior point comes within the tolerance of a line through two other vertices. -/
def GeneralPosition (bd inn : List (ℝ × ℝ)) : Prop :=
  ∀ u w v x y z, u < bd.length + inn.length → w < bd.length + inn.length → bd.length ≤ v → v < bd.length + inn.length → u ≠ w → u ≠ v → w ≠ v →
    1e-9 * area2 (pt (bd ++ inn) x) (pt (bd ++ inn) y) (pt (bd ++ inn) z) < |area2 (pt (bd ++ inn) u) (pt (bd ++ inn) w) (pt (bd ++ inn) v)|

end Verif.Triangulation.Spec
