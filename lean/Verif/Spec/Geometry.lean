import Mathlib.Data.Real.Basic
import Mathlib.Algebra.Module.Prod
import Mathlib.Analysis.Convex.Hull

/-! # Segments and triangles in space -/

namespace Verif.Geometry

/-- A point of space. -/
abbrev P3 := ℝ × ℝ × ℝ

/-- `x` is on the closed segment from `a` to `b`. -/
def InSegment (x a b : P3) : Prop := ∃ s t : ℝ, 0 ≤ s ∧ 0 ≤ t ∧ s + t = 1 ∧ x = s • a + t • b

/-- `x` is in the closed triangle with corners `a`, `b`, `c`. -/
def InTriangle (x a b c : P3) : Prop :=
  ∃ r s t : ℝ, 0 ≤ r ∧ 0 ≤ s ∧ 0 ≤ t ∧ r + s + t = 1 ∧ x = r • a + s • b + t • c

/-- The corners of a triangle. -/
def cornerSet (t : P3 × P3 × P3) : Set P3 := {t.1, t.2.1, t.2.2}

/-- Two triangles (with their interiors) have a common point other than those they have in common because of the corners
they share: the shared corner, or the segment between two shared corners. -/
def Cross (ta tb : P3 × P3 × P3) : Prop :=
  ∃ x, x ∈ convexHull ℝ (cornerSet ta) ∧ x ∈ convexHull ℝ (cornerSet tb) ∧ x ∉ convexHull ℝ (cornerSet ta ∩ cornerSet tb)

end Verif.Geometry
