import Verif.Model.KdTree

/-!
# What is assumed of flann and of floats, and what a call of a search means (C91)
-/

namespace Verif.KdTree

open Verif BigOperators

/-- squared distance -/
def sqDist {dim : Nat} (p q : Pt dim) : ℝ := ∑ k, (p k - q k) ^ 2

/-- distance -/
noncomputable def dist {dim : Nat} (p q : Pt dim) : ℝ := Real.sqrt (∑ k, (p k - q k) ^ 2)

/-- The finite numbers of IEEE binary32: 24 bits of significand. -/
def IsFloat (x : ℝ) : Prop := ∃ m e : ℤ, |m| < 2 ^ 24 ∧ -149 ≤ e ∧ e ≤ 104 ∧ x = m * (2 : ℝ) ^ e

/-- the largest finite float -/
noncomputable def maxFloat : ℝ := (2 ^ 24 - 1) * 2 ^ 104

/-- Conversion to the nearest float (ties either way); beyond the largest float, that or infinity. -/
structure Rounds (toFloat : ℝ → Option ℝ) : Prop where
  near : ∀ x, 0 ≤ x → x ≤ maxFloat → ∃ y, toFloat x = some y ∧ IsFloat y ∧ ∀ z, IsFloat z → |x - y| ≤ |x - z|
  big : ∀ x, maxFloat < x → toFloat x = none ∨ toFloat x = some maxFloat

/-- `x` is below the bound; whether a point at the bound is counted is left open. -/
structure IsBelow (below : ℝ → ℝ → Prop) : Prop where
  lt : ∀ x b, x < b → below x b
  le : ∀ x b, below x b → x ≤ b

/-- An exact index: the points below the bound, the `k` nearest points, with their squared distances. -/
structure Exact {dim : Nat} (E : Ext dim) (below : ℝ → ℝ → Prop) : Prop where
  nodup : ∀ points p b, ((E.radius points p b).map Prod.fst).Nodup
  found : ∀ points p b i, i ∈ (E.radius points p (some b)).map Prod.fst ↔ i < points.length ∧ below (sqDist p (points.getD i 0)) b
  all : ∀ points p i, i ∈ (E.radius points p none).map Prod.fst ↔ i < points.length
  sq : ∀ points p b, ∀ x ∈ E.radius points p b, x.2 = sqDist p (points.getD x.1 0)
  knodup : ∀ points p k, ((E.knn points p k).map Prod.fst).Nodup
  klength : ∀ points p k, (E.knn points p k).length = min k points.length
  kfound : ∀ points p k, ∀ x ∈ E.knn points p k, x.1 < points.length ∧ x.2 = sqDist p (points.getD x.1 0)
  knearest : ∀ points p k, ∀ x ∈ E.knn points p k, ∀ j < points.length, j ∉ (E.knn points p k).map Prod.fst → x.2 ≤ sqDist p (points.getD j 0)

/-- The steps of a thread that makes these calls one after another. -/
def program {dim : Nat} (calls : List (List (Pt dim) × Pt dim × Query)) : List (Step dim) := calls.flatMap fun c => [.fill c.1 c.2.1 c.2.2, .copy]

end Verif.KdTree
