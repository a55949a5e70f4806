import Verif.Model.Outcome
import Mathlib.Analysis.Real.Sqrt
import Mathlib.Algebra.BigOperators.Fin

/-!
# src/point_cloud/kdtree.cpp : KdTree

Coordinates are real numbers; `none` is NaN for a radius.  The index of flann and the conversion from double to float are parameters (`Ext`); what is assumed about them is in
`Spec/KdTree.lean`.
-/

namespace Verif.KdTree

open Verif BigOperators

/-- points -/
abbrev Pt (dim : Nat) := Fin dim → ℝ

/-- What flann's index gives for a query: numbers of points with squared distances.  The bound of `radius` is a float, `none` if infinite; `toFloat` is
`static_cast<float>`, `none` if it overflows. -/
structure Ext (dim : Nat) where
  knn : List (Pt dim) → Pt dim → Nat → List (Nat × ℝ)
  radius : List (Pt dim) → Pt dim → Option ℝ → List (Nat × ℝ)
  toFloat : ℝ → Option ℝ

/-- `kdtree.cpp:19-28, 73-75` - `impl_`; there is none for an empty set of points. -/
def build {dim : Nat} (points : List (Pt dim)) : Option (List (Pt dim)) := if points.length = 0 then none else some points

/-- A call of `knn_search` or `radius_search`. -/
inductive Query
  | knn (k : Int)
  | radius (r : Option ℝ)

/-- `kdtree.cpp:30-35, 47-54` - what ends up in the buffers -/
noncomputable def fill {dim : Nat} (E : Ext dim) (points : List (Pt dim)) (p : Pt dim) : Query → List (Nat × ℝ)
  | .knn k => E.knn points p k.toNat
  | .radius r => E.radius points p (E.toFloat (r.getD 0 * r.getD 0))

/-- `kdtree.cpp:37-44, 56-63` - what is copied out of the buffers -/
noncomputable def copy (buffer : List (Nat × ℝ)) : List Nat × List ℝ := (buffer.map Prod.fst, buffer.map fun x => Real.sqrt x.2)

/-- `kdtree.cpp:83-85, 97-99` -/
noncomputable def check : Query → Outcome Unit
  | .knn k => if k ≤ 0 then .throws .invalidArgument else .ok ()
  | .radius none => .throws .invalidArgument
  | .radius (some r) => open Classical in if ¬ r ≥ 0 then .throws .invalidArgument else .ok ()

/-- `kdtree.cpp:80-106` - the contents of the two vectors of the caller afterwards -/
noncomputable def search {dim : Nat} (E : Ext dim) (tree : Option (List (Pt dim))) (p : Pt dim) (q : Query) (out : List Nat × List ℝ) : Outcome (List Nat × List ℝ) := do
  let _ ← check q
  match tree with
  | none => Outcome.ok out
  | some points => Outcome.ok (copy (fill E points p q))

/-! ## Threads

`indices_v_` and `distances_v_` (`kdtree.cpp:67-68`) are static and `thread_local`: one pair of buffers for each thread, used by all trees of a dimension.
A call of a search that gets to flann fills the buffers and then copies them out; between the two any other thread may run. -/

/-- A step of a thread: flann filling the buffers for a query, or copying out. -/
inductive Step (dim : Nat)
  | fill (points : List (Pt dim)) (p : Pt dim) (q : Query)
  | copy

/-- The buffers of all threads, and what has been copied out by each. -/
structure State where
  buffers : Nat → List (Nat × ℝ)
  results : Nat → List (List Nat × List ℝ)

/-- `kdtree.cpp:30-64` - a step of thread `t` -/
noncomputable def step {dim : Nat} (E : Ext dim) (s : State) (e : Nat × Step dim) : State :=
  match e.2 with
  | .fill points p q => { s with buffers := Function.update s.buffers e.1 (fill E points p q) }
  | .copy => { s with results := Function.update s.results e.1 (s.results e.1 ++ [copy (s.buffers e.1)]) }

/-- Any interleaving of steps. -/
noncomputable def run {dim : Nat} (E : Ext dim) (s : State) (events : List (Nat × Step dim)) : State := events.foldl (step E) s

end Verif.KdTree
