import Verif.Model.NormalEstimator
import Mathlib.LinearAlgebra.Matrix.NonsingularInverse
import Mathlib.Analysis.SpecialFunctions.Pow.Real

/-!
# src/point_cloud/sdf_data_generator.cpp

Doubles are real numbers.  The kd-tree is an arbitrary function `knn q k` giving indices.  The loop that pulls an offset point
back may not end; it is modelled with fuel.
-/

namespace Verif.Sdf

open Verif Verif.Normals

/-- The result of running with some fuel: finished, a division by zero has produced an infinite or NaN coordinate (nothing is said
about what follows), or still running. -/
inductive Run (α : Type) where
  | done (a : α)
  | nan
  | running

/-- Sequencing of `Run`. -/
def Run.bind {α β : Type} : Run α → (α → Run β) → Run β
  | .done a, f => f a
  | .nan, _ => .nan
  | .running, _ => .running

/-- `v.norm()` -/
noncomputable def norm (v : V3) : ℝ := Real.sqrt (dot v v)

open Classical in
/-- Eigen's `normalized()`: the zero vector is left alone. -/
noncomputable def normalized (v : V3) : V3 := if dot v v > 0 then (norm v)⁻¹ • v else v

/-- The arguments of `estimate_impl` and its tree. -/
structure Data where
  n : Nat
  point : Nat → V3
  normal : Nat → V3
  /-- `KdTree::knn_search` -/
  knn : V3 → Nat → List Nat

/-- `sdf_data_generator.cpp:72` - `p + sign * d * n` -/
def Data.at (c : Data) (i : Nat) (v : ℝ) : V3 := c.point i + v • c.normal i

open Classical in
/-- `sdf_data_generator.cpp:72-88` - the loop that pulls the point back, starting from the distance `d`; gives the last distance.
`nn_indices.at(0)` of an empty answer would throw; an answer is never empty for a non-empty tree, and `headD` is used. -/
noncomputable def pull (c : Data) (sign : ℝ) (i : Nat) : Nat → ℝ → Run ℝ
  | 0, _ => .running
  | fuel + 1, d =>
      let p := c.point i
      let q := c.at i (sign * d)
      let near := (c.knn q 1).headD 0
      if near = i then .done d
      else
        let w := c.point near - p
        let r := norm w / 2
        let cos := dot (normalized (q - p)) (normalized w)
        if cos = 0 then .nan else pull c sign i fuel (0.99 * r / cos)

open Classical in
/-- `sdf_data_generator.cpp:67-71` - the initial distance: the offset, or the largest distance among the six nearest points. -/
noncomputable def start (c : Data) (offset : ℝ) (i : Nat) : ℝ :=
  if offset ≤ 0 then
    ((c.knn (c.point i) (min 6 c.n)).map (fun j => norm (c.point j - c.point i))).foldl max 0
  else offset

open Classical in
/-- `sdf_data_generator.cpp:59-93` - the inner loop for one sign; points with a zero normal are skipped. -/
noncomputable def sweep (c : Data) (offset sign : ℝ) (fuel : Nat) : List Nat → Run (List (V3 × ℝ))
  | [] => .done []
  | i :: is =>
      if isZero (c.normal i) then sweep c offset sign fuel is
      else
        (pull c sign i fuel (start c offset i)).bind fun d =>
        (sweep c offset sign fuel is).bind fun rest =>
        .done ((c.at i (sign * d), sign * d) :: rest)

/-- `sdf_data_generator.cpp:42-100` - `estimate_impl`: the points with value zero, then the offset points for sign -1 and for
sign 1. -/
noncomputable def estimateImpl (c : Data) (offset : ℝ) (fuel : Nat) : Run (List (V3 × ℝ)) :=
  (sweep c offset (-1) fuel (List.range c.n)).bind fun neg =>
  (sweep c offset 1 fuel (List.range c.n)).bind fun pos =>
  .done ((List.range c.n).map (fun i => (c.point i, 0)) ++ neg ++ pos)

/-- Eigen's `isIdentity()`.  (Eigen compares the diagonal with a relative tolerance; the difference is below the tolerance
squared.) -/
def isIdentity (a : Matrix (Fin 3) (Fin 3) ℝ) : Prop := ∀ i j, |a i j - (1 : Matrix (Fin 3) (Fin 3) ℝ) i j| ≤ 1e-12

open Classical in
/-- `sdf_data_generator.cpp:28-36` - the data in the isotropic space; the tree is built on the transformed points. -/
noncomputable def transformed (a : Matrix (Fin 3) (Fin 3) ℝ) (c : Data) (knn' : V3 → Nat → List Nat) : Data where
  n := c.n
  point i := a.mulVec (c.point i)
  normal i :=
    let m := a⁻¹.transpose.mulVec (c.normal i)
    if isZero m then m else normalized m
  knn := knn'

open Classical in
/-- `sdf_data_generator.cpp:14-40` - the constructor.  `knn'` is the tree on the transformed points, `nNormals` the number of rows
of the normals. -/
noncomputable def construct (c : Data) (nNormals : Nat) (offset : ℝ) (a : Matrix (Fin 3) (Fin 3) ℝ) (knn' : V3 → Nat → List Nat)
    (fuel : Nat) : Outcome (Run (List (V3 × ℝ))) :=
  if nNormals ≠ c.n then .throws .invalidArgument
  else if ¬ a.det > 0 then .throws .invalidArgument
  else if isIdentity a then .ok (estimateImpl c offset fuel)
  else .ok ((estimateImpl (transformed a c knn') offset fuel).bind fun l => .done (l.map fun e => (a⁻¹.mulVec e.1, e.2)))

end Verif.Sdf
