import Verif.Model.Outcome
import Verif.Model.IncrementalFitter
import Mathlib.Analysis.SpecialFunctions.Exp
import Mathlib.Analysis.Real.Pi.Bounds
import Mathlib.Data.Real.Sqrt

/-!
# kriging/cross_validate.hpp, kriging/normal_score_transformation.hpp
-/

namespace Verif.Kriging

open Verif

/-! ## cross_validate.hpp -/

/-- `cross_validate.hpp:24-29` - the positions of the points of a set; `set_ids(i)` past the end is undefined. -/
def testSet (ids : List Int) (id : Int) : List Nat → Outcome (List Nat)
  | [] => .ok []
  | i :: is => do
      let x ← Outcome.get ids i
      let rest ← testSet ids id is
      return if x == id then i :: rest else rest

/-- `cross_validate.hpp:43-45` -/
def scatter (pred : List V) : List Nat → List V → Outcome (List V)
  | [], _ => .ok pred
  | _ :: _, [] => .ub
  | i :: is, v :: vs => if i < pred.length then scatter (pred.set i v) is vs else .ub

/-- `cross_validate.hpp:23-46` - one set.  `fit` is the construction and `fit` of an `Interpolant`, `eval` its `evaluate`.
`complementary_indices` is used through C02. -/
def foldOne (fit : List P → List V → Outcome F) (eval : F → List P → Outcome (List V)) (points : List P)
    (values : List V) (ids : List Int) (pred : List V) (id : Int) : Outcome (List V) := do
  let test ← testSet ids id (List.range points.length)
  let train ← Incremental.compl test points.length
  let trainPoints ← Outcome.traverse (Outcome.get points) train
  let testPoints ← Outcome.traverse (Outcome.get points) test
  let trainValues ← Outcome.traverse (Outcome.get values) train
  let f ← fit trainPoints trainValues
  let fitted ← eval f testPoints
  scatter pred test fitted

/-- The loop over the set of ids. -/
def folds (fit : List P → List V → Outcome F) (eval : F → List P → Outcome (List V)) (points : List P)
    (values : List V) (ids : List Int) : List Int → List V → Outcome (List V)
  | [], pred => .ok pred
  | id :: rest, pred => do
      let pred' ← foldOne fit eval points values ids pred id
      folds fit eval points values ids rest pred'

/-- `cross_validate.hpp:15-49` - `order` is the iteration order of the `unordered_flat_set` of ids: any enumeration of the
different ids; `zero` is the initial value of the predictions. -/
def crossValidate (fit : List P → List V → Outcome F) (eval : F → List P → Outcome (List V)) (zero : V)
    (points : List P) (values : List V) (ids : List Int) (order : List Int) : Outcome (List V) :=
  folds fit eval points values ids order (List.replicate points.length zero)

/-! ## normal_score_transformation.hpp -/

/-- `normal_score_transformation.hpp:123-125` - order, transformed flag, Hermite coefficients -/
structure Nst where
  order : Int
  transformed : Bool
  phi : List ℝ

/-- `normal_score_transformation.hpp:14-18` -/
def Nst.new (order : Int) : Outcome Nst :=
  if order < 0 then .throws .invalidArgument else .ok ⟨order, false, []⟩

/-- `normal_score_transformation.hpp:26-31` - the scores written to `y(indices[i])` -/
noncomputable def scores (icdf : ℝ → ℝ) (n : Nat) : List Nat → Nat → (Nat → ℝ) → (Nat → ℝ)
  | [], _, y => y
  | k :: ks, i, y =>
      scores icdf n ks (i + 1) (fun j => if j = k then icdf ((2 * i + 1) * (1 / (2 * n))) else y j)

/-- `normal_score_transformation.hpp:88-97` - the differences of the sorted data; with one datum `z(1)` is read. -/
noncomputable def diffs (z : List ℝ) (i : Nat) : Outcome ℝ :=
  if i = 0 then do
    let a ← Outcome.get z i
    let b ← Outcome.get z (i + 1)
    return a - b
  else if i = z.length - 1 then do
    let a ← Outcome.get z (i - 1)
    let b ← Outcome.get z i
    return a - b
  else do
    let a ← Outcome.get z (i - 1)
    let b ← Outcome.get z (i + 1)
    return 0.5 * (a - b)

/-- `normal_score_transformation.hpp:99-110` - the recursion of the normalised Hermite polynomials (with alternating sign)
at one point: `(h0y, h1y)` at the start of iteration `p + 1`. -/
noncomputable def hermitePair (y : ℝ) : Nat → ℝ × ℝ
  | 0 => (1, -y)
  | p + 1 =>
      let h := hermitePair y p
      let pd : ℝ := (p : ℝ) + 1
      (h.2, -1 / Real.sqrt (pd + 1) * (y * h.2) - Real.sqrt (pd / (pd + 1)) * h.1)

/-- `normal_score_transformation.hpp:81-111` - `z.mean()` of nothing is undefined (Eigen's reduction of an empty vector). -/
noncomputable def computePhi (order : Nat) (z y : List ℝ) : Outcome (List ℝ) :=
  if z.length = 0 then .ub
  else do
    let a ← Outcome.traverse (diffs z) (List.range z.length)
    let gy := y.map (fun t => 1 / Real.sqrt (2 * Real.pi) * Real.exp (-0.5 * t ^ 2))
    return (z.sum / z.length) :: (List.range order).map (fun (p : Nat) =>
      1 / Real.sqrt ((p : ℝ) + 1) *
        (List.zipWith3 (fun a t g => a * (hermitePair t p).1 * g) a y gy).sum)

/-- `normal_score_transformation.hpp:24` - the comparison, of positions within the vector. -/
noncomputable def less (z : List ℝ) (i j : Nat) : Bool :=
  open Classical in
  match z[i]?, z[j]? with
  | some a, some b => decide (a < b)
  | _, _ => false

/-- `normal_score_transformation.hpp:20-37` - `sort` is `std::sort` of `0 .. n - 1` by a comparison; `icdf` the inverse of
the normal distribution function. -/
noncomputable def Nst.transform (sort : Nat → (Nat → Nat → Bool) → List Nat) (icdf : ℝ → ℝ) (t : Nst) (z : List ℝ) :
    Nst × Outcome (List ℝ) :=
  let n := z.length
  let indices := sort n (less z)
  let y := scores icdf n indices 0 (fun _ => 0)
  match computePhi t.order.toNat (indices.map (fun i => z.getD i 0)) (indices.map y) with
  | .ok phi => ({ t with phi := phi, transformed := true }, .ok ((List.range n).map y))
  | .throws e => (t, .throws e)
  | .ub => (t, .ub)

/-- `normal_score_transformation.hpp:39-61` - one value; `z += phi_(p) * h1y` for `p = 1 .. order` -/
noncomputable def Nst.backTransform (t : Nst) (y : ℝ) : Outcome ℝ :=
  if !t.transformed then .throws .runtimeError
  else
    .ok ((List.range t.order.toNat).foldl (fun s p => s + t.phi.getD (p + 1) 0 * (hermitePair y p).2) (t.phi.getD 0 0 * 1))

/-- `normal_score_transformation.hpp:68-74` - the loop -/
noncomputable def gammaLoop (phi : Nat → ℝ) (gamma : ℝ) : List Nat → ℝ → ℝ → ℝ
  | [], s, _ => s
  | p :: ps, s, q => gammaLoop phi gamma ps (s + phi p * phi p * (1 - q)) (q * (1 - gamma))

/-- `normal_score_transformation.hpp:63-77` -/
noncomputable def Nst.backTransformGamma (t : Nst) (gamma : ℝ) : Outcome ℝ :=
  if !t.transformed then .throws .runtimeError
  else .ok (gammaLoop (fun p => t.phi.getD p 0) gamma (List.range' 1 t.order.toNat) 0 (1 - gamma))

end Verif.Kriging
