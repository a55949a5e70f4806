import Verif.Model.Outcome
import Mathlib.Data.Real.Basic
import Mathlib.Data.Option.NAry

/-!
# interpolation/solver.hpp, interpolation/residual_evaluator.hpp

Numbers are exact reals or `none` for NaN (`Num`); every arithmetic operation with a NaN gives NaN and every comparison
with one is false.  The evaluators and the Krylov iteration are parameters: `directP w i` / `directG w i k` is what the
direct evaluator gives for weights `w` at the `i`-th point (component `k` of the gradient at the `i`-th gradient point),
`fastP`, `fastG` the same for the fast evaluator, `sol k` is `solution_vector()` after `k` iterations.
-/

namespace Verif.Solver

open Verif

/-- a double: a real number or NaN -/
abbrev Num := Option ℝ

structure Prob where
  dim : Nat
  mu : Nat
  sigma : Nat
  nugget : ℝ
  tol : ℝ
  gtol : ℝ
  maxIter : Nat
  /-- `mu + dim * sigma` values -/
  values : List Num
  /-- `std::shuffle` with a default-seeded `std::mt19937` -/
  shuffle : List Nat → List Nat
  /-- `std::partition` -/
  partition : (Nat → Bool) → List Nat → List Nat
  directP : List Num → Nat → Num
  directG : List Num → Nat → Nat → Num
  fastP : List Num → Nat → Num
  fastG : List Num → Nat → Nat → Num
  /-- the weights given to `set_initial_solution` (orthogonalised initial weights, or zeros) -/
  w0 : List Num
  /-- `solver.relative_residual()` after `setup()` -/
  rel0 : Num
  sol : Nat → List Num

variable (pb : Prob)

def add : Num → Num → Num := Option.map₂ (· + ·)
def sub : Num → Num → Num := Option.map₂ (· - ·)
def mul : Num → Num → Num := Option.map₂ (· * ·)

open Classical in
/-- `x > t` -/
noncomputable def gt : Num → ℝ → Bool
  | some x, t => decide (x > t)
  | none, _ => false

open Classical in
/-- `x != 0.0` (true for NaN) -/
noncomputable def nonzero : Num → Bool
  | some x => decide (x ≠ 0)
  | none => true

/-- `numeric/error.hpp:8-11` with `P = Infinity`; a NaN entry makes the result a NaN. -/
noncomputable def absErr (a b : List Num) : Num :=
  (List.zipWith sub a b).foldr (Option.map₂ (fun x m => max |x| m)) (some 0)

/-- `residual_evaluator.hpp:35` -/
def kTarget : Nat := 1024

/-- entry of `values_` -/
def value (i : Nat) : Num := pb.values.getD i none

/-- entry `(i, k)` of `values_.tail(kDim * sigma_)` reshaped row by row -/
def gradValue (i k : Nat) : Num := pb.values.getD (pb.mu + (pb.dim * i + k)) none

/-- `residual_evaluator.hpp:125, 128-133` -/
noncomputable def directIndices : List Nat :=
  (pb.partition (fun i => nonzero (value pb i)) (pb.shuffle (List.range pb.mu))).take (min pb.mu kTarget)

/-- `residual_evaluator.hpp:126, 135-142`; `isZero` of the gradient (its tolerance only affects the order). -/
noncomputable def directGradIndices : List Nat :=
  (pb.partition (fun i => (List.range pb.dim).any (fun k => nonzero (gradValue pb i k)))
    (pb.shuffle (List.range pb.sigma))).take (min pb.sigma kTarget)

/-- a fitted value with the nugget's contribution -/
def withNugget (w : List Num) (i : Nat) (x : Num) : Num := add x (mul (w.getD i none) (some pb.nugget))

/-- `residual_evaluator.hpp:69-78` - the two residuals over the direct points. -/
noncomputable def directResiduals (w : List Num) : Num × Num :=
  let ip := directIndices pb
  let ig := directGradIndices pb
  (absErr (ip.map (fun i => withNugget pb w i (pb.directP w i))) (ip.map (value pb)),
   absErr (ig.flatMap (fun i => (List.range pb.dim).map (pb.directG w i)))
     (ig.flatMap (fun i => (List.range pb.dim).map (gradValue pb i))))

/-- `residual_evaluator.hpp:92-100` - the two residuals over all points. -/
noncomputable def fullResiduals (w : List Num) : Num × Num :=
  (absErr ((List.range pb.mu).map (fun i => withNugget pb w i (pb.fastP w i))) ((List.range pb.mu).map (value pb)),
   absErr ((List.range pb.sigma).flatMap (fun i => (List.range pb.dim).map (pb.fastG w i)))
     ((List.range pb.sigma).flatMap (fun i => (List.range pb.dim).map (gradValue pb i))))

/-- `residual_evaluator.hpp:56-108` - the field `converged` of the result. -/
noncomputable def converged (w : List Num) : Bool :=
  let d := directResiduals pb w
  if gt d.1 pb.tol || gt d.2 pb.gtol then false
  else if min pb.mu kTarget = pb.mu ∧ min pb.sigma kTarget = pb.sigma then true
  else
    let f := fullResiduals pb w
    if gt f.1 pb.tol || gt f.2 pb.gtol then false else true

/-- `solver.hpp:116-139` - the loop, entered with `k` iterations done. -/
noncomputable def iterate (fuel k : Nat) : Outcome (List Num) :=
  match fuel with
  | 0 => .ub
  | fuel + 1 =>
      let w := pb.sol k
      if converged pb w then .ok w
      else if k = pb.maxIter then .throws .runtimeError
      else iterate fuel (k + 1)

open Classical in
/-- `solver.hpp:95-142`; the loop ends within `max_iter + 1` passes (`C20_within_budget`). -/
noncomputable def solve : Outcome (List Num) :=
  if pb.rel0 = some 0 then .ok pb.w0 else iterate pb (pb.maxIter + 1) 0

end Verif.Solver
