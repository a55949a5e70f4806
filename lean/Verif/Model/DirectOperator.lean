import Mathlib.Data.Real.Basic
import Mathlib.Algebra.BigOperators.Fin
import Mathlib.Algebra.BigOperators.Group.Finset.Basic
import Mathlib.Data.Fintype.BigOperators

/-!
# interpolation/direct_evaluator.hpp, interpolation/direct_operator.hpp, preconditioner/mat_a.hpp, and the accuracy
# distribution of interpolation/{evaluator,symmetric_evaluator,operator}.hpp

Arithmetic is exact, and a loop that adds up terms is written as a sum: the per-thread partial vectors `y_local` of the
OpenMP loops are not modelled separately, as exact addition does not depend on the grouping.  Covariance functions are
given by their values, gradients and Hessians as functions of the difference vector.
-/

namespace Verif.DirectOp

open BigOperators

/-- a point or vector -/
abbrev Vec (dim : Nat) := Fin dim → ℝ

/-- what `rbf.evaluate`, `evaluate_gradient`, `evaluate_hessian` return -/
structure Rbf (dim : Nat) where
  value : Vec dim → ℝ
  gradient : Vec dim → Fin dim → ℝ
  hessian : Vec dim → Fin dim → Fin dim → ℝ

/-- a model: covariance functions, nugget, and the rows of the polynomial basis at a value point and at a gradient point -/
structure Model (dim l : Nat) where
  rbfs : List (Rbf dim)
  nugget : ℝ
  polyValue : Vec dim → Fin l → ℝ
  polyGradient : Vec dim → Fin dim → Fin l → ℝ

/-- value points and gradient points -/
structure Pts (dim mu sigma : Nat) where
  pts : Fin mu → Vec dim
  grads : Fin sigma → Vec dim

/-- weights: of value points, of gradient points (row by row), polynomial coefficients -/
structure Weights (dim mu sigma l : Nat) where
  w : Fin mu → ℝ
  gw : Fin sigma → Fin dim → ℝ
  c : Fin l → ℝ

variable {dim l mu sigma tmu tsigma : Nat}

/-- `direct_evaluator.hpp:38-88` - value part of the result (`y.head(trg_mu_)`): lines 50-60 for each covariance function,
then the polynomial (`82-85`, `polynomial_evaluator.hpp`) -/
noncomputable def evalValue (m : Model dim l) (src : Pts dim mu sigma) (trg : Pts dim tmu tsigma)
    (x : Weights dim mu sigma l) (i : Fin tmu) : ℝ :=
  (m.rbfs.map (fun rbf =>
    (∑ j, x.w j * rbf.value (trg.pts i - src.pts j)) +
    (∑ j, ∑ k, x.gw j k * (-(rbf.gradient (trg.pts i - src.grads j) k))))).sum +
  ∑ t, m.polyValue (trg.pts i) t * x.c t

/-- `direct_evaluator.hpp:38-88` - gradient part of the result: lines 63-75, and the polynomial -/
noncomputable def evalGradient (m : Model dim l) (src : Pts dim mu sigma) (trg : Pts dim tmu tsigma)
    (x : Weights dim mu sigma l) (i : Fin tsigma) (k : Fin dim) : ℝ :=
  (m.rbfs.map (fun rbf =>
    (∑ j, x.w j * rbf.gradient (trg.grads i - src.pts j) k) +
    (∑ j, ∑ t, x.gw j t * (-(rbf.hessian (trg.grads i - src.grads j) t k))))).sum +
  ∑ t, m.polyGradient (trg.grads i) k t * x.c t

/-- `direct_operator.hpp:31-85` - `y.head(mu_)` -/
noncomputable def opValue (m : Model dim l) (p : Pts dim mu sigma) (x : Weights dim mu sigma l) (i : Fin mu) : ℝ :=
  x.w i * m.nugget +
  (m.rbfs.map (fun rbf =>
    (∑ j, x.w j * rbf.value (p.pts i - p.pts j)) +
    (∑ j, ∑ k, x.gw j k * (-(rbf.gradient (p.pts i - p.grads j) k))))).sum +
  ∑ t, m.polyValue (p.pts i) t * x.c t

/-- `direct_operator.hpp:31-85` - `y.segment(mu_, kDim * sigma_)` -/
noncomputable def opGradient (m : Model dim l) (p : Pts dim mu sigma) (x : Weights dim mu sigma l) (i : Fin sigma)
    (k : Fin dim) : ℝ :=
  (m.rbfs.map (fun rbf =>
    (∑ j, x.w j * rbf.gradient (p.grads i - p.pts j) k) +
    (∑ j, ∑ t, x.gw j t * (-(rbf.hessian (p.grads i - p.grads j) t k))))).sum +
  ∑ t, m.polyGradient (p.grads i) k t * x.c t

/-- `direct_operator.hpp:81` - `y.tail(l_)`, the transposed polynomial matrix times the weights -/
noncomputable def opPoly (m : Model dim l) (p : Pts dim mu sigma) (x : Weights dim mu sigma l) (t : Fin l) : ℝ :=
  (∑ i, m.polyValue (p.pts i) t * x.w i) + ∑ i, ∑ k, m.polyGradient (p.grads i) k t * x.gw i k

/-- `direct_operator.hpp:31-85` -/
noncomputable def op (m : Model dim l) (p : Pts dim mu sigma) (x : Weights dim mu sigma l) : Weights dim mu sigma l :=
  ⟨opValue m p x, opGradient m p x, opPoly m p x⟩

/-- rows and columns of `a`: value points, then the components of the gradient points -/
abbrev Row (dim mu sigma : Nat) := Fin mu ⊕ (Fin sigma × Fin dim)

/-- row number: `i` for value points, `mu + kDim * i + k` for gradient points -/
def rowNo : Row dim mu sigma → Nat
  | .inl i => i
  | .inr (i, k) => mu + dim * i + k

/-- `mat_a.hpp:21-56` - the matrix before it is mirrored: the diagonal of the value block, its strict upper triangle, the
gradient block, and the blocks of the Hessian part on and above the diagonal -/
noncomputable def upper (m : Model dim l) (p : Pts dim mu sigma) : Row dim mu sigma → Row dim mu sigma → ℝ
  | .inl i, .inl j =>
      if i = j then m.nugget + (m.rbfs.map (fun rbf => rbf.value 0)).sum
      else if i < j then (m.rbfs.map (fun rbf => rbf.value (p.pts i - p.pts j))).sum
      else 0
  | .inl i, .inr (j, k) => (m.rbfs.map (fun rbf => -(rbf.gradient (p.pts i - p.grads j) k))).sum
  | .inr _, .inl _ => 0
  | .inr (i, k), .inr (j, t) =>
      if i = j then (m.rbfs.map (fun rbf => -(rbf.hessian 0 k t))).sum
      else if i < j then (m.rbfs.map (fun rbf => -(rbf.hessian (p.grads i - p.grads j) k t))).sum
      else 0

/-- `mat_a.hpp:58` - the strictly lower triangle is overwritten with the transposed upper one -/
noncomputable def matA (m : Model dim l) (p : Pts dim mu sigma) (x y : Row dim mu sigma) : ℝ :=
  if rowNo y < rowNo x then upper m p y x else upper m p x y

/-! ## accuracy -/

/-- `evaluator.hpp:95-97`, `symmetric_evaluator.hpp:77-79`, `operator.hpp:88-90` - what each elementary evaluator is asked
for; `n` covariance functions, `sigma` source gradient points -/
noncomputable def elementAccuracy (accuracy : ℝ) (sigma n : Nat) : ℝ :=
  (if sigma > 0 then accuracy / 2 else accuracy) / n

/-- `evaluator.hpp:68-71`, `symmetric_evaluator.hpp:58-61`, `operator.hpp:69-72` - an entry of the result: contributions
from value points and from gradient points, one pair for each covariance function -/
noncomputable def sumUp (contrib : List (ℝ × ℝ)) : ℝ := contrib.foldl (fun y c => y + c.1 + c.2) 0

end Verif.DirectOp
