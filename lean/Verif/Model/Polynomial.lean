import Verif.Model.Outcome
import Verif.Model.Interpolant
import Mathlib.Data.Real.Basic
import Mathlib.LinearAlgebra.Matrix.NonsingularInverse

/-!
# polynomial/monomial_basis.hpp, lagrange_basis.hpp, common/orthonormalize.hpp, kriging/detrend.hpp

Doubles are real numbers.
-/

namespace Verif.Poly

open Verif

/-- `basis_size` (`polynomial_basis_base.hpp:26-45`), modelled in `Model/Interpolant.lean`. -/
abbrev basisSize (dim deg : Nat) : Nat := Interpolant.basisSize dim (deg : Int)

/-- `monomial_basis.hpp:43-45, 53-57, 66-71, 90-92, 102-107, 121-129, 158-160, 172-178, 199-211` - the row of a point.
Other degrees and dimensions are excluded by `POLATORY_ASSERT` (line 24) and `POLATORY_UNREACHABLE`. -/
def mono : (dim deg : Nat) → (Fin dim → ℝ) → Outcome (List ℝ)
  | 1, 0, _ => .ok [1]
  | 1, 1, p => .ok [1, p 0]
  | 1, 2, p => .ok [1, p 0, p 0 * p 0]
  | 2, 0, _ => .ok [1]
  | 2, 1, p => .ok [1, p 0, p 1]
  | 2, 2, p => .ok [1, p 0, p 1, p 0 * p 0, p 0 * p 1, p 1 * p 1]
  | 3, 0, _ => .ok [1]
  | 3, 1, p => .ok [1, p 0, p 1, p 2]
  | 3, 2, p => .ok [1, p 0, p 1, p 2, p 0 * p 0, p 0 * p 1, p 0 * p 2, p 1 * p 1, p 1 * p 2, p 2 * p 2]
  | _, _, _ => .ub

/-- `monomial_basis.hpp:46-49, 58-62, 72-78, 93-98, 108-117, 130-146, 161-168, 179-195, 212-247` - the `dim` rows of a
gradient point. -/
def monoGrad : (dim deg : Nat) → (Fin dim → ℝ) → Outcome (List (List ℝ))
  | 1, 0, _ => .ok [[0]]
  | 1, 1, _ => .ok [[0, 1]]
  | 1, 2, p => .ok [[0, 1, 2 * p 0]]
  | 2, 0, _ => .ok [[0], [0]]
  | 2, 1, _ => .ok [[0, 1, 0], [0, 0, 1]]
  | 2, 2, p => .ok [[0, 1, 0, 2 * p 0, p 1, 0], [0, 0, 1, 0, p 0, 2 * p 1]]
  | 3, 0, _ => .ok [[0], [0], [0]]
  | 3, 1, _ => .ok [[0, 1, 0, 0], [0, 0, 1, 0], [0, 0, 0, 1]]
  | 3, 2, p => .ok
      [[0, 1, 0, 0, 2 * p 0, p 1, p 2, 0, 0, 0],
       [0, 0, 1, 0, 0, p 0, 0, 2 * p 1, p 2, 0],
       [0, 0, 0, 1, 0, 0, p 0, 0, p 1, 2 * p 2]]
  | _, _, _ => .ub

/-- `monomial_basis.hpp:31-262` - the value rows, then the gradient rows (`i_x = mu + Dim * i`, `i_y`, `i_z` following). -/
def evaluate (dim deg : Nat) (points grads : List (Fin dim → ℝ)) : Outcome (List (List ℝ)) := do
  let vs ← Outcome.traverse (mono dim deg) points
  let gs ← Outcome.traverse (monoGrad dim deg) grads
  return vs ++ gs.flatten

/-- A list of rows as a matrix. -/
def toMatrix (rows : List (List ℝ)) (n : Nat) : Matrix (Fin rows.length) (Fin n) ℝ :=
  Matrix.of (fun i j => (rows[i.val]'i.isLt).getD j.val 0)

/-- `lagrange_basis.hpp:67-71` -/
structure Lagrange where
  dim : Nat
  deg : Nat
  coeffs : Matrix (Fin (basisSize dim deg)) (Fin (basisSize dim deg)) ℝ

open Classical in
/-- `lagrange_basis.hpp:32-49` - `isInvertible()` holds for a square matrix of full rank, exactly when it has an inverse
(in exact arithmetic). -/
noncomputable def Lagrange.new (dim deg : Nat) (points grads : List (Fin dim → ℝ)) : Outcome Lagrange := do
  let p ← evaluate dim deg points grads
  if h : p.length = basisSize dim deg then
    let m := (toMatrix p (basisSize dim deg)).submatrix (Fin.cast h.symm) id
    if IsUnit m.det then .ok ⟨dim, deg, m⁻¹⟩ else .throws .invalidArgument
  else .throws .invalidArgument

/-- `lagrange_basis.hpp:56-62` -/
noncomputable def Lagrange.evaluate (b : Lagrange) (points grads : List (Fin b.dim → ℝ)) :
    Outcome ((n : Nat) × Matrix (Fin n) (Fin (basisSize b.dim b.deg)) ℝ) := do
  let p ← Poly.evaluate b.dim b.deg points grads
  return ⟨p.length, toMatrix p (basisSize b.dim b.deg) * b.coeffs⟩

/-- `detrend.hpp:12-29`; `solve` is `system.ldlt().solve(rhs)`. -/
noncomputable def detrend (dim : Nat)
    (solve : {n : Nat} → Matrix (Fin n) (Fin n) ℝ → (Fin n → ℝ) → (Fin n → ℝ))
    (points : List (Fin dim → ℝ)) (values : Fin points.length → ℝ) (degree : Int) :
    Outcome (Fin points.length → ℝ) :=
  if degree < 0 ∨ degree > 2 then .throws .invalidArgument
  else
    match Poly.evaluate dim degree.toNat points [] with
    | .throws e => .throws e
    | .ub => .ub
    | .ok rows =>
        if h : rows.length = points.length then
          let p := (toMatrix rows (basisSize dim degree.toNat)).submatrix (Fin.cast h.symm) id
          let system := p.transpose * p
          let rhs := p.transpose.mulVec values
          let coeffs := solve system rhs
          .ok (values - p.mulVec coeffs)
        else .ub

end Verif.Poly
