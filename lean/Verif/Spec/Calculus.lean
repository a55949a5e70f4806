import Mathlib.Analysis.Calculus.FDeriv.Pi
import Mathlib.LinearAlgebra.Matrix.Notation

/-! # Gradients and Hessians of functions of several variables -/

namespace Verif.Calculus

variable {d : Nat}

/-- `g` is the gradient of `f` at `x`: the derivative of `f` at `x` is `v ↦ ∑ j, g j * v j`. -/
def IsGradient (f : (Fin d → ℝ) → ℝ) (g : Fin d → ℝ) (x : Fin d → ℝ) : Prop :=
  HasFDerivAt f (∑ j, g j • (ContinuousLinearMap.proj j : (Fin d → ℝ) →L[ℝ] ℝ)) x

/-- `h` is the Hessian of `f` at `x`: `f` has a gradient around `x`, and the rows of `h` are the gradients of its components. -/
def IsHessian (f : (Fin d → ℝ) → ℝ) (h : Matrix (Fin d) (Fin d) ℝ) (x : Fin d → ℝ) : Prop :=
  ∃ g : (Fin d → ℝ) → Fin d → ℝ, (∀ᶠ y in nhds x, IsGradient f (g y) y) ∧ ∀ i, IsGradient (fun y => g y i) (h i) x

end Verif.Calculus
