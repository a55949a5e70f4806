import Verif.Lemmas.Kernel
import Verif.Spec.Calculus
import Mathlib.Analysis.Calculus.Deriv.Comp
import Mathlib.Analysis.Calculus.FDeriv.Pi
import Mathlib.Analysis.Calculus.FDeriv.Mul
import Mathlib.Analysis.Calculus.FDeriv.Add

/-! # From functions of the squared norm to functions of the displacement -/

namespace Verif.Kernel

open Verif Set Calculus

variable {d : Nat}

theorem sq_nonneg' (x : Fin d → ℝ) : 0 ≤ sq x := Finset.sum_nonneg fun j _ => mul_self_nonneg (x j)

theorem continuous_sq_mulVec (a : Matrix (Fin d) (Fin d) ℝ) : Continuous fun y : Fin d → ℝ => sq (a.mulVec y) := by
  unfold sq Matrix.mulVec dotProduct
  fun_prop

theorem hasFDerivAt_mulVec (a : Matrix (Fin d) (Fin d) ℝ) (x : Fin d → ℝ) (i : Fin d) :
    IsGradient (fun y => a.mulVec y i) (a i) x := by
  unfold IsGradient
  have : (fun y : Fin d → ℝ => a.mulVec y i) = ∑ j, a i j • fun y : Fin d → ℝ => y j := by
    funext y
    simp [Matrix.mulVec, dotProduct, Finset.sum_apply]
  rw [this]
  exact HasFDerivAt.sum fun j _ => (hasFDerivAt_apply j x).const_smul (a i j)

theorem isGradient_sq (a : Matrix (Fin d) (Fin d) ℝ) (x : Fin d → ℝ) :
    IsGradient (fun y => sq (a.mulVec y)) (fun j => 2 * Matrix.vecMul (a.mulVec x) a j) x := by
  unfold IsGradient
  have h : HasFDerivAt (fun y => sq (a.mulVec y)) (∑ i, (a.mulVec x i • (∑ j, a i j • (ContinuousLinearMap.proj j : (Fin d → ℝ) →L[ℝ] ℝ)) +
      a.mulVec x i • (∑ j, a i j • (ContinuousLinearMap.proj j : (Fin d → ℝ) →L[ℝ] ℝ)))) x := by
    unfold sq
    have := HasFDerivAt.sum (u := Finset.univ) fun i _ => (hasFDerivAt_mulVec a x i).mul (hasFDerivAt_mulVec a x i)
    refine this.congr_of_eventuallyEq (Filter.Eventually.of_forall fun y => ?_)
    simp [Finset.sum_apply]
  refine h.congr_fderiv ?_
  ext v
  simp only [ContinuousLinearMap.sum_apply, ContinuousLinearMap.add_apply, ContinuousLinearMap.smul_apply, ContinuousLinearMap.proj_apply,
    smul_eq_mul, Matrix.vecMul, dotProduct]
  simp only [← two_mul, Finset.mul_sum, Finset.sum_mul]
  rw [Finset.sum_comm]
  refine Finset.sum_congr rfl fun j _ => Finset.sum_congr rfl fun i _ => by ring

/-- The chain rule: a function of the squared norm has as gradient twice its derivative times the displacement, transformed. -/
theorem radial_gradient {F : ℝ → ℝ} {c : ℝ} (a : Matrix (Fin d) (Fin d) ℝ) (x : Fin d → ℝ)
    (h : HasDerivWithinAt F (c / 2) (Ici 0) (sq (a.mulVec x))) :
    IsGradient (fun y => F (sq (a.mulVec y))) (Matrix.vecMul (c • a.mulVec x) a) x := by
  unfold IsGradient
  have hc := h.hasFDerivWithinAt.comp_hasFDerivAt (f := fun y => sq (a.mulVec y)) x (isGradient_sq a x)
    (Filter.Eventually.of_forall fun y => sq_nonneg' _)
  refine HasFDerivAt.congr_fderiv (f := F ∘ fun y => sq (a.mulVec y)) hc ?_
  ext v
  simp only [ContinuousLinearMap.comp_apply, ContinuousLinearMap.sum_apply, ContinuousLinearMap.smul_apply,
    ContinuousLinearMap.proj_apply, smul_eq_mul, ContinuousLinearMap.toSpanSingleton_apply, Matrix.smul_vecMul, Pi.smul_apply,
    Finset.sum_mul]
  refine Finset.sum_congr rfl fun j _ => by ring

theorem radial_hessian {G : ℝ → ℝ} {w : ℝ} (a : Matrix (Fin d) (Fin d) ℝ) (x : Fin d → ℝ)
    (h : HasDerivWithinAt G (w / 2) (Ici 0) (sq (a.mulVec x))) (i : Fin d) :
    IsGradient (fun y => Matrix.vecMul (G (sq (a.mulVec y)) • a.mulVec y) a i)
      ((a.transpose * hessMatrix (G (sq (a.mulVec x))) w (a.mulVec x) * a) i) x := by
  have hG := radial_gradient a x h
  have hV : IsGradient (fun y => Matrix.vecMul (a.mulVec y) a i) ((a.transpose * a) i) x := by
    have : (fun y : Fin d → ℝ => Matrix.vecMul (a.mulVec y) a i) = fun y => (a.transpose * a).mulVec y i := by
      funext y
      rw [← Matrix.mulVec_mulVec, Matrix.mulVec_transpose]
    rw [this]
    exact hasFDerivAt_mulVec _ x i
  unfold IsGradient at *
  have hm := hG.mul hV
  have heq : (fun y : Fin d → ℝ => Matrix.vecMul (G (sq (a.mulVec y)) • a.mulVec y) a i) =
      (fun y => G (sq (a.mulVec y))) * fun y => Matrix.vecMul (a.mulVec y) a i := by
    funext y
    simp [Matrix.smul_vecMul]
  rw [heq]
  refine hm.congr_fderiv ?_
  ext v
  simp only [ContinuousLinearMap.add_apply, ContinuousLinearMap.sum_apply, ContinuousLinearMap.smul_apply,
    ContinuousLinearMap.proj_apply, smul_eq_mul]
  rw [Finset.mul_sum, Finset.mul_sum, ← Finset.sum_add_distrib]
  refine Finset.sum_congr rfl fun j _ => ?_
  have : (a.transpose * hessMatrix (G (sq (a.mulVec x))) w (a.mulVec x) * a) i j =
      G (sq (a.mulVec x)) * (a.transpose * a) i j + w * (Matrix.vecMul (a.mulVec x) a i * Matrix.vecMul (a.mulVec x) a j) := by
    unfold hessMatrix
    rw [Matrix.mul_add, Matrix.add_mul, Matrix.add_apply, Matrix.mul_smul, Matrix.smul_mul, Matrix.mul_one, Matrix.smul_apply,
      Matrix.mul_smul, Matrix.smul_mul, Matrix.smul_apply, smul_eq_mul, smul_eq_mul, Matrix.mul_vecMulVec, Matrix.vecMulVec_mul,
      Matrix.vecMulVec_apply, Matrix.mulVec_transpose]
  rw [this]
  simp only [Matrix.smul_vecMul, Pi.smul_apply, smul_eq_mul]
  ring

/-- A product of something of the order of the displacement and something that vanishes has derivative zero at the origin. -/
theorem isGradient_zero {f g h : (Fin d → ℝ) → ℝ} {C : ℝ} (hf : ∀ y, f y = g y * h y) (hg : ∀ y, |g y| ≤ C * ‖y‖)
    (hh : Filter.Tendsto h (nhds 0) (nhds 0)) : IsGradient f 0 0 := by
  unfold IsGradient
  have h0 : f 0 = 0 := by
    rw [hf]
    have := hg 0
    rw [norm_zero, mul_zero] at this
    rw [abs_nonpos_iff.1 this, zero_mul]
  have hz : (∑ j, (0 : Fin d → ℝ) j • (ContinuousLinearMap.proj j : (Fin d → ℝ) →L[ℝ] ℝ)) = 0 := by simp
  rw [hz, hasFDerivAt_iff_isLittleO_nhds_zero]
  simp only [zero_add, h0, sub_zero, ContinuousLinearMap.zero_apply]
  have hO : (fun y => g y) =O[nhds 0] fun y : Fin d → ℝ => y :=
    Asymptotics.IsBigO.of_bound C (Filter.Eventually.of_forall fun y => by rw [Real.norm_eq_abs]; exact hg y)
  have ho : h =o[nhds 0] fun _ => (1 : ℝ) := (Asymptotics.isLittleO_one_iff ℝ).2 hh
  have := hO.norm_right.mul_isLittleO ho
  simp only [mul_one] at this
  refine (this.of_norm_right).congr_left fun y => (hf y).symm

end Verif.Kernel
