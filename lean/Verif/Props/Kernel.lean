import Verif.Lemmas.KernelChain
import Verif.Lemmas.Spheroidal
import Mathlib.Analysis.SpecialFunctions.Log.NegMulLog
import Mathlib.Tactic.FinCases
import Mathlib.Tactic.GCongr

/-!
# C41, C42: the radial basis functions
-/

namespace Verif.Kernel

open Verif Set Calculus

variable {d : Nat}

/-- The displacements, by their transformed squared norm `s`, at which the gradient is claimed to be the derivative: for the
exponential and spherical functions away from the origin, for the Gaussian, cubic and Cauchy functions everywhere, for the
polyharmonic functions away from the origin or with a positive shift `q`. -/
def Smooth : Kern → ℝ → ℝ → Prop
  | .exponential, q, s => 0 < q ∧ 0 < s
  | .gaussian, q, _ => 0 < q
  | .spherical, q, s => 0 < q ∧ 0 < s
  | .cubic, q, _ => 0 < q
  | .cauchy _ a, q, _ => 0 < q ∧ 0 ≤ a
  | .spheroidal _ _, _, _ => False
  | .even _, q, s => 0 < s + q * q
  | .odd _, q, s => 0 < s + q * q

theorem radialGrad_of_smooth {k : Kern} (p : ℝ) {q s : ℝ} (hs : 0 ≤ s) (h : Smooth k q s) : RadialGrad k p q s := by
  cases k with
  | exponential => exact exponential_grad p h.1 h.2
  | gaussian => exact gaussian_grad p h hs
  | spherical => exact spherical_grad p h.1 h.2
  | cubic => exact cubic_grad p h hs
  | cauchy m a => exact cauchy_grad m a h.2 p h.1 hs
  | spheroidal o part => exact h.elim
  | even k => exact even_grad k p h
  | odd k => exact odd_grad k p h

theorem smooth_eventually {k : Kern} {q : ℝ} {a : Matrix (Fin d) (Fin d) ℝ} {x : Fin d → ℝ} (h : Smooth k q (sq (a.mulVec x))) :
    ∀ᶠ y in nhds x, Smooth k q (sq (a.mulVec y)) := by
  have hc := (continuous_sq_mulVec a).continuousAt (x := x)
  cases k with
  | exponential => filter_upwards [hc.eventually (eventually_gt_nhds h.2)] with y hy using ⟨h.1, hy⟩
  | gaussian => exact Filter.Eventually.of_forall fun _ => h
  | spherical => filter_upwards [hc.eventually (eventually_gt_nhds h.2)] with y hy using ⟨h.1, hy⟩
  | cubic => exact Filter.Eventually.of_forall fun _ => h
  | cauchy m a => exact Filter.Eventually.of_forall fun _ => h
  | spheroidal o part => exact h.elim
  | even k => exact (hc.add_const (q * q)).eventually (eventually_gt_nhds h)
  | odd k => exact (hc.add_const (q * q)).eventually (eventually_gt_nhds h)

theorem evaluateGradient_of_radial {k : Kern} {p q : ℝ} {a : Matrix (Fin d) (Fin d) ℝ} {x : Fin d → ℝ}
    (h : RadialGrad k p q (sq (a.mulVec x))) :
    ∃ g, evaluateGradient k p q a x = some g ∧ g = Matrix.vecMul ((grad k p q (sq (a.mulVec x))).get • a.mulVec x) a ∧
      IsGradient (evaluate k p q a) g x := by
  obtain ⟨c, hc, hd⟩ := h
  refine ⟨Matrix.vecMul (c • a.mulVec x) a, ?_, ?_, radial_gradient a x hd⟩
  · unfold evaluateGradient; rw [hc]
  · rw [hc]; rfl

/-- **C41.** The gradient is the derivative of the value, whatever the anisotropy. -/
theorem C41_gradient (k : Kern) (p q : ℝ) (a : Matrix (Fin d) (Fin d) ℝ) (x : Fin d → ℝ) (h : Smooth k q (sq (a.mulVec x))) :
    ∃ g, evaluateGradient k p q a x = some g ∧ IsGradient (evaluate k p q a) g x := by
  obtain ⟨g, h1, -, h2⟩ := evaluateGradient_of_radial (radialGrad_of_smooth p (sq_nonneg' _) h)
  exact ⟨g, h1, h2⟩

/-- The displacements at which the Hessian is claimed to be the second derivative; the spherical and cubic functions have no Hessian
in the code. -/
def SmoothTwice : Kern → ℝ → ℝ → Prop
  | .spherical, _, _ => False
  | .cubic, _, _ => False
  | .even k, q, s => 0 < s + q * q ∧ 1 + ((k + 2 : ℕ) : ℝ) * Real.log (Real.sqrt (s + q * q)) ≠ 0
  | k, q, s => Smooth k q s

theorem smooth_of_twice {k : Kern} {q s : ℝ} (h : SmoothTwice k q s) : Smooth k q s := by
  cases k with
  | spherical => exact h.elim
  | cubic => exact h.elim
  | even k => exact h.1
  | exponential => exact h
  | gaussian => exact h
  | cauchy m a => exact h
  | spheroidal o part => exact h
  | odd k => exact h

theorem radialHess_of_smooth {k : Kern} (p : ℝ) {q s : ℝ} (hs : 0 ≤ s) (h : SmoothTwice k q s) : RadialHess k p q s := by
  cases k with
  | exponential => exact exponential_hess p h.1 h.2
  | gaussian => exact gaussian_hess p h hs
  | spherical => exact h.elim
  | cubic => exact h.elim
  | cauchy m a => exact cauchy_hess m a h.2 p h.1 hs
  | spheroidal o part => exact h.elim
  | even k => exact even_hess k p h.1 h.2
  | odd k => exact odd_hess k p h

theorem isHessian_of_radial {k : Kern} {p q : ℝ} {a : Matrix (Fin d) (Fin d) ℝ} {x : Fin d → ℝ} {w : ℝ}
    (hg : ∀ᶠ y in nhds x, RadialGrad k p q (sq (a.mulVec y)))
    (h : HasDerivWithinAt (fun s => (grad k p q s).get) (w / 2) (Ici 0) (sq (a.mulVec x))) :
    IsHessian (evaluate k p q a)
      (a.transpose * hessMatrix (grad k p q (sq (a.mulVec x))).get w (a.mulVec x) * a) x := by
  refine ⟨fun y => Matrix.vecMul ((grad k p q (sq (a.mulVec y))).get • a.mulVec y) a, ?_, fun i => radial_hessian a x h i⟩
  filter_upwards [hg] with y hy
  obtain ⟨g, -, h1, h2⟩ := evaluateGradient_of_radial hy
  rw [← h1]; exact h2

/-- **C41.** The Hessian is the second derivative of the value, whatever the anisotropy. -/
theorem C41_hessian (k : Kern) (p q : ℝ) (a : Matrix (Fin d) (Fin d) ℝ) (x : Fin d → ℝ)
    (h : SmoothTwice k q (sq (a.mulVec x))) :
    ∃ m, evaluateHessian k p q a x = .ok (some m) ∧ IsHessian (evaluate k p q a) m x := by
  obtain ⟨c, w, h1, h2, h3⟩ := radialHess_of_smooth p (sq_nonneg' (a.mulVec x)) h
  refine ⟨a.transpose * hessMatrix c w (a.mulVec x) * a, ?_, ?_⟩
  · unfold evaluateHessian; rw [h1]
  · have hg : ∀ᶠ y in nhds x, RadialGrad k p q (sq (a.mulVec y)) := by
      filter_upwards [smooth_eventually (smooth_of_twice h)] with y hy using radialGrad_of_smooth p (sq_nonneg' _) hy
    have := isHessian_of_radial hg h3
    rw [h2] at this
    exact this

/-- The hypotheses are met: every Cauchy function of the library, at every displacement. -/
example (k : Kern) (h : k ∈ cauchies) (s : ℝ) : SmoothTwice k 2 s := by
  unfold cauchies at h
  fin_cases h <;> exact ⟨by norm_num, by norm_num⟩

example : SmoothTwice .exponential 2 (sq (d := 2) ((!![1, 2; 0, 1] : Matrix (Fin 2) (Fin 2) ℝ).mulVec ![1, 1])) := by
  refine ⟨by norm_num, ?_⟩
  simp [sq, Matrix.mulVec, dotProduct, Fin.sum_univ_two]
  norm_num

/-- **C41.** The Hessian of the spherical and cubic functions throws. -/
theorem C41_no_hessian (p q : ℝ) (a : Matrix (Fin d) (Fin d) ℝ) (x : Fin d → ℝ) :
    evaluateHessian .spherical p q a x = .throws .runtimeError ∧ evaluateHessian .cubic p q a x = .throws .runtimeError :=
  ⟨rfl, rfl⟩

theorem eq_zero_of_sq {x : Fin d → ℝ} (h : sq x = 0) : x = 0 := by
  funext j
  unfold sq at h
  rw [Finset.sum_eq_zero_iff_of_nonneg fun j _ => mul_self_nonneg (x j)] at h
  simpa using h j (Finset.mem_univ j)

theorem sq_zero' : sq (0 : Fin d → ℝ) = 0 := by simp [sq]

/-- **C41.** At the origin the gradient and the Hessian of the exponential function, and the gradient of the spherical function, are
not finite. -/
theorem C41_not_finite_at_origin (p q : ℝ) (hq : 0 < q) (a : Matrix (Fin d) (Fin d) ℝ) :
    evaluateGradient .exponential p q a 0 = none ∧ evaluateGradient .spherical p q a 0 = none ∧
      evaluateHessian .exponential p q a 0 = .ok none := by
  refine ⟨?_, ?_, ?_⟩
  · simp [evaluateGradient, Matrix.mulVec_zero, sq_zero', grad]
  · simp [evaluateGradient, Matrix.mulVec_zero, sq_zero', grad, hq]
  · simp [evaluateHessian, Matrix.mulVec_zero, sq_zero', hess]

/-- **C41, a defect.** The Hessian of an even polyharmonic function is not finite where `1 + K log rho = 0` although the function is
twice differentiable there: the code divides by that number and multiplies by it. -/
theorem C41_even_hessian_nan (k : Nat) (p q : ℝ) (a : Matrix (Fin d) (Fin d) ℝ) (x : Fin d → ℝ)
    (h : 0 < sq (a.mulVec x) + q * q)
    (hlog : 1 + ((k + 2 : ℕ) : ℝ) * Real.log (Real.sqrt (sq (a.mulVec x) + q * q)) = 0) :
    evaluateHessian (.even k) p q a x = .ok none ∧ ∃ m, IsHessian (evaluate (.even k) p q a) m x := by
  constructor
  · have hr : Real.sqrt (sq (a.mulVec x) + q * q) ≠ 0 := (Real.sqrt_pos.2 h).ne'
    unfold evaluateHessian
    have : hess (.even k) p q (sq (a.mulVec x)) = .nan := (if_neg hr).trans (if_pos hlog)
    rw [this]
  · have hg : ∀ᶠ y in nhds x, RadialGrad (.even k) p q (sq (a.mulVec y)) := by
      filter_upwards [smooth_eventually (k := .even k) (q := q) (a := a) (x := x) h] with y hy
        using radialGrad_of_smooth p (sq_nonneg' _) hy
    exact ⟨_, isHessian_of_radial hg (even_grad_deriv k p h)⟩

/-- There is such a displacement in every positive dimension, for every degree. -/
theorem C41_even_hessian_nan_reachable (k n : Nat) :
    ∃ x : Fin (n + 1) → ℝ, evaluateHessian (.even k) 1 0 1 x = .ok none := by
  set r : ℝ := Real.exp (-(1 / ((k + 2 : ℕ) : ℝ))) with hr
  have hr0 : 0 < r := Real.exp_pos _
  have hs : sq ((1 : Matrix (Fin (n + 1)) (Fin (n + 1)) ℝ).mulVec (Pi.single 0 r)) = r * r := by
    rw [Matrix.one_mulVec]
    unfold sq
    rw [Finset.sum_eq_single 0] <;> simp +contextual [Pi.single_apply]
  refine ⟨Pi.single 0 r, (C41_even_hessian_nan k 1 0 1 _ ?_ ?_).1⟩
  · rw [hs]; positivity
  · rw [hs, mul_zero, add_zero, Real.sqrt_mul_self hr0.le, hr, Real.log_exp]
    have : ((k + 2 : ℕ) : ℝ) ≠ 0 := by positivity
    field_simp
    ring

/-! ## At the origin without shift -/

theorem abs_mulVec_le (a : Matrix (Fin d) (Fin d) ℝ) (y : Fin d → ℝ) (i : Fin d) : |a.mulVec y i| ≤ (∑ j, |a i j|) * ‖y‖ := by
  unfold Matrix.mulVec dotProduct
  rw [Finset.sum_mul]
  refine (Finset.abs_sum_le_sum_abs _ _).trans (Finset.sum_le_sum fun j _ => ?_)
  rw [abs_mul]
  exact mul_le_mul_of_nonneg_left (by rw [← Real.norm_eq_abs]; exact norm_le_pi_norm y j) (abs_nonneg _)

theorem sqrt_sq_le (a : Matrix (Fin d) (Fin d) ℝ) : ∃ C, ∀ y : Fin d → ℝ, |Real.sqrt (sq (a.mulVec y))| ≤ C * ‖y‖ := by
  refine ⟨Real.sqrt (∑ i, (∑ j, |a i j|) * (∑ j, |a i j|)), fun y => ?_⟩
  rw [abs_of_nonneg (Real.sqrt_nonneg _)]
  have hle : sq (a.mulVec y) ≤ (∑ i, (∑ j, |a i j|) * (∑ j, |a i j|)) * (‖y‖ * ‖y‖) := by
    unfold sq
    rw [Finset.sum_mul]
    refine Finset.sum_le_sum fun i _ => ?_
    rw [← abs_mul_abs_self]
    calc |a.mulVec y i| * |a.mulVec y i| ≤ ((∑ j, |a i j|) * ‖y‖) * ((∑ j, |a i j|) * ‖y‖) :=
          mul_self_le_mul_self (abs_nonneg _) (abs_mulVec_le a y i)
      _ = _ := by ring
  refine (Real.sqrt_le_sqrt hle).trans ?_
  rw [Real.sqrt_mul (Finset.sum_nonneg fun i _ => mul_self_nonneg _), Real.sqrt_mul_self (norm_nonneg _)]

theorem tendsto_sqrt_sq (a : Matrix (Fin d) (Fin d) ℝ) :
    Filter.Tendsto (fun y : Fin d → ℝ => Real.sqrt (sq (a.mulVec y))) (nhds 0) (nhds 0) := by
  have h : Continuous fun y : Fin d → ℝ => Real.sqrt (sq (a.mulVec y)) := Real.continuous_sqrt.comp (continuous_sq_mulVec a)
  have := h.tendsto 0
  rwa [Matrix.mulVec_zero, sq_zero', Real.sqrt_zero] at this

theorem continuous_mul_log : Continuous fun r : ℝ => r * Real.log r := Real.continuous_mul_log

/-- Polyharmonic functions other than the linear one are differentiable at the origin even without shift. -/
def SmoothAtOrigin : Kern → Prop
  | .even _ => True
  | .odd k => 1 ≤ k
  | _ => False

/-- Moving by a displacement that the anisotropy maps to zero changes nothing. -/
theorem isGradient_shift {f : (Fin d → ℝ) → ℝ} {g x : Fin d → ℝ} (hf : ∀ y, f (y - x) = f y) (h : IsGradient f g 0) :
    IsGradient f g x := by
  unfold IsGradient at *
  have h1 : HasFDerivAt (fun y => y - x) (ContinuousLinearMap.id ℝ (Fin d → ℝ)) x := (hasFDerivAt_id x).sub_const x
  rw [← sub_self x] at h
  have := HasFDerivAt.comp (g := f) (f := fun y => y - x) x h h1
  rw [show (f ∘ fun y => y - x) = f from funext hf, ContinuousLinearMap.comp_id] at this
  exact this

/-- **C41.** At the origin without shift the polyharmonic functions other than the linear one have gradient zero, as the code says. -/
theorem C41_gradient_at_origin (k : Kern) (p : ℝ) (a : Matrix (Fin d) (Fin d) ℝ) (h : SmoothAtOrigin k) :
    ∃ g, evaluateGradient k p 0 a 0 = some g ∧ IsGradient (evaluate k p 0 a) g 0 := by
  obtain ⟨C, hC⟩ := sqrt_sq_le a
  have ht := tendsto_sqrt_sq a
  refine ⟨0, ?_, ?_⟩
  · cases k <;> first | exact h.elim | simp [evaluateGradient, grad, Matrix.mulVec_zero, sq_zero']
  · cases k with
    | even k =>
        refine isGradient_zero (g := fun y => Real.sqrt (sq (a.mulVec y)))
          (h := fun y => evenSign k * p * Real.sqrt (sq (a.mulVec y)) ^ k *
            (Real.sqrt (sq (a.mulVec y)) * Real.log (Real.sqrt (sq (a.mulVec y))))) ?_ hC ?_
        · intro y
          simp only [evaluate, value, mul_zero, add_zero]
          split
          · rename_i h0; rw [h0]; simp
          · ring
        · have hc : Continuous fun r : ℝ => evenSign k * p * r ^ k * (r * Real.log r) :=
            (continuous_const.mul (continuous_pow k)).mul continuous_mul_log
          have h0 := (hc.tendsto 0).comp ht
          rw [show evenSign k * p * (0 : ℝ) ^ k * (0 * Real.log 0) = 0 by ring] at h0
          exact h0
    | odd k =>
        refine isGradient_zero (g := fun y => Real.sqrt (sq (a.mulVec y)))
          (h := fun y => oddSign k * p * Real.sqrt (sq (a.mulVec y)) ^ (2 * k)) ?_ hC ?_
        · intro y
          simp only [evaluate, value, mul_zero, add_zero]
          ring
        · have hc : Continuous fun r : ℝ => oddSign k * p * r ^ (2 * k) := by fun_prop
          have h0 := (hc.tendsto 0).comp ht
          have h1 : 2 * k ≠ 0 := by have : 1 ≤ k := h; omega
          rw [show oddSign k * p * (0 : ℝ) ^ (2 * k) = 0 by rw [zero_pow h1, mul_zero]] at h0
          exact h0
    | _ => exact h.elim

/-- Polyharmonic functions of degree at least three are twice differentiable at the origin even without shift. -/
def SmoothTwiceAtOrigin : Kern → Prop
  | .even k => 1 ≤ k
  | .odd k => 1 ≤ k
  | _ => False

/-- **C41.** At the origin without shift the polyharmonic functions of degree at least three have Hessian zero, as the code says. -/
theorem C41_hessian_at_origin (k : Kern) (p : ℝ) (a : Matrix (Fin d) (Fin d) ℝ) (h : SmoothTwiceAtOrigin k) :
    ∃ m, evaluateHessian k p 0 a 0 = .ok (some m) ∧ IsHessian (evaluate k p 0 a) m 0 := by
  have hz : hess k p 0 0 = .num 0 0 := by cases k <;> first | exact h.elim | simp [hess]
  have hm : (a.transpose * hessMatrix 0 0 (a.mulVec 0) * a) = 0 := by simp [hessMatrix]
  refine ⟨0, ?_, ?_⟩
  · unfold evaluateHessian
    rw [Matrix.mulVec_zero, sq_zero', hz]
    simp [hessMatrix]
  · refine ⟨fun y => Matrix.vecMul ((grad k p 0 (sq (a.mulVec y))).get • a.mulVec y) a, ?_, ?_⟩
    · refine Filter.Eventually.of_forall fun y => ?_
      by_cases hy : 0 < sq (a.mulVec y)
      · have hs : Smooth k 0 (sq (a.mulVec y)) := by
          cases k <;> first | exact h.elim | (show 0 < _ + (0 : ℝ) * 0; rw [mul_zero, add_zero]; exact hy)
        obtain ⟨g, -, h1, h2⟩ := evaluateGradient_of_radial (radialGrad_of_smooth p (sq_nonneg' _) hs)
        show IsGradient _ (Matrix.vecMul ((grad k p 0 (sq (a.mulVec y))).get • a.mulVec y) a) y
        rw [← h1]; exact h2
      · have h0 : a.mulVec y = 0 := eq_zero_of_sq (le_antisymm (not_lt.1 hy) (sq_nonneg' _))
        have hso : SmoothAtOrigin k := by cases k <;> first | exact h.elim | trivial | exact h
        obtain ⟨g, h1, h2⟩ := C41_gradient_at_origin k p a hso
        have hg0 : g = 0 := by
          cases k <;> first | exact h.elim | simpa [evaluateGradient, grad, Matrix.mulVec_zero, sq_zero', eq_comm] using h1
        subst hg0
        show IsGradient _ (Matrix.vecMul ((grad k p 0 (sq (a.mulVec y))).get • a.mulVec y) a) y
        rw [h0, smul_zero, Matrix.zero_vecMul]
        refine isGradient_shift (fun z => ?_) h2
        unfold evaluate
        rw [Matrix.mulVec_sub, h0, sub_zero]
    · intro i
      have hV : ∀ y : Fin d → ℝ, |Matrix.vecMul (a.mulVec y) a i| ≤ (∑ j, |(a.transpose * a) i j|) * ‖y‖ := by
        intro y
        rw [← Matrix.mulVec_transpose, Matrix.mulVec_mulVec]
        exact abs_mulVec_le _ y i
      have ht := tendsto_sqrt_sq a
      refine isGradient_zero (g := fun y => Matrix.vecMul (a.mulVec y) a i) (h := fun y => (grad k p 0 (sq (a.mulVec y))).get)
        ?_ hV ?_
      · intro y
        simp only [Matrix.smul_vecMul, Pi.smul_apply, smul_eq_mul]
        ring
      · cases k with
        | even k =>
            obtain ⟨k, rfl⟩ : ∃ k', k = k' + 1 := ⟨k - 1, by have : 1 ≤ k := h; omega⟩
            have hc : Continuous fun r : ℝ => evenSign (k + 1) * p * r ^ k * (r + ((k + 1 + 2 : ℕ) : ℝ) * (r * Real.log r)) :=
              (continuous_const.mul (continuous_pow k)).mul (continuous_id.add (continuous_const.mul continuous_mul_log))
            have h0 := (hc.tendsto 0).comp ht
            rw [show evenSign (k + 1) * p * (0 : ℝ) ^ k * (0 + ((k + 1 + 2 : ℕ) : ℝ) * (0 * Real.log 0)) = 0 by ring] at h0
            refine h0.congr fun y => ?_
            simp only [Function.comp, grad, mul_zero, add_zero]
            split
            · rename_i hr; rw [hr]; simp [Coef.get]
            · simp only [Coef.get]; ring
        | odd k =>
            obtain ⟨k, rfl⟩ : ∃ k', k = k' + 1 := ⟨k - 1, by have : 1 ≤ k := h; omega⟩
            have hc : Continuous fun r : ℝ => oddSign (k + 1) * ((2 * (k + 1) + 1 : ℕ) : ℝ) * p * r ^ (2 * k + 1) := by fun_prop
            have h0 := (hc.tendsto 0).comp ht
            rw [show oddSign (k + 1) * ((2 * (k + 1) + 1 : ℕ) : ℝ) * p * (0 : ℝ) ^ (2 * k + 1) = 0 by
              rw [zero_pow (by omega), mul_zero]] at h0
            refine h0.congr fun y => ?_
            have he : (2 * ((k + 1 : ℕ) : ℤ) + 1 - 2) = ((2 * k + 1 : ℕ) : ℤ) := by push_cast; ring
            simp only [Function.comp, grad, mul_zero, add_zero]
            rw [he]
            split
            · rename_i hr; rw [hr]; simp [Coef.get]
            · simp only [Coef.get, zpow_natCast]
        | _ => exact h.elim

/-! ## Spheroidal functions: the derived constants are rounded -/

theorem exact_smooth {o : Spheroid} {part : Part} {q s : ℝ} (h : SphSmooth o part q s) : SphSmooth o.exact part q s := h

theorem exact_radialGrad {o : Spheroid} (ho : o ∈ spheroids) (part : Part) (p : ℝ) {q s : ℝ} (hq : 0 < q) (hs : 0 ≤ s)
    (h : SphSmooth o part q s) : RadialGrad (.spheroidal o.exact part) p q s :=
  sph_radialGrad o.exact (spheroid_facts ho).2.2.2.2.2.1.le rfl part p hq hs (exact_smooth h)

/-- **C41.** The gradient of every version of the spheroidal functions of the library is the derivative of the value up to a relative
error of `2e-16` of the gradient `f` of the smooth part (the derived constants are rounded): everywhere for the smooth part, and
away from the origin and from the radius where the two pieces meet for the others. -/
theorem C41_spheroidal_gradient (o : Spheroid) (ho : o ∈ spheroids) (part : Part) (p q : ℝ) (hq : 0 < q)
    (a : Matrix (Fin d) (Fin d) ℝ) (x : Fin d → ℝ)
    (h : part = .fast ∨ (a.mulVec x ≠ 0 ∧ Real.sqrt (sq (a.mulVec x)) / q ≠ o.rho0)) :
    ∃ g t f, evaluateGradient (.spheroidal o part) p q a x = some g ∧
      IsGradient (evaluate (.spheroidal o part) p q a) t x ∧
      IsGradient (evaluate (.spheroidal o .fast) p q a) f x ∧
      ∀ j, |g j - t j| ≤ 2e-16 * |f j| := by
  have hs := sq_nonneg' (a.mulVec x)
  have hsm : SphSmooth o part q (sq (a.mulVec x)) := h.imp id fun h =>
    ⟨lt_of_le_of_ne hs fun h0 => h.1 (eq_zero_of_sq h0.symm), h.2⟩
  obtain ⟨t, ht0, ht1, ht2⟩ := evaluateGradient_of_radial (exact_radialGrad ho part p hq hs hsm)
  obtain ⟨f, hf0, hf1, hf2⟩ := evaluateGradient_of_radial (exact_radialGrad ho .fast p hq hs (Or.inl rfl))
  have hev : ∀ part, evaluate (.spheroidal o.exact part) p q a = evaluate (.spheroidal o part) p q a := by
    intro part; funext y; unfold evaluate; rw [value_exact]
  rw [hev] at ht2 hf2
  have hg0 := sph_grad_eq o part p (q := q) (smooth_pos hsm)
  have hge := sph_grad_eq o.exact part p (q := q) (smooth_pos hsm)
  have hfe := sph_grad_eq o.exact .fast p (q := q) (s := sq (a.mulVec x)) (Or.inl rfl)
  refine ⟨Matrix.vecMul ((grad (.spheroidal o part) p q (sq (a.mulVec x))).get • a.mulVec x) a, t, f, ?_, ht2, hf2, ?_⟩
  · unfold evaluateGradient; rw [hg0]; rfl
  · intro j
    rw [ht1, hf1, hg0, hge, hfe]
    simp only [Coef.get, Matrix.smul_vecMul, Pi.smul_apply, smul_eq_mul]
    rw [← sub_mul, abs_mul, abs_mul, ← mul_assoc]
    refine mul_le_mul_of_nonneg_right ?_ (abs_nonneg _)
    have hcl := imqGrad_close ho p q (Real.sqrt (sq (a.mulVec x)) / q)
    have h0 : (0 : ℝ) ≤ 2e-16 * |o.exact.imqGrad p q (Real.sqrt (sq (a.mulVec x)) / q)| := by positivity
    have hr0 : o.exact.rho0 = o.rho0 := rfl
    have hlin : o.exact.linGrad p q (Real.sqrt (sq (a.mulVec x))) = o.linGrad p q (Real.sqrt (sq (a.mulVec x))) := rfl
    cases part with
    | fast => exact hcl
    | full =>
        dsimp only
        rw [hr0, hlin]
        split
        · rw [sub_self, abs_zero]; exact h0
        · exact hcl
    | direct =>
        dsimp only
        rw [hr0, hlin]
        split
        · rw [sub_sub_sub_cancel_left, abs_sub_comm]; exact hcl
        · rw [sub_self, abs_zero]; exact h0

theorem sphSmooth_eventually {o : Spheroid} {part : Part} {q : ℝ} {a : Matrix (Fin d) (Fin d) ℝ} {x : Fin d → ℝ}
    (h : SphSmooth o part q (sq (a.mulVec x))) : ∀ᶠ y in nhds x, SphSmooth o part q (sq (a.mulVec y)) := by
  rcases h with h | h
  · exact Filter.Eventually.of_forall fun _ => Or.inl h
  · have hc := (continuous_sq_mulVec a).continuousAt (x := x)
    have hr : ContinuousAt (fun y => Real.sqrt (sq (a.mulVec y)) / q) x :=
      (Real.continuous_sqrt.continuousAt.comp hc).div_const q
    filter_upwards [hc.eventually (eventually_gt_nhds h.1), hr.eventually_ne h.2] with y h1 h2 using Or.inr ⟨h1, h2⟩

/-- **C41.** Likewise the Hessian, `a^T (c I + w y y^T) a` with `y` the transformed displacement: `c` and `w` are those of the second
derivative up to relative errors of `2e-16` and `4e-16` of those of the smooth part. -/
theorem C41_spheroidal_hessian (o : Spheroid) (ho : o ∈ spheroids) (part : Part) (p q : ℝ) (hq : 0 < q)
    (a : Matrix (Fin d) (Fin d) ℝ) (x : Fin d → ℝ)
    (h : part = .fast ∨ (a.mulVec x ≠ 0 ∧ Real.sqrt (sq (a.mulVec x)) / q ≠ o.rho0)) :
    ∃ c w c' w' cf wf,
      evaluateHessian (.spheroidal o part) p q a x = .ok (some (a.transpose * hessMatrix c w (a.mulVec x) * a)) ∧
      IsHessian (evaluate (.spheroidal o part) p q a) (a.transpose * hessMatrix c' w' (a.mulVec x) * a) x ∧
      IsHessian (evaluate (.spheroidal o .fast) p q a) (a.transpose * hessMatrix cf wf (a.mulVec x) * a) x ∧
      |c - c'| ≤ 2e-16 * |cf| ∧ |w - w'| ≤ 4e-16 * |wf| := by
  have hs := sq_nonneg' (a.mulVec x)
  have hsm : SphSmooth o part q (sq (a.mulVec x)) := h.imp id fun h =>
    ⟨lt_of_le_of_ne hs fun h0 => h.1 (eq_zero_of_sq h0.symm), h.2⟩
  have hsf : SphSmooth o .fast q (sq (a.mulVec x)) := Or.inl rfl
  have hev : ∀ part, evaluate (.spheroidal o.exact part) p q a = evaluate (.spheroidal o part) p q a := by
    intro part; funext y; unfold evaluate; rw [value_exact]
  have hH : ∀ part, SphSmooth o part q (sq (a.mulVec x)) → ∀ c w, hess (.spheroidal o.exact part) p q (sq (a.mulVec x)) = .num c w →
      IsHessian (evaluate (.spheroidal o part) p q a) (a.transpose * hessMatrix c w (a.mulVec x) * a) x := by
    intro part hsm c w hcw
    obtain ⟨c1, w1, h1, h2, h3⟩ := sph_radialHess o.exact (spheroid_facts ho).2.2.2.2.2.1 rfl part p hq hs (exact_smooth hsm)
    rw [hcw] at h1
    obtain ⟨rfl, rfl⟩ := Hess.num.inj h1
    have hg : ∀ᶠ y in nhds x, RadialGrad (.spheroidal o.exact part) p q (sq (a.mulVec y)) := by
      filter_upwards [sphSmooth_eventually hsm] with y hy using exact_radialGrad ho part p hq (sq_nonneg' _) hy
    have := isHessian_of_radial hg h3
    rw [h2, hev] at this
    exact this
  obtain ⟨c, w, h1, h2, h3⟩ := sph_hess_eq o part p (q := q) (smooth_pos hsm)
  obtain ⟨c', w', h1', h2', h3'⟩ := sph_hess_eq o.exact part p (q := q) (smooth_pos hsm)
  obtain ⟨cf, wf, h1f, h2f, h3f⟩ := sph_hess_eq o.exact .fast p (q := q) (s := sq (a.mulVec x)) (Or.inl rfl)
  refine ⟨c, w, c', w', cf, wf, ?_, hH part hsm c' w' h1', hH .fast hsf cf wf h1f, ?_, ?_⟩
  · unfold evaluateHessian; rw [h1]
  · rw [sph_grad_eq o part p (smooth_pos hsm)] at h2
    rw [sph_grad_eq o.exact part p (smooth_pos hsm)] at h2'
    rw [sph_grad_eq o.exact .fast p (Or.inl rfl)] at h2f
    obtain rfl := Coef.num.inj h2
    obtain rfl := Coef.num.inj h2'
    obtain rfl := Coef.num.inj h2f
    have hcl := imqGrad_close ho p q (Real.sqrt (sq (a.mulVec x)) / q)
    have h0 : (0 : ℝ) ≤ 2e-16 * |o.exact.imqGrad p q (Real.sqrt (sq (a.mulVec x)) / q)| := by positivity
    have hr0 : o.exact.rho0 = o.rho0 := rfl
    have hlin : o.exact.linGrad p q (Real.sqrt (sq (a.mulVec x))) = o.linGrad p q (Real.sqrt (sq (a.mulVec x))) := rfl
    cases part with
    | fast => exact hcl
    | full =>
        dsimp only
        rw [hr0, hlin]
        split
        · rw [sub_self, abs_zero]; exact h0
        · exact hcl
    | direct =>
        dsimp only
        rw [hr0, hlin]
        split
        · rw [sub_sub_sub_cancel_left, abs_sub_comm]; exact hcl
        · rw [sub_self, abs_zero]; exact h0
  · rw [h3, h3', h3f]
    have hcl := imqHess_close ho p hq (Real.sqrt (sq (a.mulVec x)) / q) (Real.sqrt (sq (a.mulVec x)))
    have h0 : (0 : ℝ) ≤ 4e-16 * |o.exact.imqGrad p q (Real.sqrt (sq (a.mulVec x)) / q) *
      o.exact.imqHess q (Real.sqrt (sq (a.mulVec x)))| := by positivity
    have hr0 : o.exact.rho0 = o.rho0 := rfl
    have hlin : o.exact.linGrad p q (Real.sqrt (sq (a.mulVec x))) = o.linGrad p q (Real.sqrt (sq (a.mulVec x))) := rfl
    cases part with
    | fast => exact hcl
    | full =>
        dsimp only
        rw [hr0, hlin]
        split
        · rw [sub_self, abs_zero]; exact h0
        · exact hcl
    | direct =>
        dsimp only
        rw [hr0, hlin]
        split
        · rw [sub_sub_sub_cancel_left, abs_sub_comm]; exact hcl
        · rw [sub_self, abs_zero]; exact h0

/-! ## C42 -/

/-- **C42.** All functions are even; their gradients are odd. -/
theorem C42_even (k : Kern) (p q : ℝ) (a : Matrix (Fin d) (Fin d) ℝ) (x : Fin d → ℝ) :
    evaluate k p q a (-x) = evaluate k p q a x ∧
      evaluateGradient k p q a (-x) = (evaluateGradient k p q a x).map (fun g => -g) ∧
      evaluateHessian k p q a (-x) = evaluateHessian k p q a x := by
  have hs : sq (a.mulVec (-x)) = sq (a.mulVec x) := by
    rw [Matrix.mulVec_neg]; unfold sq; simp
  refine ⟨?_, ?_, ?_⟩
  · unfold evaluate; rw [hs]
  · unfold evaluateGradient
    rw [hs]
    cases grad k p q (sq (a.mulVec x)) with
    | nan => rfl
    | num c => simp [Matrix.mulVec_neg, Matrix.neg_vecMul]
  · unfold evaluateHessian
    rw [hs]
    cases hess k p q (sq (a.mulVec x)) with
    | nan => rfl
    | throws => rfl
    | num c w =>
        have : hessMatrix c w (a.mulVec (-x)) = hessMatrix c w (a.mulVec x) := by
          unfold hessMatrix
          rw [Matrix.mulVec_neg, Matrix.neg_vecMulVec, Matrix.vecMulVec_neg, neg_neg]
        simp only [this]

/-- The covariance functions of the library, with the spheroidal ones whole. -/
def IsCovariance : Kern → Prop
  | .exponential => True
  | .gaussian => True
  | .spherical => True
  | .cubic => True
  | .cauchy m a => .cauchy m a ∈ cauchies
  | .spheroidal o .full => o ∈ spheroids
  | _ => False

theorem cauchy_pos {m : Nat} {a : ℝ} (h : Kern.cauchy m a ∈ cauchies) : 0 < a := by
  unfold cauchies at h
  simp only [List.mem_cons, Kern.cauchy.injEq, List.not_mem_nil, or_false] at h
  rcases h with ⟨-, rfl⟩ | ⟨-, rfl⟩ | ⟨-, rfl⟩ | ⟨-, rfl⟩ <;> norm_num

theorem one_le_sqrtPow (m : Nat) {u : ℝ} (hu : 1 ≤ u) : 1 ≤ sqrtPow m u := by
  unfold sqrtPow
  have h1 : 1 ≤ u ^ m := one_le_pow₀ hu
  have h2 : 1 ≤ Real.sqrt u := by rw [Real.one_le_sqrt]; exact hu
  nlinarith

/-- **C42.** At the origin a covariance function is the partial sill. -/
theorem C42_at_origin (k : Kern) (hk : IsCovariance k) (p q : ℝ) (hq : 0 < q) (a : Matrix (Fin d) (Fin d) ℝ) :
    evaluate k p q a 0 = p := by
  unfold evaluate
  rw [Matrix.mulVec_zero, sq_zero']
  cases k with
  | exponential => simp [value]
  | gaussian => simp [value]
  | spherical => simp [value, hq]
  | cubic => simp [value, hq]
  | cauchy m a => simp [value, sqrtPow]
  | spheroidal o part =>
      cases part with
      | full => simp [value, Spheroid.lin, (spheroid_facts hk).1]
      | direct => exact hk.elim
      | fast => exact hk.elim
  | even k => exact hk.elim
  | odd k => exact hk.elim

/-- **C42.** A covariance function lies between zero and the partial sill. -/
theorem C42_bounds (k : Kern) (hk : IsCovariance k) (p q : ℝ) (hp : 0 ≤ p) (hq : 0 < q) (a : Matrix (Fin d) (Fin d) ℝ)
    (x : Fin d → ℝ) : 0 ≤ evaluate k p q a x ∧ evaluate k p q a x ≤ p := by
  unfold evaluate
  have hrho : 0 ≤ Real.sqrt (sq (a.mulVec x)) / q := div_nonneg (Real.sqrt_nonneg _) hq.le
  have key : ∀ t : ℝ, 0 ≤ t → t ≤ 1 → 0 ≤ p * t ∧ p * t ≤ p := fun t h0 h1 =>
    ⟨mul_nonneg hp h0, by nlinarith⟩
  have himq : ∀ (m : Nat) (c b : ℝ), 0 ≤ c → 0 ≤ b → b ≤ 1 →
      0 ≤ p * (b / sqrtPow m (1 + c * (Real.sqrt (sq (a.mulVec x)) / q) * (Real.sqrt (sq (a.mulVec x)) / q))) ∧
      p * (b / sqrtPow m (1 + c * (Real.sqrt (sq (a.mulVec x)) / q) * (Real.sqrt (sq (a.mulVec x)) / q))) ≤ p := by
    intro m c b hc hb hb1
    have hu : 1 ≤ 1 + c * (Real.sqrt (sq (a.mulVec x)) / q) * (Real.sqrt (sq (a.mulVec x)) / q) := by
      have : 0 ≤ c * (Real.sqrt (sq (a.mulVec x)) / q) * (Real.sqrt (sq (a.mulVec x)) / q) := by positivity
      linarith
    have h1 := one_le_sqrtPow m hu
    refine key _ (by positivity) ?_
    rw [div_le_one (by linarith)]
    linarith
  cases k with
  | exponential =>
      refine key _ (Real.exp_pos _).le (Real.exp_le_one_iff.2 ?_)
      nlinarith
  | gaussian =>
      refine key _ (Real.exp_pos _).le (Real.exp_le_one_iff.2 ?_)
      nlinarith
  | spherical =>
      simp only [value]
      split
      · rename_i hlt
        have h1 : Real.sqrt (sq (a.mulVec x)) / q ≤ 1 := by rw [div_le_one hq]; exact hlt.le
        generalize Real.sqrt (sq (a.mulVec x)) / q = t at *
        refine key _ ?_ ?_
        · nlinarith [mul_nonneg (mul_self_nonneg (1 - t)) (show 0 ≤ t + 2 by linarith)]
        · nlinarith [mul_nonneg hrho (show 0 ≤ 1.5 - 0.5 * t * t by nlinarith)]
      · exact ⟨le_refl _, hp⟩
  | cubic =>
      simp only [value]
      split
      · rename_i hlt
        have h1 : Real.sqrt (sq (a.mulVec x)) / q ≤ 1 := by rw [div_le_one hq]; exact hlt.le
        generalize Real.sqrt (sq (a.mulVec x)) / q = t at *
        refine key _ ?_ ?_
        · have : 0 ≤ (1 - t) ^ 4 * (1 + 4 * t + 3 * t ^ 2 + 0.75 * t ^ 3) := by positivity
          nlinarith [this]
        · have h3 : 0 ≤ 7 - 8.75 * t + 3.5 * t ^ 3 - 0.75 * t ^ 5 := by
            have h4 : 0 ≤ t ^ 3 * (1 - t ^ 2) := mul_nonneg (by positivity) (by nlinarith)
            have h5 : 0 ≤ (1 - t) ^ 2 * (t + 2) := mul_nonneg (by positivity) (by linarith)
            nlinarith [h4, h5]
          nlinarith [mul_nonneg (mul_self_nonneg t) h3]
      · exact ⟨le_refl _, hp⟩
  | cauchy m c =>
      have := himq m c 1 (cauchy_pos hk).le zero_le_one le_rfl
      simp only [value]
      rwa [mul_one_div] at this
  | spheroidal o part =>
      cases part with
      | full =>
          obtain ⟨hr0, ha, har, hb, hb1, hc, -⟩ := spheroid_facts hk
          simp only [value]
          split
          · rename_i hlt
            unfold Spheroid.lin
            refine key _ ?_ ?_
            · nlinarith [mul_lt_mul_of_pos_left hlt ha]
            · nlinarith [mul_nonneg ha.le hrho]
          · unfold Spheroid.imq
            have := himq o.m o.c o.b hc.le hb.le hb1
            rwa [mul_div_assoc]
      | direct => exact hk.elim
      | fast => exact hk.elim
  | even k => exact hk.elim
  | odd k => exact hk.elim

/-- **C42.** Where a finite support radius is documented, the value and the gradient vanish from it on, and it is positive. -/
theorem C42_support (k : Kern) (p q : ℝ) (hq : 0 < q) (a : Matrix (Fin d) (Fin d) ℝ) (x : Fin d → ℝ) (r : ℝ)
    (hr : supportRadius k q = some r) (hx : r ≤ Real.sqrt (sq (a.mulVec x))) :
    evaluate k p q a x = 0 ∧ evaluateGradient k p q a x = some 0 := by
  cases k with
  | spherical =>
      obtain rfl : q = r := by simpa [supportRadius] using hr
      simp [evaluate, value, evaluateGradient, grad, not_lt.2 hx]
  | cubic =>
      obtain rfl : q = r := by simpa [supportRadius] using hr
      simp [evaluate, value, evaluateGradient, grad, not_lt.2 hx]
  | spheroidal o part =>
      cases part with
      | direct =>
          obtain rfl : o.rho0 * q = r := by simpa [supportRadius] using hr
          have : ¬ Real.sqrt (sq (a.mulVec x)) / q < o.rho0 := by
            rw [not_lt, le_div_iff₀ hq]; exact hx
          simp [evaluate, value, evaluateGradient, grad, this]
      | full => simp [supportRadius] at hr
      | fast => simp [supportRadius] at hr
  | exponential => simp [supportRadius] at hr
  | gaussian => simp [supportRadius] at hr
  | cauchy m a => simp [supportRadius] at hr
  | even k => simp [supportRadius] at hr
  | odd k => simp [supportRadius] at hr

/-- The spherical and cubic functions and the direct parts have such a radius; it is the range, or less. -/
example (o : Spheroid) (q : ℝ) : supportRadius .spherical q = some q ∧ supportRadius .cubic q = some q ∧
    supportRadius (.spheroidal o .direct) q = some (o.rho0 * q) := ⟨rfl, rfl, rfl⟩

/-- **C42.** A spheroidal function is the sum of its direct and fast parts: values, gradients (where finite) and Hessians. -/
theorem C42_spheroidal_sum (o : Spheroid) (p q : ℝ) (a : Matrix (Fin d) (Fin d) ℝ) (x : Fin d → ℝ) :
    evaluate (.spheroidal o .full) p q a x = evaluate (.spheroidal o .direct) p q a x + evaluate (.spheroidal o .fast) p q a x ∧
      (∀ g gd gf, evaluateGradient (.spheroidal o .full) p q a x = some g →
        evaluateGradient (.spheroidal o .direct) p q a x = some gd →
        evaluateGradient (.spheroidal o .fast) p q a x = some gf → g = gd + gf) ∧
      (∀ m md mf, evaluateHessian (.spheroidal o .full) p q a x = .ok (some m) →
        evaluateHessian (.spheroidal o .direct) p q a x = .ok (some md) →
        evaluateHessian (.spheroidal o .fast) p q a x = .ok (some mf) → m = md + mf) ∧
      (a.mulVec x ≠ 0 → ∃ g gd gf m md mf, evaluateGradient (.spheroidal o .full) p q a x = some g ∧
        evaluateGradient (.spheroidal o .direct) p q a x = some gd ∧
        evaluateGradient (.spheroidal o .fast) p q a x = some gf ∧
        evaluateHessian (.spheroidal o .full) p q a x = .ok (some m) ∧
        evaluateHessian (.spheroidal o .direct) p q a x = .ok (some md) ∧
        evaluateHessian (.spheroidal o .fast) p q a x = .ok (some mf)) := by
  refine ⟨?_, ?_, ?_, ?_⟩
  · simp only [evaluate, value]
    split <;> ring
  · intro g gd gf h1 h2 h3
    simp only [evaluateGradient, grad] at h1 h2 h3
    by_cases hlt : Real.sqrt (sq (a.mulVec x)) / q < o.rho0
    · by_cases h0 : Real.sqrt (sq (a.mulVec x)) = 0
      · simp only [if_pos hlt, if_pos h0] at h1
        cases h1
      · simp only [if_pos hlt, if_neg h0, Option.some.injEq] at h1 h2 h3
        rw [← h1, ← h2, ← h3, ← Matrix.add_vecMul, ← add_smul, sub_add_cancel]
    · simp only [if_neg hlt, Option.some.injEq] at h1 h2 h3
      rw [← h1, ← h2, ← h3, zero_smul, Matrix.zero_vecMul, zero_add]
  · intro m md mf h1 h2 h3
    have hadd : ∀ c w c' w' : ℝ, a.transpose * hessMatrix c w (a.mulVec x) * a + a.transpose * hessMatrix c' w' (a.mulVec x) * a =
        a.transpose * hessMatrix (c + c') (w + w') (a.mulVec x) * a := by
      intro c w c' w'
      rw [← Matrix.add_mul, ← Matrix.mul_add]
      congr 2
      unfold hessMatrix
      rw [add_smul, add_smul]
      abel
    simp only [evaluateHessian, hess] at h1 h2 h3
    by_cases hlt : Real.sqrt (sq (a.mulVec x)) / q < o.rho0
    · by_cases h0 : Real.sqrt (sq (a.mulVec x)) = 0
      · simp only [if_pos hlt, if_pos h0] at h1
        cases h1
      · simp only [if_pos hlt, if_neg h0, Outcome.ok.injEq, Option.some.injEq] at h1 h2 h3
        rw [← h1, ← h2, ← h3, hadd]
        congr 3 <;> ring
    · simp only [if_neg hlt, Outcome.ok.injEq, Option.some.injEq] at h1 h2 h3
      rw [← h1, ← h2, ← h3, hadd]
      congr 3 <;> ring
  · intro hx
    have hs : 0 < Real.sqrt (sq (a.mulVec x)) :=
      Real.sqrt_pos.2 (lt_of_le_of_ne (sq_nonneg' _) fun h0 => hx (eq_zero_of_sq h0.symm))
    have hs' := Real.sqrt_pos.1 hs
    have hg : ∀ part, ∃ g, evaluateGradient (.spheroidal o part) p q a x = some g := by
      intro part
      unfold evaluateGradient
      rw [sph_grad_eq o part p (Or.inr hs')]
      exact ⟨_, rfl⟩
    have hh : ∀ part, ∃ m, evaluateHessian (.spheroidal o part) p q a x = .ok (some m) := by
      intro part
      obtain ⟨c, w, h1, -⟩ := sph_hess_eq o part p (q := q) (Or.inr hs')
      unfold evaluateHessian
      rw [h1]
      exact ⟨_, rfl⟩
    obtain ⟨g, hg1⟩ := hg .full
    obtain ⟨gd, hg2⟩ := hg .direct
    obtain ⟨gf, hg3⟩ := hg .fast
    obtain ⟨m, hm1⟩ := hh .full
    obtain ⟨md, hm2⟩ := hh .direct
    obtain ⟨mf, hm3⟩ := hh .fast
    exact ⟨g, gd, gf, m, md, mf, hg1, hg2, hg3, hm1, hm2, hm3⟩

theorem sqrt_bracket {u lo hi : ℝ} (h0 : 0 < lo) (h1 : lo * lo ≤ u) (hh : 0 ≤ hi) (h2 : u ≤ hi * hi) :
    lo ≤ Real.sqrt u ∧ Real.sqrt u ≤ hi := by
  constructor
  · rw [Real.le_sqrt' h0, pow_two]; exact h1
  · rw [Real.sqrt_le_left hh, pow_two]; exact h2

/-- `b / (u^m sqrt u)` is within `eps` of `t` if it is with rational bounds of the root. -/
theorem imq_bracket {m : Nat} {u lo hi b t eps : ℝ} (hu : 0 < u) (hb : 0 ≤ b) (h0 : 0 < lo) (h1 : lo * lo ≤ u) (hh : 0 < hi)
    (h2 : u ≤ hi * hi) (ha : b ≤ (t + eps) * (u ^ m * lo)) (hc : (t - eps) * (u ^ m * hi) ≤ b) :
    |t - b / sqrtPow m u| ≤ eps := by
  obtain ⟨hl, hr⟩ := sqrt_bracket h0 h1 hh.le h2
  have hum : 0 < u ^ m := pow_pos hu m
  have hS : 0 < sqrtPow m u := sqrtPow_pos m hu
  have hS1 : u ^ m * lo ≤ sqrtPow m u := mul_le_mul_of_nonneg_left hl hum.le
  have hS2 : sqrtPow m u ≤ u ^ m * hi := mul_le_mul_of_nonneg_left hr hum.le
  have hlo : 0 < u ^ m * lo := mul_pos hum h0
  have hhi : 0 < u ^ m * hi := mul_pos hum hh
  have e1 : b / sqrtPow m u ≤ b / (u ^ m * lo) := div_le_div_of_nonneg_left hb hlo hS1
  have e2 : b / (u ^ m * hi) ≤ b / sqrtPow m u := div_le_div_of_nonneg_left hb hS hS2
  have e3 : b / (u ^ m * lo) ≤ t + eps := by rw [div_le_iff₀ hlo]; exact ha
  have e4 : t - eps ≤ b / (u ^ m * hi) := by rw [le_div_iff₀ hhi]; exact hc
  rw [abs_le]
  constructor <;> linarith

theorem lin_imq_close {o : Spheroid} (ho : o ∈ spheroids) :
    |(1 - o.a * o.rho0) - o.b / sqrtPow o.m (1 + o.c * o.rho0 * o.rho0)| ≤ 1e-16 := by
  unfold spheroids at ho
  fin_cases ho
  · exact imq_bracket (lo := 1.11803398874989484489) (hi := 1.11803398874989484490) (by simp only [sp3]; norm_num)
      (by simp only [sp3]; norm_num) (by norm_num) (by simp only [sp3]; norm_num) (by norm_num) (by simp only [sp3]; norm_num)
      (by simp only [sp3]; norm_num) (by simp only [sp3]; norm_num)
  · exact imq_bracket (lo := 1.08012344973464337421) (hi := 1.08012344973464337422) (by simp only [sp5]; norm_num)
      (by simp only [sp5]; norm_num) (by norm_num) (by simp only [sp5]; norm_num) (by norm_num) (by simp only [sp5]; norm_num)
      (by simp only [sp5]; norm_num) (by simp only [sp5]; norm_num)
  · exact imq_bracket (lo := 1.06066017177982127664) (hi := 1.06066017177982127665) (by simp only [sp7]; norm_num)
      (by simp only [sp7]; norm_num) (by norm_num) (by simp only [sp7]; norm_num) (by norm_num) (by simp only [sp7]; norm_num)
      (by simp only [sp7]; norm_num) (by simp only [sp7]; norm_num)
  · exact imq_bracket (lo := 1.04880884817015154904) (hi := 1.04880884817015154905) (by simp only [sp9]; norm_num)
      (by simp only [sp9]; norm_num) (by norm_num) (by simp only [sp9]; norm_num) (by norm_num) (by simp only [sp9]; norm_num)
      (by simp only [sp9]; norm_num) (by simp only [sp9]; norm_num)

theorem linGrad_imqGrad_close {o : Spheroid} (ho : o ∈ spheroids) :
    |o.a / o.rho0 - o.d / sqrtPow (o.m + 1) (1 + o.c * o.rho0 * o.rho0)| ≤ 2e-15 := by
  unfold spheroids at ho
  fin_cases ho
  · exact imq_bracket (lo := 1.11803398874989484489) (hi := 1.11803398874989484490) (by simp only [sp3]; norm_num)
      (by simp only [sp3]; norm_num) (by norm_num) (by simp only [sp3]; norm_num) (by norm_num) (by simp only [sp3]; norm_num)
      (by simp only [sp3]; norm_num) (by simp only [sp3]; norm_num)
  · exact imq_bracket (lo := 1.08012344973464337421) (hi := 1.08012344973464337422) (by simp only [sp5]; norm_num)
      (by simp only [sp5]; norm_num) (by norm_num) (by simp only [sp5]; norm_num) (by norm_num) (by simp only [sp5]; norm_num)
      (by simp only [sp5]; norm_num) (by simp only [sp5]; norm_num)
  · exact imq_bracket (lo := 1.06066017177982127664) (hi := 1.06066017177982127665) (by simp only [sp7]; norm_num)
      (by simp only [sp7]; norm_num) (by norm_num) (by simp only [sp7]; norm_num) (by norm_num) (by simp only [sp7]; norm_num)
      (by simp only [sp7]; norm_num) (by simp only [sp7]; norm_num)
  · exact imq_bracket (lo := 1.04880884817015154904) (hi := 1.04880884817015154905) (by simp only [sp9]; norm_num)
      (by simp only [sp9]; norm_num) (by norm_num) (by simp only [sp9]; norm_num) (by norm_num) (by simp only [sp9]; norm_num)
      (by simp only [sp9]; norm_num) (by simp only [sp9]; norm_num)

/-- **C42.** The two pieces of a spheroidal function of the library meet at the radius where the code switches, in value and in
gradient coefficient, up to rounding of the constants. -/
theorem C42_pieces_meet (o : Spheroid) (ho : o ∈ spheroids) (p q : ℝ) (hq : 0 < q) :
    |o.lin p o.rho0 - o.imq p o.rho0| ≤ 1e-16 * |p| ∧
      |o.linGrad p q (o.rho0 * q) - o.imqGrad p q o.rho0| ≤ 2e-15 * |p| / (q * q) := by
  constructor
  · have : o.lin p o.rho0 - o.imq p o.rho0 = ((1 - o.a * o.rho0) - o.b / sqrtPow o.m (1 + o.c * o.rho0 * o.rho0)) * p := by
      unfold Spheroid.lin Spheroid.imq; ring
    rw [this, abs_mul]
    exact mul_le_mul_of_nonneg_right (lin_imq_close ho) (abs_nonneg _)
  · obtain ⟨hr, ha, -, -, -, hc, -⟩ := spheroid_facts ho
    have : o.linGrad p q (o.rho0 * q) - o.imqGrad p q o.rho0 =
        (o.a / o.rho0 - o.d / sqrtPow (o.m + 1) (1 + o.c * o.rho0 * o.rho0)) * (-p / (q * q)) := by
      unfold Spheroid.linGrad Spheroid.imqGrad
      have := sqrtPow_pos (o.m + 1) (show 0 < 1 + o.c * o.rho0 * o.rho0 by positivity)
      field_simp
      ring
    rw [this, abs_mul, abs_div, abs_neg, abs_of_pos (mul_pos hq hq), ← mul_div_assoc]
    exact div_le_div_of_nonneg_right (mul_le_mul_of_nonneg_right (linGrad_imqGrad_close ho) (abs_nonneg _)) (mul_pos hq hq).le

/-- **C41.** The polyharmonic functions of the library, at `diff = x` with `|x| = r > 0`, slope `p` and offset `c`: `bh2` is
`p ρ² log ρ`, `bh3` is `-p ρ`, `th2` is `-p ρ⁴ log ρ`, `th3` is `p ρ³`, where `ρ = √(r² + c²)`. -/
theorem C41_polyharmonic_values (p c s : ℝ) (h : 0 < s) :
    value (.even 0) p c s = p * Real.sqrt (s + c ^ 2) ^ 2 * Real.log (Real.sqrt (s + c ^ 2)) ∧
    value (.odd 0) p c s = -(p * Real.sqrt (s + c ^ 2)) ∧
    value (.even 2) p c s = -(p * Real.sqrt (s + c ^ 2) ^ 4 * Real.log (Real.sqrt (s + c ^ 2))) ∧
    value (.odd 1) p c s = p * Real.sqrt (s + c ^ 2) ^ 3 := by
  have hr : Real.sqrt (s + c ^ 2) ≠ 0 := (Real.sqrt_pos.2 (by positivity)).ne'
  have e : s + c * c = s + c ^ 2 := by ring
  refine ⟨?_, ?_, ?_, ?_⟩
  · simp only [value]; rw [e, if_neg hr]; norm_num [evenSign]
  · simp only [value]; rw [e]; norm_num [oddSign]
  · simp only [value]; rw [e, if_neg hr]; norm_num [evenSign]
  · simp only [value]; rw [e]; norm_num [oddSign]

/-- **C41.** The sign of a polyharmonic function alternates with its degree: `(-1)^(K/2+1)` for even `K`, `(-1)^((K+1)/2)` for
odd `K` (with these signs the functions are conditionally positive definite). -/
theorem C41_polyharmonic_signs (j : Nat) (p c s : ℝ) (h : 0 < s) :
    value (.even (2 * j)) p c s =
      (-1) ^ j * p * Real.sqrt (s + c ^ 2) ^ (2 * j + 2) * Real.log (Real.sqrt (s + c ^ 2)) ∧
    value (.odd j) p c s = (-1) ^ (j + 1) * p * Real.sqrt (s + c ^ 2) ^ (2 * j + 1) := by
  have hr : Real.sqrt (s + c ^ 2) ≠ 0 := (Real.sqrt_pos.2 (by positivity)).ne'
  have e : s + c * c = s + c ^ 2 := by ring
  constructor
  · simp only [value]; rw [e, if_neg hr]
    have : evenSign (2 * j) = (-1) ^ j := by
      unfold evenSign
      rcases Nat.even_or_odd j with hj | hj
      · obtain ⟨m, rfl⟩ := hj
        rw [if_pos (by omega), Even.neg_one_pow ⟨m, rfl⟩]
      · obtain ⟨m, rfl⟩ := hj
        rw [if_neg (by omega), Odd.neg_one_pow ⟨m, rfl⟩]
    rw [this]
  · simp only [value]; rw [e]
    have : oddSign j = (-1) ^ (j + 1) := by
      unfold oddSign
      rcases Nat.even_or_odd (j + 1) with hj | hj
      · obtain ⟨m, hm⟩ := hj
        rw [if_pos (by omega), Even.neg_one_pow ⟨m, hm⟩]
      · obtain ⟨m, hm⟩ := hj
        rw [if_neg (by omega), Odd.neg_one_pow ⟨m, hm⟩]
    rw [this]

end Verif.Kernel
