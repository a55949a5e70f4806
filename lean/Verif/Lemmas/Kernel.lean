import Verif.Model.Kernel
import Mathlib.Analysis.Calculus.Deriv.Comp
import Mathlib.Analysis.Calculus.Deriv.Mul
import Mathlib.Analysis.Calculus.Deriv.Inv
import Mathlib.Analysis.Calculus.Deriv.Pow
import Mathlib.Analysis.Calculus.Deriv.ZPow
import Mathlib.Analysis.Calculus.Deriv.Slope
import Mathlib.Analysis.SpecialFunctions.Log.Deriv
import Mathlib.Analysis.SpecialFunctions.ExpDeriv
import Mathlib.Analysis.SpecialFunctions.Sqrt
import Mathlib.Tactic.Linarith
import Mathlib.Tactic.Ring
import Mathlib.Tactic.FieldSimp
import Mathlib.Tactic.Positivity
import Mathlib.Tactic.NormNum

/-!
# One-dimensional calculus for the kernels

Everything is a function of the squared norm `s`; derivatives are taken within `s ≥ 0`.
-/

namespace Verif.Kernel

open Verif Set

/-- The number in a coefficient; zero if it is not finite. -/
def Coef.get : Coef → ℝ
  | .num c => c
  | .nan => 0

/-- The gradient coefficient is a number and is twice the derivative of the value. -/
def RadialGrad (k : Kern) (p q s : ℝ) : Prop :=
  ∃ c, grad k p q s = .num c ∧ HasDerivWithinAt (value k p q) (c / 2) (Ici 0) s

/-- The second Hessian coefficient is twice the derivative of the gradient coefficient. -/
def RadialHess (k : Kern) (p q s : ℝ) : Prop :=
  ∃ c w, hess k p q s = .num c w ∧ grad k p q s = .num c ∧
    HasDerivWithinAt (fun s => (grad k p q s).get) (w / 2) (Ici 0) s

theorem hasDerivAt_sqrt {s : ℝ} (hs : 0 < s) : HasDerivAt Real.sqrt (1 / (2 * Real.sqrt s)) s := Real.hasDerivAt_sqrt hs.ne'

theorem rho_sq {s q : ℝ} (hs : 0 ≤ s) : Real.sqrt s / q * (Real.sqrt s / q) = s / (q * q) := by
  rw [div_mul_div_comm, Real.mul_self_sqrt hs]

/-! ## Gaussian -/

theorem gaussian_grad (p : ℝ) {q s : ℝ} (_ : 0 < q) (hs : 0 ≤ s) : RadialGrad .gaussian p q s := by
  refine ⟨_, rfl, ?_⟩
  have hG : HasDerivAt (fun s => p * Real.exp (-3 * (s / (q * q)))) (p * (Real.exp (-3 * (s / (q * q))) * (-3 * (1 / (q * q))))) s :=
    (((((hasDerivAt_id s).div_const (q * q)).const_mul (-3)).exp).const_mul p)
  have heq : ∀ t ∈ Ici (0 : ℝ), value .gaussian p q t = p * Real.exp (-3 * (t / (q * q))) := by
    intro t ht
    simp only [value]
    rw [mul_assoc, rho_sq ht]
  refine (hG.hasDerivWithinAt.congr heq (heq s hs)).congr_deriv ?_
  rw [mul_assoc (-3 : ℝ), rho_sq hs]
  field_simp
  ring

theorem gaussian_hess (p : ℝ) {q s : ℝ} (hq : 0 < q) (hs : 0 ≤ s) : RadialHess .gaussian p q s := by
  refine ⟨_, _, rfl, rfl, ?_⟩
  have hG : HasDerivAt (fun s => -6 * p * Real.exp (-3 * (s / (q * q))) / (q * q))
      (-6 * p * (Real.exp (-3 * (s / (q * q))) * (-3 * (1 / (q * q)))) / (q * q)) s :=
    (((((hasDerivAt_id s).div_const (q * q)).const_mul (-3)).exp).const_mul (-6 * p)).div_const _
  have heq : ∀ t ∈ Ici (0 : ℝ), (grad .gaussian p q t).get = -6 * p * Real.exp (-3 * (t / (q * q))) / (q * q) := by
    intro t ht
    simp only [grad, Coef.get]
    rw [mul_assoc (-3 : ℝ), rho_sq ht]
  refine (hG.hasDerivWithinAt.congr heq (heq s hs)).congr_deriv ?_
  rw [mul_assoc (-3 : ℝ), rho_sq hs]
  field_simp
  ring

/-! ## Exponential -/

theorem exponential_grad (p : ℝ) {q s : ℝ} (hq : 0 < q) (hs : 0 < s) : RadialGrad .exponential p q s := by
  have hr : 0 < Real.sqrt s := Real.sqrt_pos.2 hs
  refine ⟨_, if_neg hr.ne', ?_⟩
  have hG : HasDerivAt (value .exponential p q) (p * (Real.exp (-3 * (Real.sqrt s / q)) * (-3 * (1 / (2 * Real.sqrt s) / q)))) s :=
    ((((hasDerivAt_sqrt hs).div_const q).const_mul (-3)).exp).const_mul p
  refine hG.hasDerivWithinAt.congr_deriv ?_
  field_simp

theorem exponential_hess (p : ℝ) {q s : ℝ} (hq : 0 < q) (hs : 0 < s) : RadialHess .exponential p q s := by
  have hr : 0 < Real.sqrt s := Real.sqrt_pos.2 hs
  refine ⟨_, _, if_neg hr.ne', if_neg hr.ne', ?_⟩
  have hG : HasDerivAt (fun s => -3 * p * Real.exp (-3 * (Real.sqrt s / q)) / (q * Real.sqrt s)) _ s :=
    (((((hasDerivAt_sqrt hs).div_const q).const_mul (-3)).exp).const_mul (-3 * p)).div ((hasDerivAt_sqrt hs).const_mul q)
      (by positivity)
  have heq : (fun s => (grad .exponential p q s).get) =ᶠ[nhds s] fun s => -3 * p * Real.exp (-3 * (Real.sqrt s / q)) / (q * Real.sqrt s) := by
    filter_upwards [eventually_gt_nhds hs] with t ht
    simp only [grad]
    rw [if_neg (Real.sqrt_pos.2 ht).ne']
    rfl
  refine (hG.congr_of_eventuallyEq heq).hasDerivWithinAt.congr_deriv ?_
  field_simp
  ring

/-! ## Inverse powers: generalised Cauchy and the smooth part of the spheroidal functions -/

theorem hasDerivAt_sqrtPow (m : Nat) {u : ℝ} (hu : 0 < u) :
    HasDerivAt (sqrtPow m) ((m + 1 / 2) * sqrtPow m u / u) u := by
  have h : HasDerivAt (fun x => x ^ m * Real.sqrt x) (m * u ^ (m - 1) * Real.sqrt u + u ^ m * (1 / (2 * Real.sqrt u))) u :=
    (hasDerivAt_pow m u).mul (hasDerivAt_sqrt hu)
  refine h.congr_deriv ?_
  unfold sqrtPow
  have hr : 0 < Real.sqrt u := Real.sqrt_pos.2 hu
  have h2 : Real.sqrt u * Real.sqrt u = u := Real.mul_self_sqrt hu.le
  have h1 : (m : ℝ) * u ^ (m - 1) = m * u ^ m / u := by
    cases m with
    | zero => simp
    | succ m => rw [Nat.add_sub_cancel, pow_succ]; field_simp
  rw [h1]
  have h3 : u ^ m * (1 / (2 * Real.sqrt u)) = 1 / 2 * (u ^ m * Real.sqrt u) / u := by
    rw [eq_div_iff hu.ne']
    have h4 : u / Real.sqrt u = Real.sqrt u := Real.div_sqrt
    calc u ^ m * (1 / (2 * Real.sqrt u)) * u = 1 / 2 * u ^ m * (u / Real.sqrt u) := by field_simp
      _ = 1 / 2 * (u ^ m * Real.sqrt u) := by rw [h4]; ring
  rw [h3]; ring

theorem sqrtPow_pos (m : Nat) {u : ℝ} (hu : 0 < u) : 0 < sqrtPow m u :=
  mul_pos (pow_pos hu m) (Real.sqrt_pos.2 hu)

theorem sqrtPow_succ (m : Nat) (u : ℝ) : sqrtPow (m + 1) u = u * sqrtPow m u := by unfold sqrtPow; rw [pow_succ]; ring

/-- `A / (1 + a s / q²)^(m + 1/2)` has derivative `- A (m + 1/2) a / q² / (...)^(m + 3/2)`. -/
theorem hasDerivAt_imq (m : Nat) (A a : ℝ) (ha : 0 ≤ a) {q s : ℝ} (hq : 0 < q) (hs : 0 ≤ s) :
    HasDerivAt (fun s => A / sqrtPow m (1 + a * (s / (q * q))))
      (-A * (m + 1 / 2) * (a / (q * q)) / sqrtPow (m + 1) (1 + a * (s / (q * q)))) s := by
  have hu : 0 < 1 + a * (s / (q * q)) := by positivity
  have hin : HasDerivAt (fun s => 1 + a * (s / (q * q))) (a * (1 / (q * q))) s :=
    (((hasDerivAt_id s).div_const (q * q)).const_mul a).const_add 1
  have hc : HasDerivAt (fun s => sqrtPow m (1 + a * (s / (q * q))))
      ((m + 1 / 2) * sqrtPow m (1 + a * (s / (q * q))) / (1 + a * (s / (q * q))) * (a * (1 / (q * q)))) s :=
    HasDerivAt.comp (h₂ := sqrtPow m) (h := fun s => 1 + a * (s / (q * q))) s (hasDerivAt_sqrtPow m hu) hin
  have h := (hasDerivAt_const s A).div hc (sqrtPow_pos m hu).ne'
  refine h.congr_deriv ?_
  rw [sqrtPow_succ]
  have := sqrtPow_pos m hu
  set u := 1 + a * (s / (q * q))
  set S := sqrtPow m u
  field_simp
  ring

theorem cauchy_grad (m : Nat) (a : ℝ) (ha : 0 ≤ a) (p : ℝ) {q s : ℝ} (hq : 0 < q) (hs : 0 ≤ s) :
    RadialGrad (.cauchy m a) p q s := by
  refine ⟨_, rfl, ?_⟩
  have heq : ∀ t ∈ Ici (0 : ℝ), value (.cauchy m a) p q t = p / sqrtPow m (1 + a * (t / (q * q))) := by
    intro t ht
    simp only [value]
    rw [mul_assoc a, rho_sq ht]
  refine ((hasDerivAt_imq m p a ha hq hs).hasDerivWithinAt.congr heq (heq s hs)).congr_deriv ?_
  rw [mul_assoc a, rho_sq hs]
  have := sqrtPow_pos (m + 1) (show 0 < 1 + a * (s / (q * q)) by positivity)
  field_simp

theorem cauchy_hess (m : Nat) (a : ℝ) (ha : 0 ≤ a) (p : ℝ) {q s : ℝ} (hq : 0 < q) (hs : 0 ≤ s) :
    RadialHess (.cauchy m a) p q s := by
  refine ⟨_, _, rfl, rfl, ?_⟩
  have heq : ∀ t ∈ Ici (0 : ℝ), (grad (.cauchy m a) p q t).get =
      (-a * (2 * m + 1) * p / (q * q)) / sqrtPow (m + 1) (1 + a * (t / (q * q))) := by
    intro t ht
    simp only [grad, Coef.get]
    rw [mul_assoc a, rho_sq ht]
    have := sqrtPow_pos (m + 1) (show 0 < 1 + a * (t / (q * q)) by have : 0 ≤ t := ht; positivity)
    field_simp
  refine ((hasDerivAt_imq (m + 1) _ a ha hq hs).hasDerivWithinAt.congr heq (heq s hs)).congr_deriv ?_
  rw [mul_assoc a, rho_sq hs, mul_assoc a, Real.mul_self_sqrt hs, sqrtPow_succ (m + 1)]
  have hu : 0 < 1 + a * (s / (q * q)) := by positivity
  have := sqrtPow_pos (m + 1) hu
  have h2 : a * s + q * q = q * q * (1 + a * (s / (q * q))) := by field_simp; ring
  rw [h2]
  set u := 1 + a * (s / (q * q))
  push_cast
  field_simp
  ring

/-! ## Cut off at the range -/

theorem sqrt_lt_iff {s q : ℝ} (hq : 0 < q) : Real.sqrt s < q ↔ s < q * q := by rw [Real.sqrt_lt' hq, pow_two]

theorem cutoff {G : ℝ → ℝ} {G' q s : ℝ} (hq : 0 < q) (_ : 0 ≤ s) (hG : HasDerivWithinAt G G' (Ici 0) s) (h0 : G (q * q) = 0)
    (h0' : s = q * q → G' = 0) :
    HasDerivWithinAt (fun s => if Real.sqrt s < q then G s else 0) (if Real.sqrt s < q then G' else 0) (Ici 0) s := by
  simp only [sqrt_lt_iff hq]
  rcases lt_trichotomy s (q * q) with h | h | h
  · rw [if_pos h]
    refine hG.congr_of_eventuallyEq ?_ (if_pos h)
    filter_upwards [mem_nhdsWithin_of_mem_nhds (Iio_mem_nhds h)] with t ht
    exact if_pos ht
  · rw [if_neg (by rw [h]; exact lt_irrefl _)]
    have h1 : HasDerivWithinAt (fun s => if s < q * q then G s else 0) 0 (Icc 0 (q * q)) s := by
      rw [h0' h] at hG
      refine (hG.mono Icc_subset_Ici_self).congr ?_ ?_
      · intro t ht
        by_cases htq : t < q * q
        · exact if_pos htq
        · rw [if_neg htq, le_antisymm ht.2 (not_lt.1 htq), h0]
      · rw [if_neg (by rw [h]; exact lt_irrefl _), h, h0]
    have h2 : HasDerivWithinAt (fun s => if s < q * q then G s else 0) 0 (Ici (q * q)) s := by
      refine (hasDerivWithinAt_const s _ (0 : ℝ)).congr ?_ ?_
      · intro t ht; exact if_neg (not_lt.2 ht)
      · exact if_neg (by rw [h]; exact lt_irrefl _)
    refine (h1.union h2).mono ?_
    intro t ht
    rcases le_total t (q * q) with h' | h'
    · exact Or.inl ⟨ht, h'⟩
    · exact Or.inr h'
  · rw [if_neg (not_lt.2 h.le)]
    refine (hasDerivWithinAt_const s _ (0 : ℝ)).congr_of_eventuallyEq ?_ (if_neg (not_lt.2 h.le))
    filter_upwards [mem_nhdsWithin_of_mem_nhds (Ioi_mem_nhds h)] with t ht
    exact if_neg (not_lt.2 (le_of_lt ht))

theorem spherical_grad (p : ℝ) {q s : ℝ} (hq : 0 < q) (hs : 0 < s) : RadialGrad .spherical p q s := by
  have hr : 0 < Real.sqrt s := Real.sqrt_pos.2 hs
  have hrho : HasDerivAt (fun s => Real.sqrt s / q) (1 / (2 * Real.sqrt s) / q) s := (hasDerivAt_sqrt hs).div_const q
  have hG : HasDerivAt (fun s => p * (1 + Real.sqrt s / q * (-1.5 + 0.5 * (Real.sqrt s / q) * (Real.sqrt s / q)))) _ s :=
    ((hrho.mul (((hrho.const_mul 0.5).mul hrho).const_add (-1.5))).const_add 1).const_mul p
  have hG2 := hG.congr_deriv (g' := p * (-1.5 / (Real.sqrt s / q) + 1.5 * (Real.sqrt s / q)) / (q * q) / 2) (by
    simp only [Pi.mul_apply]
    field_simp
    ring)
  have hq1 : Real.sqrt (q * q) = q := Real.sqrt_mul_self hq.le
  have h := cutoff hq hs.le hG2.hasDerivWithinAt (by rw [hq1, div_self hq.ne']; norm_num) (by
    intro h; rw [h, hq1, div_self hq.ne']; norm_num)
  by_cases hlt : Real.sqrt s < q
  · refine ⟨p * (-1.5 / (Real.sqrt s / q) + 1.5 * (Real.sqrt s / q)) / (q * q), ?_, h.congr_deriv ?_⟩
    · simp only [grad]; rw [if_pos hlt, if_neg hr.ne']
    · rw [if_pos hlt]
  · refine ⟨0, ?_, h.congr_deriv ?_⟩
    · simp only [grad]; rw [if_neg hlt]
    · rw [if_neg hlt]; simp

theorem hasDerivWithinAt_mul_id {K : ℝ → ℝ} (hK : ContinuousWithinAt K (Ici 0) 0) :
    HasDerivWithinAt (fun s => s * K s) (K 0) (Ici 0) 0 := by
  rw [hasDerivWithinAt_iff_tendsto_slope]
  have : Filter.Tendsto K (nhdsWithin 0 (Ici 0 \ {0})) (nhds (K 0)) := hK.mono_left (nhdsWithin_mono _ sdiff_subset)
  refine this.congr' ?_
  filter_upwards [self_mem_nhdsWithin] with t ht
  have : t ≠ 0 := ht.2
  rw [slope_def_field]
  field_simp
  ring

theorem cubic_grad (p : ℝ) {q s : ℝ} (hq : 0 < q) (hs : 0 ≤ s) : RadialGrad .cubic p q s := by
  have hq1 : Real.sqrt (q * q) = q := Real.sqrt_mul_self hq.le
  have hG : HasDerivWithinAt (fun s => p * (1 + Real.sqrt s / q * (Real.sqrt s / q) * (-7 + Real.sqrt s / q * (8.75 +
      Real.sqrt s / q * (Real.sqrt s / q) * (-3.5 + 0.75 * (Real.sqrt s / q * (Real.sqrt s / q)))))))
      (p * (-14 + Real.sqrt s / q * (26.25 + Real.sqrt s / q * (Real.sqrt s / q) *
        (-17.5 + 5.25 * (Real.sqrt s / q * (Real.sqrt s / q))))) / (q * q) / 2) (Ici 0) s := by
    rcases hs.eq_or_lt with h0 | hs
    · subst h0
      set K : ℝ → ℝ := fun s => (-7 + Real.sqrt s / q * (8.75 +
        Real.sqrt s / q * (Real.sqrt s / q) * (-3.5 + 0.75 * (Real.sqrt s / q * (Real.sqrt s / q))))) / (q * q) with hKdef
      have hK : Continuous K := by
        have : Continuous Real.sqrt := Real.continuous_sqrt
        fun_prop
      have h := ((hasDerivWithinAt_mul_id hK.continuousWithinAt).const_add 1).const_mul p
      have heq : ∀ t ∈ Ici (0 : ℝ), p * (1 + Real.sqrt t / q * (Real.sqrt t / q) * (-7 + Real.sqrt t / q * (8.75 +
          Real.sqrt t / q * (Real.sqrt t / q) * (-3.5 + 0.75 * (Real.sqrt t / q * (Real.sqrt t / q)))))) = p * (1 + t * K t) := by
        intro t ht
        rw [hKdef]
        simp only [rho_sq (show (0 : ℝ) ≤ t from ht)]
        ring
      refine (h.congr heq (heq 0 (Set.self_mem_Ici))).congr_deriv ?_
      simp only [hKdef, Real.sqrt_zero, zero_div, zero_mul, add_zero]
      ring
    · have hr : 0 < Real.sqrt s := Real.sqrt_pos.2 hs
      have hrho : HasDerivAt (fun s => Real.sqrt s / q) (1 / (2 * Real.sqrt s) / q) s := (hasDerivAt_sqrt hs).div_const q
      have hrho2 := hrho.mul hrho
      have h := ((hrho2.mul ((hrho.mul ((hrho2.mul ((hrho2.const_mul 0.75).const_add (-3.5))).const_add 8.75)).const_add
        (-7))).const_add 1).const_mul p
      refine h.hasDerivWithinAt.congr_deriv ?_
      simp only [Pi.mul_apply]
      field_simp
      ring
  have h := cutoff hq hs hG (by rw [hq1, div_self hq.ne']; norm_num) (by
    intro h; rw [h, hq1, div_self hq.ne']; norm_num)
  by_cases hlt : Real.sqrt s < q
  · refine ⟨p * (-14 + Real.sqrt s / q * (26.25 + Real.sqrt s / q * (Real.sqrt s / q) *
        (-17.5 + 5.25 * (Real.sqrt s / q * (Real.sqrt s / q))))) / (q * q), ?_, h.congr_deriv ?_⟩
    · simp only [grad]; rw [if_pos hlt]
    · rw [if_pos hlt]
  · refine ⟨0, ?_, h.congr_deriv ?_⟩
    · simp only [grad]; rw [if_neg hlt]
    · rw [if_neg hlt]; simp

/-! ## Polyharmonic -/

theorem hasDerivAt_rho {q s : ℝ} (h : 0 < s + q * q) :
    HasDerivAt (fun s => Real.sqrt (s + q * q)) (1 / (2 * Real.sqrt (s + q * q))) s := by
  have := HasDerivAt.comp (h₂ := Real.sqrt) (h := fun s => s + q * q) s (hasDerivAt_sqrt h) ((hasDerivAt_id s).add_const (q * q))
  rw [mul_one] at this
  exact this

theorem even_grad (k : Nat) (p : ℝ) {q s : ℝ} (h : 0 < s + q * q) : RadialGrad (.even k) p q s := by
  have hr : 0 < Real.sqrt (s + q * q) := Real.sqrt_pos.2 h
  refine ⟨_, if_neg hr.ne', ?_⟩
  have hd := hasDerivAt_rho h
  have hG : HasDerivAt (fun s => evenSign k * p * Real.sqrt (s + q * q) ^ (k + 2) * Real.log (Real.sqrt (s + q * q))) _ s :=
    ((hd.pow (k + 2)).const_mul (evenSign k * p)).mul (hd.log hr.ne')
  have heq : value (.even k) p q =ᶠ[nhds s] fun s => evenSign k * p * Real.sqrt (s + q * q) ^ (k + 2) * Real.log (Real.sqrt (s + q * q)) := by
    have : ∀ᶠ t in nhds s, 0 < t + q * q := by
      have hc : Continuous fun t : ℝ => t + q * q := by fun_prop
      exact hc.continuousAt.eventually (eventually_gt_nhds h)
    filter_upwards [this] with t ht
    exact if_neg (Real.sqrt_pos.2 ht).ne'
  refine (hG.congr_of_eventuallyEq heq).hasDerivWithinAt.congr_deriv ?_
  rw [show k + 2 - 1 = k + 1 from rfl]
  push_cast
  simp only [Pi.pow_apply]
  generalize Real.sqrt (s + q * q) = r at *
  rw [pow_succ, pow_succ]
  field_simp
  ring

/-- The derivative of the gradient coefficient of the even polyharmonic functions, without the division in the code. -/
noncomputable def evenHess (k : Nat) (p q s : ℝ) : ℝ :=
  evenSign k * p * Real.sqrt (s + q * q) ^ k *
    (k * (1 + ((k + 2 : ℕ) : ℝ) * Real.log (Real.sqrt (s + q * q))) + ((k + 2 : ℕ) : ℝ)) / (s + q * q)

theorem even_grad_deriv (k : Nat) (p : ℝ) {q s : ℝ} (h : 0 < s + q * q) :
    HasDerivWithinAt (fun s => (grad (.even k) p q s).get) (evenHess k p q s / 2) (Ici 0) s := by
  have hr : 0 < Real.sqrt (s + q * q) := Real.sqrt_pos.2 h
  have hd := hasDerivAt_rho h
  have hG : HasDerivAt (fun s => evenSign k * p * Real.sqrt (s + q * q) ^ k * (1 + ((k + 2 : ℕ) : ℝ) * Real.log (Real.sqrt (s + q * q)))) _ s :=
    ((hd.pow k).const_mul (evenSign k * p)).mul (((hd.log hr.ne').const_mul ((k + 2 : ℕ) : ℝ)).const_add 1)
  have heq : (fun s => (grad (.even k) p q s).get) =ᶠ[nhds s] fun s => evenSign k * p * Real.sqrt (s + q * q) ^ k *
      (1 + ((k + 2 : ℕ) : ℝ) * Real.log (Real.sqrt (s + q * q))) := by
    have : ∀ᶠ t in nhds s, 0 < t + q * q := by
      have hc : Continuous fun t : ℝ => t + q * q := by fun_prop
      exact hc.continuousAt.eventually (eventually_gt_nhds h)
    filter_upwards [this] with t ht
    simp only [grad]
    rw [if_neg (Real.sqrt_pos.2 ht).ne']
    rfl
  refine (hG.congr_of_eventuallyEq heq).hasDerivWithinAt.congr_deriv ?_
  have hsq : s + q * q = Real.sqrt (s + q * q) * Real.sqrt (s + q * q) := (Real.mul_self_sqrt h.le).symm
  have hpow : (k : ℝ) * Real.sqrt (s + q * q) ^ (k - 1) = k * Real.sqrt (s + q * q) ^ k / Real.sqrt (s + q * q) := by
    cases k with
    | zero => simp
    | succ k => rw [Nat.add_sub_cancel, pow_succ, ← mul_assoc, mul_div_cancel_right₀ _ hr.ne']
  unfold evenHess
  simp only [Pi.pow_apply]
  rw [hpow]
  have hdiv : ∀ x : ℝ, x / (s + q * q) = x / (Real.sqrt (s + q * q) * Real.sqrt (s + q * q)) := fun x => by rw [← hsq]
  rw [hdiv]
  generalize Real.sqrt (s + q * q) = r at *
  push_cast at *
  generalize Real.log r = l at *
  field_simp

theorem even_hess (k : Nat) (p : ℝ) {q s : ℝ} (h : 0 < s + q * q)
    (hlog : 1 + ((k + 2 : ℕ) : ℝ) * Real.log (Real.sqrt (s + q * q)) ≠ 0) : RadialHess (.even k) p q s := by
  have hr : 0 < Real.sqrt (s + q * q) := Real.sqrt_pos.2 h
  have hh : hess (.even k) p q s = _ := (if_neg hr.ne').trans (if_neg hlog)
  refine ⟨_, _, hh, if_neg hr.ne', (even_grad_deriv k p h).congr_deriv ?_⟩
  unfold evenHess
  push_cast at *
  generalize Real.log (Real.sqrt (s + q * q)) = l at *
  field_simp
  ring

theorem odd_grad (k : Nat) (p : ℝ) {q s : ℝ} (h : 0 < s + q * q) : RadialGrad (.odd k) p q s := by
  have hr : 0 < Real.sqrt (s + q * q) := Real.sqrt_pos.2 h
  refine ⟨_, if_neg hr.ne', ?_⟩
  have hd := hasDerivAt_rho h
  have hG : HasDerivAt (value (.odd k) p q) _ s := (hd.pow (2 * k + 1)).const_mul (oddSign k * p)
  refine hG.hasDerivWithinAt.congr_deriv ?_
  rw [zpow_sub₀ hr.ne', show ((2 : ℤ) * k + 1) = ((2 * k + 1 : ℕ) : ℤ) by push_cast; rfl, zpow_natCast, Nat.add_sub_cancel,
    show (2 : ℤ) = ((2 : ℕ) : ℤ) from rfl, zpow_natCast, pow_succ]
  push_cast
  field_simp

theorem odd_hess (k : Nat) (p : ℝ) {q s : ℝ} (h : 0 < s + q * q) : RadialHess (.odd k) p q s := by
  have hr : 0 < Real.sqrt (s + q * q) := Real.sqrt_pos.2 h
  refine ⟨_, _, if_neg hr.ne', if_neg hr.ne', ?_⟩
  have hd := hasDerivAt_rho h
  have hz : HasDerivAt (fun s => Real.sqrt (s + q * q) ^ ((2 * k + 1 : ℤ) - 2)) _ s :=
    HasDerivAt.comp (h₂ := fun x : ℝ => x ^ ((2 * k + 1 : ℤ) - 2)) (h := fun s => Real.sqrt (s + q * q)) s
      (hasDerivAt_zpow ((2 * k + 1 : ℤ) - 2) _ (Or.inl hr.ne')) hd
  have hG : HasDerivAt (fun s => oddSign k * ((2 * k + 1 : ℕ) : ℝ) * p * Real.sqrt (s + q * q) ^ ((2 * k + 1 : ℤ) - 2)) _ s :=
    hz.const_mul (oddSign k * ((2 * k + 1 : ℕ) : ℝ) * p)
  have heq : (fun s => (grad (.odd k) p q s).get) =ᶠ[nhds s] fun s => oddSign k * ((2 * k + 1 : ℕ) : ℝ) * p *
      Real.sqrt (s + q * q) ^ ((2 * k + 1 : ℤ) - 2) := by
    have : ∀ᶠ t in nhds s, 0 < t + q * q := by
      have hc : Continuous fun t : ℝ => t + q * q := by fun_prop
      exact hc.continuousAt.eventually (eventually_gt_nhds h)
    filter_upwards [this] with t ht
    simp only [grad]
    rw [if_neg (Real.sqrt_pos.2 ht).ne']
    rfl
  refine (hG.congr_of_eventuallyEq heq).hasDerivWithinAt.congr_deriv ?_
  have hsq : s + q * q = Real.sqrt (s + q * q) * Real.sqrt (s + q * q) := (Real.mul_self_sqrt h.le).symm
  have hdiv : ∀ x : ℝ, x / (s + q * q) = x / (Real.sqrt (s + q * q) * Real.sqrt (s + q * q)) := fun x => by rw [← hsq]
  rw [hdiv, zpow_sub_one₀ hr.ne']
  push_cast
  generalize Real.sqrt (s + q * q) ^ ((2 * k + 1 : ℤ) - 2) = z
  field_simp

/-! ## Spheroidal -/

/-- The number the code's gradient coefficient of the smooth part should be: twice the derivative. -/
noncomputable def Spheroid.trueGrad (o : Spheroid) (p q rho : ℝ) : ℝ :=
  -p * ((2 * o.m + 1) * o.b * o.c) / (sqrtPow (o.m + 1) (1 + o.c * rho * rho) * q * q)

theorem imq_deriv (o : Spheroid) (hc : 0 ≤ o.c) (p : ℝ) {q s : ℝ} (hq : 0 < q) (hs : 0 ≤ s) :
    HasDerivWithinAt (fun s => o.imq p (Real.sqrt s / q)) (o.trueGrad p q (Real.sqrt s / q) / 2) (Ici 0) s := by
  have heq : ∀ t ∈ Ici (0 : ℝ), o.imq p (Real.sqrt t / q) = p * o.b / sqrtPow o.m (1 + o.c * (t / (q * q))) := by
    intro t ht
    unfold Spheroid.imq
    rw [mul_assoc o.c, rho_sq ht]
  refine ((hasDerivAt_imq o.m (p * o.b) o.c hc hq hs).hasDerivWithinAt.congr heq (heq s hs)).congr_deriv ?_
  unfold Spheroid.trueGrad
  rw [mul_assoc o.c, rho_sq hs]
  have := sqrtPow_pos (o.m + 1) (show 0 < 1 + o.c * (s / (q * q)) by positivity)
  field_simp

/-- What the second Hessian coefficient of the smooth part should be, relative to the first. -/
noncomputable def Spheroid.trueHess (o : Spheroid) (q r : ℝ) : ℝ := -((2 * o.m + 3) * o.c / (o.c * (r * r) + q * q))

theorem imqGrad_deriv (o : Spheroid) (hc : 0 ≤ o.c) (p : ℝ) {q s : ℝ} (hq : 0 < q) (hs : 0 ≤ s) :
    HasDerivWithinAt (fun s => o.imqGrad p q (Real.sqrt s / q))
      (o.imqGrad p q (Real.sqrt s / q) * o.trueHess q (Real.sqrt s) / 2) (Ici 0) s := by
  have heq : ∀ t ∈ Ici (0 : ℝ), o.imqGrad p q (Real.sqrt t / q) =
      (-p * o.d / (q * q)) / sqrtPow (o.m + 1) (1 + o.c * (t / (q * q))) := by
    intro t ht
    unfold Spheroid.imqGrad
    rw [mul_assoc o.c, rho_sq ht]
    have := sqrtPow_pos (o.m + 1) (show 0 < 1 + o.c * (t / (q * q)) by have : 0 ≤ t := ht; positivity)
    field_simp
  refine ((hasDerivAt_imq (o.m + 1) _ o.c hc hq hs).hasDerivWithinAt.congr heq (heq s hs)).congr_deriv ?_
  rw [heq s hs]
  unfold Spheroid.trueHess
  rw [Real.mul_self_sqrt hs, sqrtPow_succ (o.m + 1)]
  have hu : 0 < 1 + o.c * (s / (q * q)) := by positivity
  have := sqrtPow_pos (o.m + 1) hu
  have h2 : o.c * s + q * q = q * q * (1 + o.c * (s / (q * q))) := by field_simp; ring
  rw [h2]
  set u := 1 + o.c * (s / (q * q))
  push_cast
  field_simp
  ring

theorem lin_deriv (o : Spheroid) (p : ℝ) {q s : ℝ} (hq : 0 < q) (hs : 0 < s) :
    HasDerivAt (fun s => o.lin p (Real.sqrt s / q)) (o.linGrad p q (Real.sqrt s) / 2) s := by
  have hr : 0 < Real.sqrt s := Real.sqrt_pos.2 hs
  have h := ((((hasDerivAt_sqrt hs).div_const q).const_mul o.a).const_sub 1).const_mul p
  refine h.congr_deriv ?_
  unfold Spheroid.linGrad
  field_simp

theorem linGrad_deriv (o : Spheroid) (p : ℝ) {q s : ℝ} (hq : 0 < q) (hs : 0 < s) :
    HasDerivAt (fun s => o.linGrad p q (Real.sqrt s))
      (o.linGrad p q (Real.sqrt s) * -(1 / (Real.sqrt s * Real.sqrt s)) / 2) s := by
  have hr : 0 < Real.sqrt s := Real.sqrt_pos.2 hs
  have h : HasDerivAt (fun s => -p * o.a / (Real.sqrt s * q)) _ s :=
    (hasDerivAt_const s (-p * o.a)).div ((hasDerivAt_sqrt hs).mul_const q) (by positivity)
  refine h.congr_deriv ?_
  unfold Spheroid.linGrad
  field_simp
  ring

end Verif.Kernel
