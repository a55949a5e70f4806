import Verif.Lemmas.Kernel
import Mathlib.Tactic.FinCases

/-! # The spheroidal functions -/

namespace Verif.Kernel

open Verif Set

/-- The constants of the library. -/
noncomputable def spheroids : List Spheroid := [sp3, sp5, sp7, sp9]

theorem spheroid_facts {o : Spheroid} (h : o ∈ spheroids) :
    0 < o.rho0 ∧ 0 < o.a ∧ o.a * o.rho0 ≤ 1 ∧ 0 < o.b ∧ o.b ≤ 1 ∧ 0 < o.c ∧ 0 < o.d ∧ 0 < o.e ∧
      |o.d - (2 * o.m + 1) * o.b * o.c| ≤ 2e-16 * ((2 * o.m + 1) * o.b * o.c) ∧ |o.c * o.e - 1| ≤ 1e-16 := by
  unfold spheroids at h
  fin_cases h
  · simp only [sp3, abs_le]; norm_num
  · simp only [sp5, abs_le]; norm_num
  · simp only [sp7, abs_le]; norm_num
  · simp only [sp9, abs_le]; norm_num

/-- Where a version of a spheroidal function is differentiable: its smooth part everywhere, the others away from the origin and from
the radius where the two pieces meet. -/
def SphSmooth (o : Spheroid) (part : Part) (q s : ℝ) : Prop :=
  part = .fast ∨ (0 < s ∧ Real.sqrt s / q ≠ o.rho0)

theorem rho_lt_eventually {q s r0 : ℝ} (h : Real.sqrt s / q < r0) : ∀ᶠ t in nhds s, Real.sqrt t / q < r0 := by
  have hc : Continuous fun t : ℝ => Real.sqrt t / q := Real.continuous_sqrt.div_const q
  exact hc.continuousAt.eventually (eventually_lt_nhds h)

theorem rho_gt_eventually {q s r0 : ℝ} (h : r0 < Real.sqrt s / q) : ∀ᶠ t in nhds s, r0 < Real.sqrt t / q := by
  have hc : Continuous fun t : ℝ => Real.sqrt t / q := Real.continuous_sqrt.div_const q
  exact hc.continuousAt.eventually (eventually_gt_nhds h)

/-- The derivative of a function given by two pieces, away from where they meet. -/
theorem pieces {F G : ℝ → ℝ} {f g q s r0 : ℝ} (h : Real.sqrt s / q ≠ r0) (hF : HasDerivWithinAt F f (Ici 0) s)
    (hG : HasDerivWithinAt G g (Ici 0) s) :
    HasDerivWithinAt (fun t => if Real.sqrt t / q < r0 then F t else G t) (if Real.sqrt s / q < r0 then f else g) (Ici 0) s := by
  rcases lt_or_gt_of_ne h with h | h
  · rw [if_pos h]
    refine hF.congr_of_eventuallyEq ?_ (if_pos h)
    filter_upwards [mem_nhdsWithin_of_mem_nhds (rho_lt_eventually h)] with t ht using if_pos ht
  · rw [if_neg (not_lt.2 h.le)]
    refine hG.congr_of_eventuallyEq ?_ (if_neg (not_lt.2 h.le))
    filter_upwards [mem_nhdsWithin_of_mem_nhds (rho_gt_eventually h)] with t ht using if_neg (not_lt.2 ht.le)

/-- The gradient coefficient away from the origin. -/
theorem sph_grad_eq (o : Spheroid) (part : Part) (p : ℝ) {q s : ℝ} (h : part = .fast ∨ 0 < s) :
    grad (.spheroidal o part) p q s = .num (match part with
      | .fast => o.imqGrad p q (Real.sqrt s / q)
      | .full => if Real.sqrt s / q < o.rho0 then o.linGrad p q (Real.sqrt s) else o.imqGrad p q (Real.sqrt s / q)
      | .direct => if Real.sqrt s / q < o.rho0 then o.linGrad p q (Real.sqrt s) - o.imqGrad p q (Real.sqrt s / q) else 0) := by
  cases part with
  | fast => rfl
  | full =>
      rcases h with h | h
      · cases h
      simp only [grad]
      rw [if_neg (Real.sqrt_pos.2 h).ne']
      split <;> rfl
  | direct =>
      rcases h with h | h
      · cases h
      simp only [grad]
      rw [if_neg (Real.sqrt_pos.2 h).ne']
      split <;> rfl

theorem sph_hess_eq (o : Spheroid) (part : Part) (p : ℝ) {q s : ℝ} (h : part = .fast ∨ 0 < s) :
    ∃ c w, hess (.spheroidal o part) p q s = .num c w ∧ grad (.spheroidal o part) p q s = .num c ∧
      w = (match part with
      | .fast => o.imqGrad p q (Real.sqrt s / q) * o.imqHess q (Real.sqrt s)
      | .full => if Real.sqrt s / q < o.rho0 then o.linGrad p q (Real.sqrt s) * -(1 / (Real.sqrt s * Real.sqrt s))
          else o.imqGrad p q (Real.sqrt s / q) * o.imqHess q (Real.sqrt s)
      | .direct => if Real.sqrt s / q < o.rho0 then o.linGrad p q (Real.sqrt s) * -(1 / (Real.sqrt s * Real.sqrt s)) -
          o.imqGrad p q (Real.sqrt s / q) * o.imqHess q (Real.sqrt s) else 0) := by
  cases part with
  | fast => exact ⟨_, _, rfl, rfl, rfl⟩
  | full =>
      rcases h with h | h
      · cases h
      by_cases hr : Real.sqrt s / q < o.rho0
      · exact ⟨_, _, (if_pos hr).trans (if_neg (Real.sqrt_pos.2 h).ne'), (if_pos hr).trans (if_neg (Real.sqrt_pos.2 h).ne'),
          (if_pos hr).symm⟩
      · exact ⟨_, _, if_neg hr, if_neg hr, (if_neg hr).symm⟩
  | direct =>
      rcases h with h | h
      · cases h
      by_cases hr : Real.sqrt s / q < o.rho0
      · exact ⟨_, _, (if_pos hr).trans (if_neg (Real.sqrt_pos.2 h).ne'), (if_pos hr).trans (if_neg (Real.sqrt_pos.2 h).ne'),
          (if_pos hr).symm⟩
      · exact ⟨_, _, if_neg hr, if_neg hr, (if_neg hr).symm⟩

theorem smooth_pos {o : Spheroid} {part : Part} {q s : ℝ} (h : SphSmooth o part q s) : part = .fast ∨ 0 < s := h.imp id And.left

/-- With consistent constants the gradient is the derivative. -/
theorem sph_radialGrad (o : Spheroid) (hc : 0 ≤ o.c) (hd : o.d = (2 * o.m + 1) * o.b * o.c) (part : Part) (p : ℝ) {q s : ℝ}
    (hq : 0 < q) (hs : 0 ≤ s) (h : SphSmooth o part q s) : RadialGrad (.spheroidal o part) p q s := by
  refine ⟨_, sph_grad_eq o part p (smooth_pos h), ?_⟩
  have ht : o.trueGrad p q (Real.sqrt s / q) = o.imqGrad p q (Real.sqrt s / q) := by
    unfold Spheroid.trueGrad Spheroid.imqGrad; rw [hd]
  have himq := imq_deriv o hc p hq hs
  rw [ht] at himq
  cases part with
  | fast => exact himq
  | full =>
      rcases h with h | h
      · cases h
      have := pieces h.2 (lin_deriv o p hq h.1).hasDerivWithinAt himq
      refine this.congr_deriv ?_
      dsimp only
      split <;> rfl
  | direct =>
      rcases h with h | h
      · cases h
      have := pieces h.2 ((lin_deriv o p hq h.1).hasDerivWithinAt.sub himq) (hasDerivWithinAt_const s _ (0 : ℝ))
      refine this.congr_deriv ?_
      dsimp only
      split <;> ring

/-- With consistent constants the Hessian is the second derivative. -/
theorem sph_radialHess (o : Spheroid) (hc : 0 < o.c) (he : o.e = 1 / o.c) (part : Part)
    (p : ℝ) {q s : ℝ} (hq : 0 < q) (hs : 0 ≤ s) (h : SphSmooth o part q s) : RadialHess (.spheroidal o part) p q s := by
  obtain ⟨c, w, h1, h2, h3⟩ := sph_hess_eq o part p (q := q) (smooth_pos h)
  refine ⟨c, w, h1, h2, ?_⟩
  have ht : o.trueHess q (Real.sqrt s) = o.imqHess q (Real.sqrt s) := by
    unfold Spheroid.trueHess Spheroid.imqHess
    rw [he]
    have : 0 < Real.sqrt s * Real.sqrt s + 1 / o.c * q * q := by positivity
    field_simp
  have himq := imqGrad_deriv o hc.le p hq hs
  rw [ht] at himq
  rw [h3]
  cases part with
  | fast => exact himq
  | full =>
      rcases h with h | h
      · cases h
      have := pieces h.2 (linGrad_deriv o p hq h.1).hasDerivWithinAt himq
      have heq : (fun t => (grad (.spheroidal o .full) p q t).get) =ᶠ[nhdsWithin s (Ici 0)]
          fun t => if Real.sqrt t / q < o.rho0 then o.linGrad p q (Real.sqrt t) else o.imqGrad p q (Real.sqrt t / q) := by
        filter_upwards [mem_nhdsWithin_of_mem_nhds (Ioi_mem_nhds h.1)] with t ht
        rw [sph_grad_eq o .full p (Or.inr ht)]; rfl
      refine (this.congr_of_eventuallyEq heq (heq.eq_of_nhdsWithin hs)).congr_deriv ?_
      dsimp only
      split <;> rfl
  | direct =>
      rcases h with h | h
      · cases h
      have := pieces h.2 ((linGrad_deriv o p hq h.1).hasDerivWithinAt.sub himq) (hasDerivWithinAt_const s _ (0 : ℝ))
      have heq : (fun t => (grad (.spheroidal o .direct) p q t).get) =ᶠ[nhdsWithin s (Ici 0)]
          fun t => if Real.sqrt t / q < o.rho0 then o.linGrad p q (Real.sqrt t) - o.imqGrad p q (Real.sqrt t / q) else 0 := by
        filter_upwards [mem_nhdsWithin_of_mem_nhds (Ioi_mem_nhds h.1)] with t ht
        rw [sph_grad_eq o .direct p (Or.inr ht)]; rfl
      refine (this.congr_of_eventuallyEq heq (heq.eq_of_nhdsWithin hs)).congr_deriv ?_
      dsimp only
      split <;> ring

/-! ## Rounded constants -/

/-- The function with its derived constants replaced by the exact ones. -/
noncomputable def Spheroid.exact (o : Spheroid) : Spheroid := { o with d := (2 * o.m + 1) * o.b * o.c, e := 1 / o.c }

theorem value_exact (o : Spheroid) (part : Part) (p q : ℝ) :
    value (.spheroidal o.exact part) p q = value (.spheroidal o part) p q := by
  funext s
  cases part <;> rfl

theorem imqGrad_close {o : Spheroid} (h : o ∈ spheroids) (p q rho : ℝ) :
    |o.imqGrad p q rho - o.exact.imqGrad p q rho| ≤ 2e-16 * |o.exact.imqGrad p q rho| := by
  obtain ⟨-, -, -, hb, -, hc, -, -, hd, -⟩ := spheroid_facts h
  have hD : 0 < (2 * (o.m : ℝ) + 1) * o.b * o.c := by positivity
  have h1 : o.imqGrad p q rho - o.exact.imqGrad p q rho = (o.d - (2 * o.m + 1) * o.b * o.c) *
      (-p / (sqrtPow (o.m + 1) (1 + o.c * rho * rho) * q * q)) := by
    unfold Spheroid.imqGrad Spheroid.exact
    dsimp only
    ring
  have h2 : o.exact.imqGrad p q rho = ((2 * o.m + 1) * o.b * o.c) * (-p / (sqrtPow (o.m + 1) (1 + o.c * rho * rho) * q * q)) := by
    unfold Spheroid.imqGrad Spheroid.exact
    dsimp only
    ring
  rw [h1, h2, abs_mul, abs_mul, ← mul_assoc, abs_of_pos hD]
  exact mul_le_mul_of_nonneg_right hd (abs_nonneg _)

theorem imqHess_close {o : Spheroid} (h : o ∈ spheroids) (p : ℝ) {q : ℝ} (hq : 0 < q) (rho r : ℝ) :
    |o.imqGrad p q rho * o.imqHess q r - o.exact.imqGrad p q rho * o.exact.imqHess q r| ≤
      4e-16 * |o.exact.imqGrad p q rho * o.exact.imqHess q r| := by
  obtain ⟨-, -, -, hb, -, hc, -, he, -, hce⟩ := spheroid_facts h
  have hg := imqGrad_close h p q rho
  have hclose : |o.imqHess q r - o.exact.imqHess q r| ≤ 1.1e-16 * |o.exact.imqHess q r| := by
    have e1 : o.imqHess q r = -(2 * o.m + 3) / (r * r + o.e * q * q) := by unfold Spheroid.imqHess; ring
    have e2 : o.exact.imqHess q r = -(2 * o.m + 3) / (r * r + 1 / o.c * q * q) := by
      unfold Spheroid.imqHess Spheroid.exact; dsimp only; ring
    have hrr : 0 ≤ r * r := mul_self_nonneg r
    have hA : 0 < r * r + o.e * q * q := by positivity
    have hB : 0 < r * r + 1 / o.c * q * q := by positivity
    have hdiff : o.imqHess q r - o.exact.imqHess q r = o.exact.imqHess q r * ((1 / o.c - o.e) * q * q / (r * r + o.e * q * q)) := by
      rw [e1, e2]
      rw [div_sub_div _ _ hA.ne' hB.ne', div_mul_div_comm, div_eq_div_iff (by positivity) (by positivity)]
      ring
    rw [hdiff, abs_mul, mul_comm]
    refine mul_le_mul_of_nonneg_right ?_ (abs_nonneg _)
    rw [abs_div, abs_of_pos hA, div_le_iff₀ hA, mul_assoc, abs_mul, abs_of_pos (mul_pos hq hq)]
    have h3 : |1 / o.c - o.e| ≤ 1.1e-16 * o.e := by
      have h4 : 1 / o.c - o.e = (1 - o.c * o.e) / o.c := by field_simp
      rw [h4, abs_div, abs_of_pos hc, div_le_iff₀ hc, abs_sub_comm]
      rw [abs_le] at hce ⊢
      constructor <;> nlinarith
    calc |1 / o.c - o.e| * (q * q) ≤ 1.1e-16 * o.e * (q * q) := mul_le_mul_of_nonneg_right h3 (mul_self_nonneg q)
      _ ≤ 1.1e-16 * (r * r + o.e * q * q) := by nlinarith
  generalize o.imqGrad p q rho = g at *
  generalize o.exact.imqGrad p q rho = g' at *
  generalize o.imqHess q r = w at *
  generalize o.exact.imqHess q r = w' at *
  have : g * w - g' * w' = (g - g') * (w - w') + (g - g') * w' + g' * (w - w') := by ring
  rw [this]
  calc |(g - g') * (w - w') + (g - g') * w' + g' * (w - w')|
      ≤ |(g - g') * (w - w')| + |(g - g') * w'| + |g' * (w - w')| := abs_add_three _ _ _
    _ ≤ (2e-16 * |g'|) * (1.1e-16 * |w'|) + (2e-16 * |g'|) * |w'| + |g'| * (1.1e-16 * |w'|) := by
        rw [abs_mul, abs_mul, abs_mul]
        have := abs_nonneg (g - g'); have := abs_nonneg (w - w'); have := abs_nonneg g'; have := abs_nonneg w'
        gcongr
    _ ≤ 4e-16 * |g' * w'| := by
        rw [abs_mul]
        have : 0 ≤ |g'| * |w'| := mul_nonneg (abs_nonneg _) (abs_nonneg _)
        nlinarith

end Verif.Kernel
