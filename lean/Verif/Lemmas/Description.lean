import Verif.Spec.Description
import Mathlib.LinearAlgebra.Matrix.NonsingularInverse
import Mathlib.Tactic.LinearCombination
import Mathlib.Tactic.FieldSimp
import Mathlib.LinearAlgebra.Matrix.ToLinearEquiv

/-!
# The decomposition of an anisotropy
-/

namespace Verif.Description

open Verif Kernel

variable {d : Nat}

/-- the signs by which the columns are multiplied -/
noncomputable def signs (neg : Bool) (j : Fin d) : ℝ := if neg && (j : Nat) == 0 then -1 else 1

theorem signs_sq (neg : Bool) (j : Fin d) : signs neg j * signs neg j = 1 := by
  unfold signs; split <;> norm_num

open Classical in
theorem proper_eq (v : Matrix (Fin d) (Fin d) ℝ) : proper v = v * Matrix.diagonal (signs (decide (v.det < 0))) := by
  by_cases h : v.det < 0
  · have e : proper v = Matrix.of fun i (j : Fin d) => if (j : Nat) = 0 then v i j * -1 else v i j := if_pos h
    rw [e]
    ext i j
    rw [Matrix.mul_diagonal, Matrix.of_apply]
    unfold signs
    by_cases hj : (j : Nat) = 0 <;> simp [h, hj]
  · have e : proper v = v := if_neg h
    rw [e]
    ext i j
    rw [Matrix.mul_diagonal]
    unfold signs
    simp [h]

theorem det_orth {v : Matrix (Fin d) (Fin d) ℝ} (h : v.transpose * v = 1) : v.det = 1 ∨ v.det = -1 := by
  have := congrArg Matrix.det h
  rw [Matrix.det_mul, Matrix.det_transpose, Matrix.det_one] at this
  exact mul_self_eq_one_iff.1 this

theorem det_signs_true (hd : 0 < d) : (Matrix.diagonal (signs (d := d) true)).det = -1 := by
  rw [Matrix.det_diagonal]
  obtain ⟨n, rfl⟩ := Nat.exists_eq_succ_of_ne_zero hd.ne'
  rw [Fin.prod_univ_succ]
  have : ∀ i : Fin n, signs (d := n + 1) true i.succ = 1 := fun i => by simp [signs]
  simp [this]
  simp [signs]

theorem proper_spec {v : Matrix (Fin d) (Fin d) ℝ} (h : v.transpose * v = 1) : (proper v).transpose * proper v = 1 ∧ (proper v).det = 1 ∧
    ∃ s : Fin d → ℝ, (∀ j, s j * s j = 1) ∧ ∀ i j, proper v i j = v i j * s j := by
  classical
  refine ⟨?_, ?_, _, signs_sq (decide (v.det < 0)), fun i j => ?_⟩
  · rw [proper_eq, Matrix.transpose_mul, Matrix.mul_assoc, ← Matrix.mul_assoc _ v, h, Matrix.one_mul, Matrix.diagonal_transpose, Matrix.diagonal_mul_diagonal]
    rw [← Matrix.diagonal_one]
    congr 1
    funext j
    exact signs_sq _ j
  · rw [proper_eq, Matrix.det_mul]
    rcases det_orth h with e | e
    · rw [e, one_mul, Matrix.det_diagonal]
      have : decide ((1 : ℝ) < 0) = false := by norm_num
      rw [this]
      exact Finset.prod_eq_one fun j _ => by simp [signs]
    · have hd : 0 < d := by
        rcases Nat.eq_zero_or_pos d with rfl | h0
        · rw [Matrix.det_fin_zero] at e; norm_num at e
        · exact h0
      rw [e]
      have : decide ((-1 : ℝ) < 0) = true := by norm_num
      rw [this, det_signs_true hd]
      norm_num
  · rw [proper_eq, Matrix.mul_diagonal]

/-- what the rotation and the scaling are -/
structure Decomposed (a rot : Matrix (Fin d) (Fin d) ℝ) (scale : Fin d → ℝ) : Prop where
  orthogonal : rot.transpose * rot = 1
  det : rot.det = 1
  pos : ∀ i, 0 < scale i
  desc : ∀ i j, i ≤ j → scale j ≤ scale i
  norm : ∀ v, Kernel.sq (a.mulVec v) = ∑ i, ((∑ j, rot j i * v j) / scale i) ^ 2

theorem sq_form {a V : Matrix (Fin d) (Fin d) ℝ} {l : Fin d → ℝ} (hV : V.transpose * V = 1) (hm : a.transpose * a * V = V * Matrix.diagonal l) (v : Fin d → ℝ) :
    Kernel.sq (a.mulVec v) = ∑ i, l i * (∑ j, V j i * v j) ^ 2 := by
  have hV' : V * V.transpose = 1 := mul_eq_one_comm.1 hV
  have e1 : Kernel.sq (a.mulVec v) = dotProduct v ((a.transpose * a).mulVec v) := by
    rw [← Matrix.mulVec_mulVec, Matrix.dotProduct_mulVec, Matrix.vecMul_transpose]
    rfl
  have e2 : a.transpose * a = V * Matrix.diagonal l * V.transpose := by
    rw [← hm, Matrix.mul_assoc, hV', Matrix.mul_one]
  rw [e1, e2, ← Matrix.mulVec_mulVec, ← Matrix.mulVec_mulVec, Matrix.dotProduct_mulVec, ← Matrix.mulVec_transpose]
  unfold dotProduct
  refine Finset.sum_congr rfl fun i _ => ?_
  rw [Matrix.mulVec_diagonal]
  have : V.transpose.mulVec v i = ∑ j, V j i * v j := rfl
  rw [this]
  ring

theorem decompose_spec {es : Solver d} (hes : IsSolver es) {a rot : Matrix (Fin d) (Fin d) ℝ} (hdet : a.det ≠ 0) {scale : Fin d → ℝ} (h : decompose es a = .ok (rot, scale)) :
    Decomposed a rot scale := by
  unfold decompose at h
  cases e : es (a.transpose * a) with
  | none => rw [e] at h; cases h
  | some p =>
    obtain ⟨l, V⟩ := p
    rw [e] at h
    obtain ⟨rfl, rfl⟩ := Prod.mk.inj (Outcome.ok.inj h)
    obtain ⟨hV, hasc, hm⟩ := hes _ l V (by rw [Matrix.transpose_mul, Matrix.transpose_transpose]) e
    have hform := sq_form hV hm
    have hpos : ∀ i, 0 < l i := by
      intro i
      have hi := hform (V.mulVec (Pi.single i 1))
      have hcoord : ∀ k, (∑ j, V j k * V.mulVec (Pi.single i 1) j) = if k = i then 1 else 0 := by
        intro k
        have : (∑ j, V j k * V.mulVec (Pi.single i 1) j) = (V.transpose.mulVec (V.mulVec (Pi.single i 1))) k := rfl
        rw [this, Matrix.mulVec_mulVec, hV, Matrix.one_mulVec, Pi.single_apply]
      simp only [hcoord] at hi
      rw [Finset.sum_eq_single i (fun k _ hk => by rw [if_neg hk]; ring) (fun h => absurd (Finset.mem_univ i) h), if_pos rfl] at hi
      have hli : l i = Kernel.sq (a.mulVec (V.mulVec (Pi.single i 1))) := by rw [hi]; ring
      rw [hli]
      have hnn : 0 ≤ Kernel.sq (a.mulVec (V.mulVec (Pi.single i 1))) := Finset.sum_nonneg fun j _ => mul_self_nonneg _
      rcases hnn.lt_or_eq with h | h
      · exact h
      · exfalso
        have hz : a.mulVec (V.mulVec (Pi.single i 1)) = 0 := by
          funext j
          have := (Finset.sum_eq_zero_iff_of_nonneg (fun j _ => mul_self_nonneg ((a.mulVec (V.mulVec (Pi.single i 1))) j))).1 h.symm j (Finset.mem_univ j)
          exact mul_self_eq_zero.1 this
        have hz' : V.mulVec (Pi.single i 1) = 0 := Matrix.eq_zero_of_mulVec_eq_zero hdet hz
        have := hcoord i
        rw [hz'] at this
        simp at this
    obtain ⟨p1, p2, s, hs, hp⟩ := proper_spec hV
    refine ⟨p1, p2, fun i => by have := Real.sqrt_pos.2 (hpos i); positivity, fun i j hij => ?_, fun v => ?_⟩
    · exact one_div_le_one_div_of_le (Real.sqrt_pos.2 (hpos i)) (Real.sqrt_le_sqrt (hasc i j hij))
    · rw [hform]
      refine Finset.sum_congr rfl fun i _ => ?_
      have e1 : (∑ j, proper V j i * v j) = s i * ∑ j, V j i * v j := by
        rw [Finset.mul_sum]
        exact Finset.sum_congr rfl fun j _ => by rw [hp]; ring
      rw [e1, div_pow, mul_pow, one_div, inv_pow, Real.sq_sqrt (hpos i).le, div_inv_eq_mul, show s i ^ 2 = 1 by rw [_root_.sq]; exact hs i]
      ring

/-! ## The covariance function depends on distance over range -/

theorem value_scaled {k : Kern} (hk : isCovarianceFunction k = true) {p q s : ℝ} (hq : 0 < q) : value k p q s = value k p 1 (s / q ^ 2) := by
  have hs : Real.sqrt (s / q ^ 2) = Real.sqrt s / q := by rw [Real.sqrt_div' _ (by positivity), Real.sqrt_sq hq.le]
  have hlt : Real.sqrt s < q ↔ Real.sqrt s / q < 1 := (div_lt_one hq).symm
  cases k with
  | even => cases hk
  | odd => cases hk
  | exponential => simp only [value, hs, div_one]
  | gaussian => simp only [value, hs, div_one]
  | spherical => simp only [value, hs, div_one, hlt]
  | cubic => simp only [value, hs, div_one, hlt]
  | cauchy m a => simp only [value, hs, div_one]
  | spheroidal o part => cases part <;> simp only [value, hs, div_one]

end Verif.Description
