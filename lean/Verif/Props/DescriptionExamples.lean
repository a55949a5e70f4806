import Verif.Props.Description

/-!
# C76: the assumptions can be met
-/

namespace Verif.Description

open Verif Kernel FmmKernel
open Verif.VariogramFitting (Mdl)

variable {d : Nat}

/-- For every symmetric matrix there is what the eigenvalue solver promises. -/
theorem exists_decomposition (m : Matrix (Fin d) (Fin d) ℝ) (hm : m.transpose = m) :
    ∃ p : (Fin d → ℝ) × Matrix (Fin d) (Fin d) ℝ, p.2.transpose * p.2 = 1 ∧ (∀ i j, i ≤ j → p.1 i ≤ p.1 j) ∧ m * p.2 = p.2 * Matrix.diagonal p.1 := by
  have hH : m.IsHermitian := by
    unfold Matrix.IsHermitian
    rw [Matrix.conjTranspose_eq_transpose_of_trivial, hm]
  set U : Matrix (Fin d) (Fin d) ℝ := (hH.eigenvectorUnitary : Matrix (Fin d) (Fin d) ℝ) with hU
  have hUU : U.transpose * U = 1 := by
    have := (Matrix.mem_unitaryGroup_iff' (A := U)).1 hH.eigenvectorUnitary.2
    rwa [Matrix.star_eq_conjTranspose, Matrix.conjTranspose_eq_transpose_of_trivial] at this
  have hmul : ∀ i j, (m * U) i j = U i j * hH.eigenvalues j := by
    intro i j
    have := congrFun (hH.mulVec_eigenvectorBasis j) i
    rw [Pi.smul_apply, smul_eq_mul, mul_comm] at this
    exact this
  refine ⟨(fun i => hH.eigenvalues (Tuple.sort hH.eigenvalues i), Matrix.of fun i j => U i (Tuple.sort hH.eigenvalues j)), ?_, ?_, ?_⟩
  · ext i j
    have := congrFun (congrFun hUU (Tuple.sort hH.eigenvalues i)) (Tuple.sort hH.eigenvalues j)
    rw [Matrix.mul_apply] at this ⊢
    simp only [Matrix.transpose_apply, Matrix.of_apply] at this ⊢
    rw [this, Matrix.one_apply, Matrix.one_apply]
    simp only [EmbeddingLike.apply_eq_iff_eq]
  · intro i j hij
    exact Tuple.monotone_sort hH.eigenvalues hij
  · ext i j
    rw [Matrix.mul_diagonal]
    exact hmul i (Tuple.sort hH.eigenvalues j)

/-- There is an eigenvalue solver that never fails. -/
theorem exists_solver : ∃ es : Solver d, IsSolver es ∧ ∀ m, m.transpose = m → es m ≠ none := by
  classical
  refine ⟨fun m => if h : m.transpose = m then some (exists_decomposition m h).choose else none, ?_, ?_⟩
  · intro m values vectors hm h
    dsimp only at h
    rw [dif_pos hm] at h
    have := (exists_decomposition m hm).choose_spec
    rw [Option.some.inj h] at this
    exact this
  · intro m hm
    dsimp only
    rw [dif_pos hm]
    simp

/-- rotations from cosine and sine -/
theorem exists_angle {x y : ℝ} (h : x ^ 2 + y ^ 2 = 1) : ∃ t, Real.cos t = x ∧ Real.sin t = y := ⟨_, cos_sin_atan2 h⟩

theorem rzr (t : ℝ) : rz (t * 180 / Real.pi) = !![Real.cos t, -Real.sin t, 0; Real.sin t, Real.cos t, 0; 0, 0, 1] := by
  unfold rz
  rw [show t * 180 / Real.pi * (Real.pi / 180) = t by have := Real.pi_pos; field_simp]

theorem rxr (t : ℝ) : rx (t * 180 / Real.pi) = !![1, 0, 0; 0, Real.cos t, -Real.sin t; 0, Real.sin t, Real.cos t] := by
  unfold rx
  rw [show t * 180 / Real.pi * (Real.pi / 180) = t by have := Real.pi_pos; field_simp]

/-- a rotation that keeps the third axis turns about it -/
theorem about_third (q : Matrix (Fin 3) (Fin 3) ℝ) (h : q.transpose * q = 1) (hd : q.det = 1) (h0 : q 0 2 = 0) (h1 : q 1 2 = 0) (h2 : q 2 2 = 1) :
    ∃ t, q = rz (t * 180 / Real.pi) := by
  have ent := fun i j => congrFun (congrFun h i) j
  have e02 := ent 0 2
  have e12 := ent 1 2
  have e00 := ent 0 0
  have e11 := ent 1 1
  simp [Matrix.mul_apply, Fin.sum_univ_three, Matrix.transpose_apply, h0, h1, h2] at e02 e12 e00 e11
  rw [Matrix.det_fin_three, h0, h1, h2, e02, e12] at hd
  rw [e02] at e00
  rw [e12] at e11
  have key : (q 0 0 - q 1 1) ^ 2 + (q 0 1 + q 1 0) ^ 2 = 0 := by linear_combination e00 + e11 - 2 * hd
  have k1 : q 1 1 = q 0 0 := by nlinarith [_root_.sq_nonneg (q 0 0 - q 1 1), _root_.sq_nonneg (q 0 1 + q 1 0)]
  have k2 : q 0 1 = -q 1 0 := by nlinarith [_root_.sq_nonneg (q 0 0 - q 1 1), _root_.sq_nonneg (q 0 1 + q 1 0)]
  obtain ⟨t, t1, t2⟩ := exists_angle (x := q 0 0) (y := q 1 0) (by linear_combination e00)
  refine ⟨t, ?_⟩
  rw [rzr, t1, t2]
  ext i j
  fin_cases i <;> fin_cases j <;> simp [h0, h1, h2, e02, e12, k1, k2]

/-- Every rotation has Euler angles. -/
theorem exists_angles (r : Matrix (Fin 3) (Fin 3) ℝ) (h : r.transpose * r = 1) (hd : r.det = 1) :
    ∃ e : ℝ × ℝ × ℝ, r = rz (e.1 * 180 / Real.pi) * rx (e.2.1 * 180 / Real.pi) * rz (e.2.2 * 180 / Real.pi) := by
  have ent := fun i j => congrFun (congrFun h i) j
  have h22 := ent 2 2
  simp only [Matrix.mul_apply, Fin.sum_univ_three, Matrix.transpose_apply, Matrix.one_apply_eq] at h22
  -- the third column in spherical coordinates
  obtain ⟨sb, ca, sa, hab, hb, h02, h12⟩ : ∃ sb ca sa : ℝ, ca ^ 2 + sa ^ 2 = 1 ∧ r 2 2 ^ 2 + sb ^ 2 = 1 ∧ r 0 2 = sa * sb ∧ r 1 2 = -ca * sb := by
    by_cases hz : r 0 2 ^ 2 + r 1 2 ^ 2 = 0
    · refine ⟨0, 1, 0, by norm_num, by linear_combination h22 - hz, ?_, ?_⟩ <;> nlinarith [_root_.sq_nonneg (r 0 2), _root_.sq_nonneg (r 1 2)]
    · have hp : 0 < r 0 2 ^ 2 + r 1 2 ^ 2 := lt_of_le_of_ne (by positivity) (Ne.symm hz)
      have hs : 0 < Real.sqrt (r 0 2 ^ 2 + r 1 2 ^ 2) := Real.sqrt_pos.2 hp
      have hq := Real.sq_sqrt hp.le
      refine ⟨Real.sqrt (r 0 2 ^ 2 + r 1 2 ^ 2), -r 1 2 / Real.sqrt (r 0 2 ^ 2 + r 1 2 ^ 2), r 0 2 / Real.sqrt (r 0 2 ^ 2 + r 1 2 ^ 2), ?_, ?_, ?_, ?_⟩
      · rw [div_pow, div_pow, hq, ← add_div, neg_sq, add_comm, div_self hz]
      · rw [hq]; linear_combination h22
      · field_simp
      · field_simp
  obtain ⟨a, rfl, rfl⟩ := exists_angle hab
  obtain ⟨b, hb1, hb2⟩ := exists_angle hb
  -- the rest turns about the third axis
  set M := rz (a * 180 / Real.pi) * rx (b * 180 / Real.pi) with hM
  have hMe : M = !![Real.cos a, -Real.sin a * Real.cos b, Real.sin a * Real.sin b; Real.sin a, Real.cos a * Real.cos b, -Real.cos a * Real.sin b; 0, Real.sin b, Real.cos b] := by
    rw [hM, rzr, rxr]
    ext i j
    fin_cases i <;> fin_cases j <;> simp [Matrix.mul_apply, Fin.sum_univ_three]
  have ha' := Real.cos_sq_add_sin_sq a
  have hb' := Real.cos_sq_add_sin_sq b
  have hMM : M.transpose * M = 1 := by
    rw [hMe]
    ext i j
    fin_cases i <;> fin_cases j <;> simp [Matrix.mul_apply, Fin.sum_univ_three]
    · linear_combination ha'
    · ring
    · ring
    · ring
    · linear_combination (Real.cos b ^ 2) * ha' + hb'
    · linear_combination (-Real.cos b * Real.sin b) * ha'
    · ring
    · linear_combination (-Real.cos b * Real.sin b) * ha'
    · linear_combination (Real.sin b ^ 2) * ha' + hb'
  have hMd : M.det = 1 := by
    rw [hMe, Matrix.det_fin_three]
    simp
    linear_combination ha' * (Real.cos b ^ 2 + Real.sin b ^ 2) + hb'
  have hMM' : M * M.transpose = 1 := mul_eq_one_comm.1 hMM
  have hcol : ∀ i, r i 2 = M i 2 := by
    intro i
    rw [hMe]
    fin_cases i
    · simp [h02, hb2]
    · simp [h12, hb2]
    · simp [hb1]
  have hq : ∀ i, (M.transpose * r) i 2 = (M.transpose * M) i 2 := fun i => by
    rw [Matrix.mul_apply, Matrix.mul_apply]
    exact Finset.sum_congr rfl fun j _ => by rw [hcol]
  obtain ⟨t, ht⟩ := about_third (M.transpose * r)
    (by rw [Matrix.transpose_mul, Matrix.transpose_transpose, Matrix.mul_assoc, ← Matrix.mul_assoc M, hMM', Matrix.one_mul, h])
    (by rw [Matrix.det_mul, Matrix.det_transpose, hMd, hd, one_mul])
    (by rw [hq, hMM]; rfl) (by rw [hq, hMM]; rfl) (by rw [hq, hMM]; rfl)
  refine ⟨(a, b, t), ?_⟩
  dsimp only
  rw [← ht, ← hM, ← Matrix.mul_assoc, hMM', Matrix.one_mul]

/-- There are Euler angles as promised. -/
theorem exists_euler : ∃ angles, IsEuler angles := by
  classical
  refine ⟨fun r => if h : r.transpose * r = 1 ∧ r.det = 1 then (exists_angles r h.1 h.2).choose else (0, 0, 0), fun r h hd => ?_⟩
  dsimp only
  rw [dif_pos ⟨h, hd⟩]
  exact (exists_angles r h hd).choose_spec

/-- The assumptions of the theorems about the table are met by a model with two functions, one of them anisotropic. -/
example : ∃ (es : Solver 3) (angles : _) (m : Mdl 3) (t : _), IsSolver es ∧ IsEuler angles ∧ Proper m ∧ m.rbfs.length = 2 ∧ description (row3 es angles) m = .ok t := by
  obtain ⟨es, h1, h2⟩ := exists_solver (d := 3)
  obtain ⟨angles, h3⟩ := exists_euler
  let m : Mdl 3 := ⟨[⟨.exponential, 2, 30, 1⟩, ⟨.spherical, 1, 10, !![1, 0, 0; 1, 2, 0; 0, 0, 3]⟩], 1 / 2⟩
  obtain ⟨t, ht⟩ := C76_total h2 angles m (by intro c hc; simp only [m, List.mem_cons, List.not_mem_nil, or_false] at hc; rcases hc with rfl | rfl <;> rfl)
  refine ⟨es, angles, m, t, h1, h3, ?_, rfl, ht⟩
  intro c hc
  simp only [m, List.mem_cons, List.not_mem_nil, or_false] at hc
  rcases hc with rfl | rfl
  · exact ⟨by norm_num, by simp⟩
  · refine ⟨by norm_num, ?_⟩
    rw [Matrix.det_fin_three]
    simp

/-- A model with a polyharmonic function has no table. -/
example (es : Solver 1) : description (row1 es) ⟨[⟨.exponential, 2, 30, 1⟩, ⟨.odd 1, 1, 1, 1⟩], 0⟩ = .throws .runtimeError :=
  C76_refused _ _ ⟨⟨.odd 1, 1, 1, 1⟩, by simp, rfl⟩

end Verif.Description
