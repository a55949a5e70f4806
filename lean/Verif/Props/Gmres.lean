import Verif.Lemmas.Gmres
import Mathlib.Analysis.InnerProductSpace.Orthonormal
import Mathlib.LinearAlgebra.Dimension.Finite
import Mathlib.LinearAlgebra.FiniteDimensional.Basic

/-!
# C21: GMRES residuals

`run pb n` is the state after `setup()` and `n` calls of `iterate_process()`.  `NoBreakdown pb n` says that none of these
calls divided by zero: each new direction had a non-zero part orthogonal to the earlier ones.
-/

namespace Verif.Gmres

open Finset

variable {V : Type*} [NormedAddCommGroup V] [InnerProductSpace ℝ V]

/-- The start is not yet a solution and the first `n` steps find a new direction each. -/
def NoBreakdown (pb : Prob V) (n : Nat) : Prop :=
  initialResidual pb ≠ 0 ∧ ∀ m < n, orthogonalised pb (run pb m) ≠ 0

/-- The test for a zero start vector is right about the given one. -/
def StartOk (pb : Prob V) : Prop := pb.isZero pb.x0 → pb.x0 = 0

/-- The (left-preconditioned) residual of `x`. -/
def residual (pb : Prob V) (x : V) : V := pb.left (pb.rhs - pb.op x)

theorem initialResidual_eq {pb : Prob V} (h : StartOk pb) : initialResidual pb = residual pb pb.x0 := by
  unfold initialResidual residual
  split
  · rename_i hz; rw [h hz]; simp
  · rfl

theorem run_succ (pb : Prob V) (n : Nat) : run pb (n + 1) = iterateProcess pb (run pb n) :=
  Function.iterate_succ_apply' _ _ _

theorem den_ne_zero {pb : Prob V} {st : St V} (h : Weak pb st)
    (hne : rotated pb st st.iter ≠ 0 ∨ orthogonalised pb st ≠ 0) : den pb st ≠ 0 := by
  unfold den
  rw [rotated_succ pb st h]
  apply (Real.sqrt_pos.2 _).ne'
  rcases hne with h1 | h1
  · have := pow_pos (abs_pos.2 h1) 2
    rw [sq_abs] at this
    positivity
  · have : 0 < ‖orthogonalised pb st‖ := norm_pos_iff.2 h1
    positivity

theorem run_inv {pb : Prob V} {n : Nat} (h : NoBreakdown pb n) (hn : n ≤ pb.maxIter) :
    Weak pb (run pb n) ∧ Ortho (run pb n) ∧ (run pb n).iter = n := by
  induction n with
  | zero => exact ⟨weak_setup pb, ortho_setup pb h.1, rfl⟩
  | succ n ih =>
      obtain ⟨h1, h2, h3⟩ := ih ⟨h.1, fun m hm => h.2 m (by omega)⟩ (by omega)
      have hu := h.2 n (by omega)
      rw [run_succ]
      refine ⟨weak_step h1 (by omega) (den_ne_zero h1 (Or.inr hu)), ortho_step h2 (by omega) hu, ?_⟩
      rw [iterateProcess, if_neg (by omega)]
      simp only [h3]

/-- The residual of the flexible solution is the last entry of `g_` times a vector. -/
theorem residual_solutionF {pb : Prob V} {st : St V} (hs : StartOk pb) (h : Weak pb st) :
    residual pb (solutionF pb st) = st.g st.iter • tvec st st.iter := by
  have e := residual_combination h (coefficients st)
  have z : ∑ i ∈ range st.iter, (st.g i - ∑ j ∈ Ico i st.iter, st.r i j * coefficients st j) • wvec st i = 0 := by
    apply sum_eq_zero
    intro i hi
    rw [coefficients_spec st h.diag i (mem_range.1 hi), sub_self, zero_smul]
  rw [z, zero_add] at e
  rw [← e, initialResidual_eq hs, residual, residual, solutionF, foldl_add_range]
  simp only [map_sub, map_add, map_sum, map_smul]
  abel

theorem solutionG_eq {pb : Prob V} {st : St V} (h : Weak pb st) (R : V →ₗ[ℝ] V) (hR : ∀ v, pb.right v = R v) :
    solutionG pb st = solutionF pb st := by
  rw [solutionG, solutionF, foldl_add_range, foldl_add_range, hR, zero_add, map_sum, add_comm]
  congr 1
  apply sum_congr rfl
  intro i hi
  rw [map_smul, ← hR, h.zs i (mem_range.1 hi)]

theorem norm_tvec {st : St V} (h : Ortho st) {pb : Prob V} (hw : Weak pb st) : ‖tvec st st.iter‖ = 1 := by
  have := tvec_unit h hw.unit st.iter le_rfl
  rw [real_inner_self_eq_norm_sq] at this
  have h0 := norm_nonneg (tvec st st.iter)
  nlinarith

/-- C21: the reported residual is the true one.  After any number of steps without breakdown, `absolute_residual()`
is the norm of the residual of the vector `solution_vector()` returns - for flexible GMRES with an arbitrary right
preconditioner, and for GMRES with a linear one. -/
theorem C21_reported_residual_is_true (pb : Prob V) (hs : StartOk pb) (n : Nat) (hn : n ≤ pb.maxIter)
    (hb : NoBreakdown pb n) :
    ‖residual pb (solutionF pb (run pb n))‖ = absoluteResidual (run pb n) ∧
    ∀ R : V →ₗ[ℝ] V, (∀ v, pb.right v = R v) →
      ‖residual pb (solutionG pb (run pb n))‖ = absoluteResidual (run pb n) := by
  obtain ⟨h1, h2, h3⟩ := run_inv hb hn
  have e : ‖residual pb (solutionF pb (run pb n))‖ = absoluteResidual (run pb n) := by
    rw [residual_solutionF hs h1, norm_smul, norm_tvec h2 h1, mul_one, Real.norm_eq_abs, absoluteResidual]
  exact ⟨e, fun R hR => by rw [solutionG_eq h1 R hR]; exact e⟩

/-- C21: the returned vector is the best one: no other combination of the search directions used so far has a smaller
residual. -/
theorem C21_residual_is_minimal (pb : Prob V) (hs : StartOk pb) (n : Nat) (hn : n ≤ pb.maxIter) (hb : NoBreakdown pb n)
    (y : Nat → ℝ) :
    absoluteResidual (run pb n) ≤ ‖residual pb (pb.x0 + ∑ i ∈ range n, y i • pb.right ((run pb n).vs i))‖ := by
  obtain ⟨h1, h2, h3⟩ := run_inv hb hn
  set st := run pb n with hst
  have e : residual pb (pb.x0 + ∑ i ∈ range n, y i • pb.right (st.vs i)) =
      initialResidual pb - ∑ j ∈ range st.iter, y j • pb.left (pb.op (st.zs j)) := by
    rw [initialResidual_eq hs, residual, residual, h3]
    simp only [map_sub, map_add, map_sum, map_smul]
    rw [sub_add_eq_sub_sub]
    congr 1
    apply sum_congr rfl
    intro i hi
    rw [h1.zs i (by rw [h3]; exact mem_range.1 hi)]
  rw [e, residual_combination h1]
  have hin : inner ℝ (∑ i ∈ range st.iter, (st.g i - ∑ j ∈ Ico i st.iter, st.r i j * y j) • wvec st i +
      st.g st.iter • tvec st st.iter) (tvec st st.iter) = st.g st.iter := by
    rw [inner_add_left, sum_inner, sum_eq_zero, inner_smul_left, tvec_unit h2 h1.unit _ le_rfl]
    · simp
    · intro i hi
      rw [inner_smul_left, wvec_tvec h2 h1.unit i st.iter le_rfl (mem_range.1 hi)]; simp
  have hcs := abs_real_inner_le_norm (∑ i ∈ range st.iter, (st.g i - ∑ j ∈ Ico i st.iter, st.r i j * y j) • wvec st i +
      st.g st.iter • tvec st st.iter) (tvec st st.iter)
  rw [hin, norm_tvec h2 h1, mul_one] at hcs
  exact hcs

theorem g_step {pb : Prob V} {st : St V} (hlt : st.iter < pb.maxIter) :
    absoluteResidual (iterateProcess pb st) = |rotated pb st (st.iter + 1) / den pb st| * absoluteResidual st := by
  have hne : st.iter ≠ pb.maxIter := by omega
  unfold absoluteResidual iterateProcess
  rw [if_neg hne]
  simp only
  rw [Function.update_of_ne (show st.iter + 1 ≠ st.iter by omega), Function.update_self, abs_mul, abs_neg]

/-- C21: no step increases the reported residual. -/
theorem C21_residual_never_increases (pb : Prob V) (n : Nat) (hb : NoBreakdown pb n) (hn : n ≤ pb.maxIter) (m : Nat)
    (hm : m ≤ n) : absoluteResidual (run pb n) ≤ absoluteResidual (run pb m) := by
  induction n with
  | zero => rw [show m = 0 by omega]
  | succ n ih =>
      by_cases hmn : m = n + 1
      · rw [hmn]
      · have hb' : NoBreakdown pb n := ⟨hb.1, fun k hk => hb.2 k (by omega)⟩
        refine le_trans ?_ (ih hb' (by omega) (by omega))
        obtain ⟨h1, h2, h3⟩ := run_inv hb' (by omega)
        have hd := den_ne_zero h1 (Or.inr (hb.2 n (by omega)))
        rw [run_succ, g_step (by omega)]
        have hu := (cs_spec (x := rotated pb (run pb n) (run pb n).iter) (y := rotated pb (run pb n) ((run pb n).iter + 1))
          (d := den pb (run pb n)) rfl hd).1
        have habs : |rotated pb (run pb n) ((run pb n).iter + 1) / den pb (run pb n)| ≤ 1 := by
          rw [abs_le_one_iff_mul_self_le_one]
          nlinarith [sq_nonneg (rotated pb (run pb n) (run pb n).iter / den pb (run pb n))]
        have h0 : 0 ≤ absoluteResidual (run pb n) := abs_nonneg _
        nlinarith

/-- C21: a breakdown is lucky: if step `n + 1` finds no new direction, the solution after it is exact (unless the step
also has a zero pivot, which makes the code divide zero by zero). -/
theorem C21_breakdown_is_exact (pb : Prob V) (hs : StartOk pb) (n : Nat) (hn : n < pb.maxIter) (hb : NoBreakdown pb n)
    (hu : orthogonalised pb (run pb n) = 0) (hp : rotated pb (run pb n) n ≠ 0) :
    residual pb (solutionF pb (run pb (n + 1))) = 0 ∧ absoluteResidual (run pb (n + 1)) = 0 := by
  obtain ⟨h1, h2, h3⟩ := run_inv hb (by omega)
  have hd := den_ne_zero h1 (Or.inl (by rw [h3]; exact hp))
  have hw := weak_step h1 (by omega) hd
  rw [run_succ]
  have hz : absoluteResidual (iterateProcess pb (run pb n)) = 0 := by
    rw [g_step (by omega), rotated_succ pb _ h1, hu]; simp
  refine ⟨?_, hz⟩
  rw [residual_solutionF hs hw]
  have : (iterateProcess pb (run pb n)).g (iterateProcess pb (run pb n)).iter = 0 := abs_eq_zero.1 hz
  rw [this, zero_smul]

/-- C21: once `max_iter` steps are done, further calls change nothing. -/
theorem C21_no_step_beyond_max_iter (pb : Prob V) (st : St V) (h : st.iter = pb.maxIter) : iterateProcess pb st = st := by
  rw [iterateProcess, if_pos h]

theorem iter_le (pb : Prob V) (n : Nat) : (run pb n).iter ≤ pb.maxIter := by
  induction n with
  | zero => exact Nat.zero_le _
  | succ n ih =>
      rw [run_succ, iterateProcess]
      split
      · exact ih
      · simp only; omega

/-- C21: the iteration count never exceeds `max_iter`, and is the number of calls up to there. -/
theorem C21_iteration_count (pb : Prob V) (n : Nat) : (run pb n).iter = min n pb.maxIter := by
  induction n with
  | zero => simp [run, setup]
  | succ n ih =>
      rw [run_succ, iterateProcess]
      split
      · rename_i h; omega
      · rename_i h; simp only; omega

/-- C21, a hazard: the zero test for the start vector has a tolerance of `1e-12` per entry.  A start vector that passes it
without being zero makes the reported residual wrong from the beginning: here it reports 1 for a residual of norm 9. -/
theorem C21_tiny_start_is_misjudged : ∃ pb : Prob ℝ, (∀ x, pb.isZero x ↔ |x| ≤ 1 / 10 ^ 12) ∧
    absoluteResidual (run pb 0) = 1 ∧ solutionF pb (run pb 0) = pb.x0 ∧ ‖residual pb pb.x0‖ = 9 := by
  refine ⟨⟨(10 : ℝ) ^ 13 • LinearMap.id, LinearMap.id, id, 1, 1 / 10 ^ 12, fun x => |x| ≤ 1 / 10 ^ 12, 5⟩,
    fun x => Iff.rfl, ?_, ?_, ?_⟩
  · have : |(1 : ℝ) / 10 ^ 12| ≤ 1 / 10 ^ 12 := by rw [abs_of_pos (by positivity)]
    simp only [absoluteResidual, run, Function.iterate_zero, id_eq, setup, if_true, initialResidual, if_pos this]
    simp
  · simp [solutionF, run, setup]
  · simp only [residual, LinearMap.smul_apply, LinearMap.id_coe, id_eq, smul_eq_mul, Real.norm_eq_abs]
    norm_num

/-- The vectors found without breakdown are linearly independent. -/
theorem lin_indep {pb : Prob V} {n : Nat} (h : NoBreakdown pb n) (hn : n ≤ pb.maxIter) :
    LinearIndependent ℝ (fun i : Fin (n + 1) => (run pb n).vs i) := by
  obtain ⟨h1, h2, h3⟩ := run_inv h hn
  apply Orthonormal.linearIndependent
  rw [orthonormal_iff_ite]
  intro i j
  rw [h2 i (by rw [h3]; omega) j (by rw [h3]; omega)]
  simp [Fin.ext_iff]

theorem wvec_mem_span {pb : Prob V} {st : St V} (h : Weak pb st) (i : Nat) (hi : i < st.iter) :
    wvec st i ∈ Submodule.span ℝ ((fun j => pb.left (pb.op (st.zs j))) '' {j | j < st.iter}) := by
  induction i using Nat.strong_induction_on with
  | _ i ih =>
      have e := h.col i hi
      rw [sum_range_succ] at e
      have e2 : wvec st i = (st.r i i)⁻¹ • (pb.left (pb.op (st.zs i)) - ∑ k ∈ range i, st.r k i • wvec st k) := by
        rw [e]
        simp [smul_smul, inv_mul_cancel₀ (h.diag i hi)]
      rw [e2]
      apply Submodule.smul_mem
      apply Submodule.sub_mem
      · exact Submodule.subset_span ⟨i, hi, rfl⟩
      · apply Submodule.sum_mem
        intro k hk
        have := mem_range.1 hk
        exact Submodule.smul_mem _ _ (ih k this (by omega))

/-- The step at which GMRES finds no new direction gives the exact solution. -/
theorem converges_at [FiniteDimensional ℝ V] (pb : Prob V) (hs : StartOk pb) (R : V →ₗ[ℝ] V)
    (hR : ∀ v, pb.right v = R v) (hinj : Function.Injective (fun v => pb.left (pb.op (R v))))
    (hmax : Module.finrank ℝ V ≤ pb.maxIter) (hr : initialResidual pb ≠ 0) :
    ∃ m < Module.finrank ℝ V, NoBreakdown pb m ∧
      residual pb (solutionG pb (run pb (m + 1))) = 0 ∧ absoluteResidual (run pb (m + 1)) = 0 := by
  have hex : ∃ m, m < Module.finrank ℝ V ∧ orthogonalised pb (run pb m) = 0 := by
    by_contra hcon
    push Not at hcon
    have hnb : NoBreakdown pb (Module.finrank ℝ V) := ⟨hr, hcon⟩
    have := (lin_indep hnb hmax).fintype_card_le_finrank
    simp at this
  classical
  obtain ⟨hm1, hm2⟩ := Nat.find_spec hex
  set m := Nat.find hex with hm
  have hnb : NoBreakdown pb m := ⟨hr, fun k hk h => Nat.find_min hex hk ⟨by omega, h⟩⟩
  obtain ⟨h1, h2, h3⟩ := run_inv hnb (by omega)
  have hp : rotated pb (run pb m) m ≠ 0 := by
    intro hp
    set st := run pb m with hst
    -- the new vector is a combination of the earlier images
    have e := newVector_eq pb st
    rw [hm2, add_zero, h3, (rotations st (column pb st) m (by rw [← h3]; exact h1.unit) m le_rfl).2] at e
    have hp' : ((List.range m).foldl (fun col i => rotate (st.c i) (st.s i) i col) (column pb st)) m = 0 := by
      rw [rotated, h3] at hp; exact hp
    rw [hp', zero_smul, add_zero, Ico_self, sum_empty, add_zero] at e
    have hmem : newVector pb st ∈ Submodule.span ℝ ((fun j => pb.left (pb.op (st.zs j))) '' {j | j < st.iter}) := by
      rw [e]
      apply Submodule.sum_mem
      intro i hi
      exact Submodule.smul_mem _ _ (wvec_mem_span h1 i (by rw [h3]; exact mem_range.1 hi))
    set B : V →ₗ[ℝ] V := pb.left ∘ₗ pb.op ∘ₗ R with hB
    have himg : (fun j => pb.left (pb.op (st.zs j))) '' {j | j < st.iter} = B '' (st.vs '' {j | j < st.iter}) := by
      rw [Set.image_image]
      apply Set.image_congr
      intro j hj
      rw [h1.zs j hj, hR]; rfl
    rw [himg, Submodule.span_image] at hmem
    have hnew : newVector pb st = B (st.vs m) := by rw [newVector, h3, hR]; rfl
    rw [hnew] at hmem
    obtain ⟨v, hv, hBv⟩ := Submodule.mem_map.1 hmem
    have hvm : v = st.vs m := hinj hBv
    rw [hvm] at hv
    -- but it is orthogonal to all of them
    have horth : ∀ u ∈ Submodule.span ℝ (st.vs '' {j | j < st.iter}), inner ℝ u (st.vs m) = (0 : ℝ) := by
      intro u hu
      refine Submodule.span_induction (p := fun u _ => inner ℝ u (st.vs m) = (0 : ℝ)) ?_ ?_ ?_ ?_ hu
      · rintro _ ⟨j, hj, rfl⟩
        have hj' : j < st.iter := hj
        rw [h2 j (by omega) m (by omega), if_neg (by omega)]
      · simp
      · intro a b _ _ ha hb; rw [inner_add_left, ha, hb, add_zero]
      · intro c a _ ha; rw [inner_smul_left, ha, mul_zero]
    have h0 := horth _ hv
    rw [h2 m (by omega) m (by omega), if_pos rfl] at h0
    norm_num at h0
  have hex2 := C21_breakdown_is_exact pb hs m (by omega) hnb hm2 hp
  refine ⟨m, hm1, hnb, ?_, hex2.2⟩
  have hd := den_ne_zero h1 (Or.inl (by rw [h3]; exact hp))
  have hw := weak_step h1 (by omega) hd
  rw [← run_succ] at hw
  rw [solutionG_eq hw R hR]
  exact hex2.1

/-- C21: in exact arithmetic GMRES solves any regular preconditioned system exactly within as many steps as there are
unknowns. -/
theorem C21_converges_within_dimension [FiniteDimensional ℝ V] (pb : Prob V) (hs : StartOk pb) (R : V →ₗ[ℝ] V)
    (hR : ∀ v, pb.right v = R v) (hinj : Function.Injective (fun v => pb.left (pb.op (R v))))
    (hmax : Module.finrank ℝ V ≤ pb.maxIter) (hr : initialResidual pb ≠ 0) :
    ∃ n ≤ Module.finrank ℝ V, residual pb (solutionG pb (run pb n)) = 0 ∧ absoluteResidual (run pb n) = 0 := by
  obtain ⟨m, hm, _, h⟩ := converges_at pb hs R hR hinj hmax hr
  exact ⟨m + 1, by omega, h⟩

/-- A problem that meets the hypotheses: one unknown, `2 x = 3` from `x = 0`. -/
example : ∃ pb : Prob ℝ, StartOk pb ∧ NoBreakdown pb 0 ∧ initialResidual pb ≠ 0 ∧
    Function.Injective (fun v => pb.left (pb.op (pb.right v))) ∧ Module.finrank ℝ ℝ ≤ pb.maxIter := by
  refine ⟨⟨(2 : ℝ) • LinearMap.id, LinearMap.id, id, 3, 0, fun x => |x| ≤ 1 / 10 ^ 12, 5⟩, fun _ => rfl, ⟨?_, by simp⟩, ?_,
    ?_, by simp⟩
  · simp [initialResidual]
  · simp [initialResidual]
  · intro a b h
    simpa using h

end Verif.Gmres
