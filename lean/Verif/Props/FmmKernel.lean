import Verif.Lemmas.FmmKernel
import Mathlib.Tactic.NormNum

/-!
# C70: the kernels the evaluators sum up are the derivatives they stand for
-/

namespace Verif.FmmKernel

open Verif Kernel Calculus

variable {d : Nat}

/-- C70: with the points transformed by the anisotropy, the four kernels give the value at the difference of the points, the negative
gradient as a row, the gradient as a column, and the negative Hessian, read with the layout the evaluators use. -/
theorem C70_kernels (c : Cov d) (x y : Fin d → ℝ) :
    (∀ i j, block c .value (c.a.mulVec x) (c.a.mulVec y) i j = evaluate c.k c.p c.q c.a (x - y)) ∧
    (∀ g, evaluateGradient c.k c.p c.q c.a (x - y) = some g →
      (∀ i j, block c .gradient (c.a.mulVec x) (c.a.mulVec y) i j = -g j) ∧
      ∀ i j, block c .gradientT (c.a.mulVec x) (c.a.mulVec y) i j = g i) ∧
    ∀ m, evaluateHessian c.k c.p c.q c.a (x - y) = .ok (some m) →
      ∀ i j, block c .hessian (c.a.mulVec x) (c.a.mulVec y) i j = -m i j :=
  ⟨block_value c x y, fun _ hg => ⟨block_gradient c x y hg, block_gradientT c x y hg⟩, fun _ hm => block_hessian c x y hm⟩

/-- C70: they give no finite numbers, or throw, exactly where the covariance function does. -/
theorem C70_not_finite (c : Cov d) (x y : Fin d → ℝ) :
    (entries c .gradient (c.a.mulVec x) (c.a.mulVec y) = .ok none ↔ evaluateGradient c.k c.p c.q c.a (x - y) = none) ∧
    (entries c .gradientT (c.a.mulVec x) (c.a.mulVec y) = .ok none ↔ evaluateGradient c.k c.p c.q c.a (x - y) = none) ∧
    (entries c .hessian (c.a.mulVec x) (c.a.mulVec y) = .ok none ↔ evaluateHessian c.k c.p c.q c.a (x - y) = .ok none) ∧
    ∀ e, entries c .hessian (c.a.mulVec x) (c.a.mulVec y) = .throws e ↔ evaluateHessian c.k c.p c.q c.a (x - y) = .throws e := by
  unfold entries
  dsimp only
  rw [diff_mulVec, gradIso_eq, hessIso_eq]
  refine ⟨?_, ?_, ?_, ?_⟩
  · cases evaluateGradient c.k c.p c.q c.a (x - y) <;> simp
  · cases evaluateGradient c.k c.p c.q c.a (x - y) <;> simp
  · rcases evaluateHessian c.k c.p c.q c.a (x - y) with (_ | _) | _ | _ <;> simp
  · intro e
    rcases evaluateHessian c.k c.p c.q c.a (x - y) with (_ | _) | _ | _ <;> simp

/-- the gradient of a function of `x - y` in `y` -/
theorem gradient_in_source {f : (Fin d → ℝ) → ℝ} {g : Fin d → ℝ} {x y : Fin d → ℝ} (h : IsGradient f g (x - y)) :
    IsGradient (fun y => f (x - y)) (fun j => -g j) y := by
  unfold IsGradient at *
  have h2 : HasFDerivAt (fun y : Fin d → ℝ => x - y) (-ContinuousLinearMap.id ℝ (Fin d → ℝ)) y :=
    (hasFDerivAt_id y).const_sub x
  refine (h.comp y h2).congr_fderiv ?_
  ext v
  simp [Finset.sum_neg_distrib]

/-- the gradient of a function of `x - y` in `x` -/
theorem gradient_in_target {f : (Fin d → ℝ) → ℝ} {g : Fin d → ℝ} {x y : Fin d → ℝ} (h : IsGradient f g (x - y)) :
    IsGradient (fun x => f (x - y)) g x := by
  unfold IsGradient at *
  have h2 : HasFDerivAt (fun x : Fin d → ℝ => x - y) (ContinuousLinearMap.id ℝ (Fin d → ℝ)) x :=
    (hasFDerivAt_id x).sub_const y
  refine (h.comp x h2).congr_fderiv ?_
  ext v
  simp

theorem gradient_unique {f : (Fin d → ℝ) → ℝ} {g g' : Fin d → ℝ} {x : Fin d → ℝ} (h : IsGradient f g x) (h' : IsGradient f g' x) :
    g = g' := by
  funext j
  have := congrArg (fun L : (Fin d → ℝ) →L[ℝ] ℝ => L (Pi.single j 1)) (HasFDerivAt.unique h h')
  simpa [Pi.single_apply] using this

/-- C70: the gradient kernel is the derivative of the covariance in the source point, the transposed one that in the target point. -/
theorem C70_first_derivatives (c : Cov d) (x y : Fin d → ℝ) (h : Smooth c.k c.q (sq (c.a.mulVec (x - y)))) (o : Fin 1) :
    IsGradient (fun y : Fin d → ℝ => evaluate c.k c.p c.q c.a (x - y)) (fun j : Fin d => block c .gradient (c.a.mulVec x) (c.a.mulVec y) o j) y ∧
    IsGradient (fun x : Fin d → ℝ => evaluate c.k c.p c.q c.a (x - y)) (fun i : Fin d => block c .gradientT (c.a.mulVec x) (c.a.mulVec y) i o) x := by
  obtain ⟨g, h1, h2⟩ := C41_gradient c.k c.p c.q c.a (x - y) h
  constructor
  · rw [funext fun j => block_gradient c x y h1 o j]
    exact gradient_in_source h2
  · rw [funext fun i => block_gradientT c x y h1 i o]
    exact gradient_in_target h2

/-- C70: the Hessian kernel is the mixed second derivative: row `i` is the derivative in the source point of the component `i` of the
derivative in the target point. -/
theorem C70_second_derivatives (c : Cov d) (x y : Fin d → ℝ) (h : SmoothTwice c.k c.q (sq (c.a.mulVec (x - y)))) :
    ∃ G : (Fin d → ℝ) → Fin d → ℝ, (∀ᶠ z in nhds y, IsGradient (fun x => evaluate c.k c.p c.q c.a (x - z)) (G z) x) ∧
      ∀ i, IsGradient (fun z => G z i) (fun j => block c .hessian (c.a.mulVec x) (c.a.mulVec y) i j) y := by
  obtain ⟨m, h1, g, h2, h3⟩ := C41_hessian c.k c.p c.q c.a (x - y) h
  refine ⟨fun z => g (x - z), ?_, fun i => ?_⟩
  · have hc : Filter.Tendsto (fun z : Fin d → ℝ => x - z) (nhds y) (nhds (x - y)) :=
      (continuous_const.sub continuous_id).continuousAt
    filter_upwards [hc.eventually h2] with z hz
    exact gradient_in_target hz
  · rw [funext fun j => block_hessian c x y h1 i j]
    exact gradient_in_source (f := fun v => g v i) (h3 i)

/-- C70: exchanging the points multiplies the array by `mutual_coefficient()`, which is what lets the summation treat each pair once. -/
theorem C70_mutual (c : Cov d) (kind : Kind) (x y : Fin d → ℝ) (i : Fin (kind.kn d)) (j : Fin (kind.km d)) :
    block c kind y x i j = kind.mutual * block c kind x y i j := by
  have hd : (fun i => y i - x i) = fun i => -(x i - y i) := by funext i; ring
  have hs : Kernel.sq (fun i => y i - x i) = Kernel.sq (fun i => x i - y i) := by unfold Kernel.sq; exact Finset.sum_congr rfl fun i _ => by ring
  have neg_iso : c.gradIso (fun i => y i - x i) = (c.gradIso (fun i => x i - y i)).map (fun g => -g) := by
    unfold Cov.gradIso
    rw [hs]
    cases grad c.k c.p c.q (Kernel.sq fun i => x i - y i) with
    | nan => rfl
    | num g =>
        rw [Option.map_some, hd]
        dsimp only
        have : (g • fun i => -(x i - y i)) = -(g • fun i => x i - y i) := by
          funext i; simp only [Pi.smul_apply, Pi.neg_apply, smul_eq_mul]; ring
        rw [this, Matrix.neg_vecMul]
  have wneg : ∀ (l : List (Nat × ℝ)) (n : Nat), write (l.map fun w => (w.1, -w.2)) 0 n = -write l 0 n := by
    intro l n
    have key : ∀ (arr : Nat → ℝ), write (l.map fun w => (w.1, -w.2)) (fun n => -arr n) n = -write l arr n := by
      unfold write
      induction l with
      | nil => intro arr; rfl
      | cons w l ih =>
          intro arr
          rw [List.map_cons, List.foldl_cons, List.foldl_cons, ← ih]
          have e : Function.update (fun n => -arr n) w.1 (-w.2) = fun n => -Function.update arr w.1 w.2 n := by
            funext m
            simp only [Function.update_apply]
            split <;> rfl
          rw [e]
    have := key 0
    rw [← this]
    congr 1
    funext m; simp
  unfold block
  cases kind with
  | value =>
      have e : array c .value y x = array c .value x y := by
        unfold array entries
        dsimp only
        rw [hs]
      rw [Kind.mutual, e]
      exact (one_mul _).symm
  | gradient =>
      rw [Kind.mutual, neg_one_mul]
      unfold array entries
      dsimp only
      rw [neg_iso]
      cases c.gradIso (fun i => x i - y i) with
      | none => simp
      | some g =>
          simp only [Option.map_some]
          rw [← wneg, List.map_map]
          rfl
  | gradientT =>
      rw [Kind.mutual, neg_one_mul]
      unfold array entries
      dsimp only
      rw [neg_iso]
      cases c.gradIso (fun i => x i - y i) with
      | none => simp
      | some g =>
          simp only [Option.map_some]
          rw [← wneg, List.map_map]
          rfl
  | hessian =>
      have : c.hessIso (fun i => y i - x i) = c.hessIso (fun i => x i - y i) := by
        unfold Cov.hessIso
        rw [hs]
        have hh : ∀ g h : ℝ, hessMatrix g h (fun i => y i - x i) = hessMatrix g h (fun i => x i - y i) := by
          intro g h
          unfold hessMatrix
          congr 2
          ext a b
          simp only [Matrix.vecMulVec_apply]
          ring
        simp only [hh]
      have e : array c .hessian y x = array c .hessian x y := by
        unfold array entries
        dsimp only
        rw [this]
      rw [Kind.mutual, one_mul, e]

/-- C70: the Hessian kernel gives a symmetric block. -/
theorem C70_hessian_symmetric (c : Cov d) (x y : Fin d → ℝ) (i j : Fin d) :
    block c .hessian (c.a.mulVec x) (c.a.mulVec y) i j = block c .hessian (c.a.mulVec x) (c.a.mulVec y) j i := by
  by_cases hm : ∃ m, evaluateHessian c.k c.p c.q c.a (x - y) = .ok (some m)
  · obtain ⟨m, hm⟩ := hm
    rw [block_hessian c x y hm, block_hessian c x y hm]
    unfold evaluateHessian at hm
    cases hh : hess c.k c.p c.q (sq (c.a.mulVec (x - y))) with
    | throws => rw [hh] at hm; cases hm
    | nan => rw [hh] at hm; cases hm
    | num g w =>
        rw [hh] at hm
        simp only [Outcome.ok.injEq, Option.some.injEq] at hm
        have ht : m.transpose = m := by
          rw [← hm, Matrix.transpose_mul, Matrix.transpose_mul, Matrix.transpose_transpose, Matrix.mul_assoc]
          congr 2
          unfold hessMatrix
          rw [Matrix.transpose_add, Matrix.transpose_smul, Matrix.transpose_smul, Matrix.transpose_one]
          congr 2
          ext a b
          simp only [Matrix.transpose_apply, Matrix.vecMulVec_apply]
          ring
        have := congrFun (congrFun ht i) j
        rw [Matrix.transpose_apply] at this
        rw [this]
  · have h0 : ∀ l, entries c .hessian (c.a.mulVec x) (c.a.mulVec y) ≠ .ok (some l) := by
      intro l hl
      unfold entries at hl
      dsimp only at hl
      rw [diff_mulVec, hessIso_eq] at hl
      rcases hv : evaluateHessian c.k c.p c.q c.a (x - y) with (_ | m) | _ | _
      · rw [hv] at hl; cases hl
      · exact hm ⟨m, hv⟩
      · rw [hv] at hl; cases hl
      · rw [hv] at hl; cases hl
    rw [block_not_finite c _ _ _ h0, block_not_finite c _ _ _ h0]

theorem batch_fold (c : Cov d) (kind : Kind) {n : Nat} (x y : Fin d → Fin n → ℝ) : ∀ (ls : List (Fin n)) (v : Nat → Nat → ℝ),
    (∀ l ∈ ls, l.val < 4) → ∃ v', ls.foldlM (batchLane c kind x y) v = .ok v' ∧
      ∀ entry (l : Fin n), v' entry l = if l ∈ ls then array c kind (fun j => x j l) (fun j => y j l) entry else v entry l
  | [], v, _ => ⟨v, rfl, fun _ _ => by simp⟩
  | a :: ls, v, h => by
      obtain ⟨v', h1, h2⟩ := batch_fold c kind x y ls
        (fun entry l => if l = a then array c kind (fun j => x j a) (fun j => y j a) entry else v entry l)
        (fun l hl => h l (List.mem_cons_of_mem _ hl))
      refine ⟨v', ?_, fun entry l => ?_⟩
      · rw [List.foldlM_cons]
        have : batchLane c kind x y v a = .ok (fun entry l => if l = a then array c kind (fun j => x j a) (fun j => y j a) entry else v entry l) :=
          if_pos (h a List.mem_cons_self)
        rw [this, Outcome.ok_bind]
        exact h1
      · rw [h2]
        by_cases hl : l ∈ ls
        · rw [if_pos hl, if_pos (List.mem_cons_of_mem _ hl)]
        · rw [if_neg hl]
          by_cases hla : l = a
          · subst hla; simp
          · have : ¬ (l.val = a.val) := fun h => hla (Fin.ext h)
            rw [if_neg this, if_neg (by simp [hla, hl])]

/-- C70: the vectorised version returns in every lane what the scalar version returns for the points of that lane, for batches of up to
four lanes. -/
theorem C70_batch (c : Cov d) (kind : Kind) {n : Nat} (hn : n ≤ 4) (x y : Fin d → Fin n → ℝ) :
    ∃ v, batch c kind x y = .ok v ∧ ∀ entry lane, v entry lane = array c kind (fun j => x j lane) (fun j => y j lane) entry := by
  obtain ⟨v, h1, h2⟩ := batch_fold c kind x y (List.finRange n) (fun _ _ => 0) (fun l _ => by omega)
  refine ⟨fun entry lane => v entry lane, ?_, fun entry lane => ?_⟩
  · unfold batch
    rw [h1, Outcome.ok_bind]
  · show v entry lane = _
    rw [h2, if_pos (List.mem_finRange lane)]

theorem batch_fold_throws (c : Cov d) (kind : Kind) {n : Nat} (x y : Fin d → Fin n → ℝ) : ∀ (ls : List (Fin n)) (v : Nat → Nat → ℝ),
    (∃ l ∈ ls, 4 ≤ l.val) → ls.foldlM (batchLane c kind x y) v = .throws .outOfRange
  | [], _, h => by obtain ⟨l, hl, -⟩ := h; cases hl
  | a :: ls, v, h => by
      rw [List.foldlM_cons]
      by_cases ha : a.val < 4
      · have : ∃ v', batchLane c kind x y v a = .ok v' := ⟨_, if_pos ha⟩
        obtain ⟨v', hv⟩ := this
        rw [hv, Outcome.ok_bind]
        obtain ⟨l, hl, hl4⟩ := h
        rcases List.mem_cons.1 hl with rfl | hl
        · omega
        · exact batch_fold_throws c kind x y ls v' ⟨l, hl, hl4⟩
      · have : batchLane c kind x y v a = .throws .outOfRange := if_neg ha
        rw [this, Outcome.throws_bind]

/-- C70, a limit: on a machine with more than four lanes (eight with AVX-512) every vectorised evaluation throws `out_of_range`. -/
theorem C70_wide_batch_throws (c : Cov d) (kind : Kind) {n : Nat} (hn : 4 < n) (x y : Fin d → Fin n → ℝ) :
    batch c kind x y = .throws .outOfRange := by
  unfold batch
  rw [batch_fold_throws c kind x y _ _ ⟨⟨4, hn⟩, List.mem_finRange _, le_refl _⟩, Outcome.throws_bind]

/-! ## an example -/

/-- The conditions of the theorems on derivatives hold for a stretched Gaussian at every pair of points. -/
example (x y : Fin 2 → ℝ) : Smooth .gaussian 3 (Kernel.sq (((2 : ℝ) • (1 : Matrix (Fin 2) (Fin 2) ℝ)).mulVec (x - y))) ∧
    SmoothTwice .gaussian 3 (Kernel.sq (((2 : ℝ) • (1 : Matrix (Fin 2) (Fin 2) ℝ)).mulVec (x - y))) :=
  ⟨(by norm_num : (0 : ℝ) < 3), (by norm_num : (0 : ℝ) < 3)⟩

end Verif.FmmKernel
