import Verif.Model.Minres
import Verif.Props.Gmres
import Mathlib.Analysis.Complex.Basic
import Mathlib.Analysis.InnerProductSpace.Basic
import Mathlib.Tactic.IntervalCases

/-!
# C69: MINRES

For a symmetric (preconditioned) operator the iteration does the same as GMRES, although it keeps only two coefficients of each new
vector and applies only two of the earlier rotations.
-/

namespace Verif.Minres

open Finset Verif.Gmres

variable {V : Type*} [NormedAddCommGroup V] [InnerProductSpace ℝ V]

/-- The preconditioned operator is linear and symmetric. -/
def SymmetricOp (pb : Prob V) : Prop :=
  (∃ R : V →ₗ[ℝ] V, ∀ v, pb.right v = R v) ∧
    ∀ u v, inner ℝ (pb.left (pb.op (pb.right u))) v = (inner ℝ u (pb.left (pb.op (pb.right v))) : ℝ)

/-- The start is not yet a solution and the first `n` steps find a new direction each. -/
def NoBreakdown (pb : Prob V) (n : Nat) : Prop := initialResidual pb ≠ 0 ∧ ∀ m < n, lanczos pb (run pb m) ≠ 0

/-- every image of a basis vector is a combination of the basis vectors up to the next one -/
def Krylov (pb : Prob V) (st : Gmres.St V) (beta : ℝ) : Prop :=
  ∀ i < st.iter, ∃ (a : Nat → ℝ) (b : ℝ), pb.left (pb.op (pb.right (st.vs i))) = ∑ k ∈ range (i + 1), a k • st.vs k + b • st.vs (i + 1) ∧
    (i + 1 = st.iter → b = beta)

/-- the two states agree (apart from the preconditioned vectors, which MINRES does not keep) -/
structure Same (ms : St V) (st : Gmres.St V) : Prop where
  iter : ms.iter = st.iter
  vs : ms.vs = st.vs
  r : ms.r = st.r
  c : ms.c = st.c
  s : ms.s = st.s
  g : ms.g = st.g

theorem same_setup (pb : Prob V) : Same (setup pb) (Gmres.setup pb) := ⟨rfl, rfl, rfl, rfl, rfl, rfl⟩

theorem krylov_setup (pb : Prob V) (b : ℝ) : Krylov pb (Gmres.setup pb) b := by
  intro i hi
  exact absurd hi (Nat.not_lt_zero _)

theorem krylov_step {pb : Prob V} {st : Gmres.St V} {b : ℝ} (h : Krylov pb st b) (hlt : st.iter < pb.maxIter) :
    Krylov pb (Gmres.iterateProcess pb st) ‖orthogonalised pb st‖ := by
  have hne : st.iter ≠ pb.maxIter := by omega
  have hiter : (Gmres.iterateProcess pb st).iter = st.iter + 1 := by rw [Gmres.iterateProcess, if_neg hne]
  have hvs : ∀ i ≤ st.iter, (Gmres.iterateProcess pb st).vs i = st.vs i := by
    intro i hi
    rw [Gmres.iterateProcess, if_neg hne]
    exact Function.update_of_ne (show i ≠ st.iter + 1 by omega) _ _
  have hvj : (Gmres.iterateProcess pb st).vs (st.iter + 1) = (‖orthogonalised pb st‖)⁻¹ • orthogonalised pb st := by
    rw [Gmres.iterateProcess, if_neg hne]; simp
  intro i hi
  rw [hiter] at hi ⊢
  by_cases hij : i = st.iter
  · subst hij
    refine ⟨Gmres.column pb st, ‖orthogonalised pb st‖, ?_, fun _ => rfl⟩
    rw [hvs _ le_rfl, hvj, norm_smul_inv]
    have := newVector_eq pb st
    rw [newVector] at this
    rw [this]
    congr 1
    exact sum_congr rfl (fun k hk => by rw [hvs k (by have := mem_range.1 hk; omega)])
  · obtain ⟨a, b', e, _⟩ := h i (by omega)
    refine ⟨a, b', ?_, fun h' => absurd (by omega) hij⟩
    rw [hvs i (by omega), e, hvs (i + 1) (by omega)]
    congr 1
    exact sum_congr rfl (fun k hk => by rw [hvs k (by have := mem_range.1 hk; omega)])

theorem inner_combination {st : Gmres.St V} (ho : Ortho st) {i j : Nat} (hi : i < j) (hj : j ≤ st.iter) (a : Nat → ℝ) (b : ℝ) :
    inner ℝ (∑ k ∈ range (i + 1), a k • st.vs k + b • st.vs (i + 1)) (st.vs j) = if i + 1 = j then b else (0 : ℝ) := by
  rw [inner_add_left, sum_inner, sum_eq_zero, zero_add, inner_smul_left, ho (i + 1) (by omega) j hj]
  · by_cases h : i + 1 = j <;> simp [h]
  · intro k hk
    have := mem_range.1 hk
    rw [inner_smul_left, ho k (by omega) j hj, if_neg (by omega)]
    simp

/-- only the last two products of a new vector with the basis are not zero, and one of them is already known -/
theorem dots_eq {pb : Prob V} {st : Gmres.St V} {b : ℝ} (hsym : SymmetricOp pb) (hk : Krylov pb st b) (ho : Ortho st) {i : Nat}
    (hi : i < st.iter) : dots pb st i = if i + 1 = st.iter then b else 0 := by
  obtain ⟨a, b', e, hb⟩ := hk i hi
  rw [dots, newVector, ← hsym.2, e, inner_combination ho hi le_rfl]
  by_cases h : i + 1 = st.iter
  · rw [if_pos h, if_pos h, hb h]
  · rw [if_neg h, if_neg h]

theorem lanczos_eq {pb : Prob V} {ms : St V} {st : Gmres.St V} (hs : Same ms st) (hsym : SymmetricOp pb) (hk : Krylov pb st ms.beta)
    (ho : Ortho st) : lanczos pb ms = orthogonalised pb st := by
  have hn : newVector pb ms.toSt = newVector pb st := by rw [newVector, newVector, hs.vs, hs.iter]
  have ha : alpha pb ms = dots pb st st.iter := by rw [alpha, dots, hn, hs.vs, hs.iter]
  rw [lanczos, orthogonalised, foldl_sub_range, ha, hn, hs.iter, hs.vs, sum_range_succ]
  by_cases h0 : st.iter = 0
  · rw [if_pos h0]
    congr 1
    rw [h0]; simp
  · rw [if_neg h0]
    congr 2
    obtain ⟨j, hj⟩ : ∃ j, st.iter = j + 1 := ⟨st.iter - 1, by omega⟩
    rw [hj, sum_range_succ, sum_eq_zero, zero_add, dots_eq hsym hk ho (i := j) (by omega), if_pos hj.symm]
    · rfl
    · intro i hi
      have := mem_range.1 hi
      rw [dots_eq hsym hk ho (i := i) (by omega), if_neg (by omega), zero_smul]

theorem column_eq {pb : Prob V} {ms : St V} {st : Gmres.St V} (hs : Same ms st) (hsym : SymmetricOp pb) (hk : Krylov pb st ms.beta)
    (ho : Ortho st) : column pb ms = Gmres.column pb st := by
  funext i
  have hn : newVector pb ms.toSt = newVector pb st := by rw [newVector, newVector, hs.vs, hs.iter]
  have ha : alpha pb ms = dots pb st st.iter := by rw [alpha, dots, hn, hs.vs, hs.iter]
  rw [column, Gmres.column, lanczos_eq hs hsym hk ho, ha, hs.iter]
  by_cases h1 : i = st.iter + 1
  · rw [if_pos h1, if_neg (by omega), if_pos h1]
  · rw [if_neg h1]
    by_cases h2 : i = st.iter
    · rw [if_pos h2, if_pos (by omega), h2]
    · rw [if_neg h2]
      by_cases h3 : i < st.iter
      · rw [if_pos (by omega : i ≤ st.iter), dots_eq hsym hk ho h3]
      · rw [if_neg (by omega), if_neg (by omega), if_neg (by omega)]

/-- rotations of zeros do nothing -/
theorem rotate_zeros (c s : Nat → ℝ) (col : Nat → ℝ) : ∀ m, (∀ i ≤ m, col i = 0) →
    (List.range m).foldl (fun col i => rotate (c i) (s i) i col) col = col := by
  intro m
  induction m with
  | zero => intro _; rfl
  | succ m ih =>
      intro h
      rw [List.range_succ, List.foldl_append, ih (fun i hi => h i (by omega))]
      simp only [List.foldl_cons, List.foldl_nil]
      funext k
      by_cases h1 : k = m
      · rw [h1, rotate_at, h m (by omega), h (m + 1) (by omega)]; ring
      · by_cases h2 : k = m + 1
        · rw [h2, rotate_succ, h m (by omega), h (m + 1) (by omega)]; ring
        · exact rotate_other _ _ _ _ h1 h2

theorem rotated_eq {pb : Prob V} {ms : St V} {st : Gmres.St V} (hs : Same ms st) (hsym : SymmetricOp pb) (hk : Krylov pb st ms.beta)
    (ho : Ortho st) : rotated pb ms = Gmres.rotated pb st := by
  rw [rotated, Gmres.rotated, column_eq hs hsym hk ho, hs.iter, hs.c, hs.s]
  have e : List.range st.iter = List.range (st.iter - 2) ++ List.range' (st.iter - 2) (st.iter - (st.iter - 2)) := by
    rw [List.range_eq_range', List.range_eq_range']
    conv_lhs => rw [show st.iter = (st.iter - 2) + (st.iter - (st.iter - 2)) by omega]
    rw [← List.range'_append]
    simp
  by_cases h2 : 2 ≤ st.iter
  · rw [e, List.foldl_append, rotate_zeros]
    intro i hi
    rw [Gmres.column, if_pos (by omega), dots_eq hsym hk ho (i := i) (by omega), if_neg (by omega)]
  · rw [e, show st.iter - 2 = 0 by omega]
    rfl

theorem den_eq {pb : Prob V} {ms : St V} {st : Gmres.St V} (hs : Same ms st) (hsym : SymmetricOp pb) (hk : Krylov pb st ms.beta)
    (ho : Ortho st) : den pb ms = Gmres.den pb st := by
  rw [den, Gmres.den, rotated_eq hs hsym hk ho, hs.iter]

/-- one step of MINRES is one step of GMRES -/
theorem same_step {pb : Prob V} {ms : St V} {st : Gmres.St V} (hs : Same ms st) (hsym : SymmetricOp pb) (hk : Krylov pb st ms.beta)
    (ho : Ortho st) : Same (iterateProcess pb ms) (Gmres.iterateProcess pb st) := by
  rw [iterateProcess, Gmres.iterateProcess]
  by_cases h : st.iter = pb.maxIter
  · rw [if_pos (hs.iter.trans h), if_pos h]; exact hs
  · rw [if_neg (fun h' => h (hs.iter.symm.trans h')), if_neg h]
    dsimp only
    rw [lanczos_eq hs hsym hk ho, den_eq hs hsym hk ho, rotated_eq hs hsym hk ho, hs.iter, hs.vs, hs.c, hs.s, hs.g, hs.r]
    exact ⟨rfl, rfl, rfl, rfl, rfl, rfl⟩

theorem run_succ (pb : Prob V) (n : Nat) : run pb (n + 1) = iterateProcess pb (run pb n) :=
  Function.iterate_succ_apply' _ _ _

theorem beta_step {pb : Prob V} {ms : St V} (h : ms.iter < pb.maxIter) : (iterateProcess pb ms).beta = ‖lanczos pb ms‖ := by
  rw [iterateProcess, if_neg (by omega)]

/-- as long as new directions are found, the two methods agree -/
theorem run_same {pb : Prob V} (hsym : SymmetricOp pb) {n : Nat} (hn : n ≤ pb.maxIter) (hb : NoBreakdown pb n) :
    Same (run pb n) (Gmres.run pb n) ∧ Krylov pb (Gmres.run pb n) (run pb n).beta ∧ Gmres.NoBreakdown pb n := by
  induction n with
  | zero => exact ⟨same_setup pb, krylov_setup pb _, hb.1, fun m hm => absurd hm (Nat.not_lt_zero _)⟩
  | succ n ih =>
      obtain ⟨h1, h2, h3⟩ := ih (by omega) ⟨hb.1, fun m hm => hb.2 m (by omega)⟩
      obtain ⟨_, ho, hi⟩ := run_inv h3 (by omega)
      have hl := lanczos_eq h1 hsym h2 ho
      refine ⟨?_, ?_, hb.1, fun m hm => ?_⟩
      · rw [run_succ, Gmres.run_succ]; exact same_step h1 hsym h2 ho
      · rw [run_succ, Gmres.run_succ, beta_step (by rw [h1.iter, hi]; omega), hl]
        exact krylov_step h2 (by omega)
      · by_cases hmn : m = n
        · subst hmn; rw [← hl]; exact hb.2 m (by omega)
        · exact h3.2 m (by omega)

theorem solution_eq {pb : Prob V} {ms : St V} {st : Gmres.St V} (h : Same ms st) : solutionG pb ms.toSt = solutionG pb st := by
  unfold solutionG coefficients
  rw [h.iter, h.vs, h.r, h.g]

theorem residual_eq {ms : St V} {st : Gmres.St V} (h : Same ms st) : absoluteResidual ms.toSt = absoluteResidual st := by
  unfold absoluteResidual
  rw [h.iter, h.g]

/-- C69: for a symmetric preconditioned operator MINRES is GMRES: after any number of steps without breakdown, it reports the same residual
and returns the same solution. -/
theorem C69_same_as_gmres (pb : Prob V) (hsym : SymmetricOp pb) (n : Nat) (hn : n ≤ pb.maxIter) (hb : NoBreakdown pb n) :
    absoluteResidual (run pb n).toSt = absoluteResidual (Gmres.run pb n) ∧
    solutionG pb (run pb n).toSt = solutionG pb (Gmres.run pb n) :=
  ⟨residual_eq (run_same hsym hn hb).1, solution_eq (run_same hsym hn hb).1⟩

/-- C69: the basis stays orthonormal although each new vector is made orthogonal to the last two only. -/
theorem C69_orthonormal (pb : Prob V) (hsym : SymmetricOp pb) (n : Nat) (hn : n ≤ pb.maxIter) (hb : NoBreakdown pb n) (i j : Nat)
    (hi : i ≤ n) (hj : j ≤ n) : inner ℝ ((run pb n).vs i) ((run pb n).vs j) = if i = j then (1 : ℝ) else 0 := by
  obtain ⟨h1, _, h3⟩ := run_same hsym hn hb
  obtain ⟨_, ho, hit⟩ := run_inv h3 hn
  rw [h1.vs]
  exact ho i (by omega) j (by omega)

/-- C69: the reported residual is the true one. -/
theorem C69_reported_residual_is_true (pb : Prob V) (hs : StartOk pb) (hsym : SymmetricOp pb) (n : Nat) (hn : n ≤ pb.maxIter)
    (hb : NoBreakdown pb n) : ‖residual pb (solutionG pb (run pb n).toSt)‖ = absoluteResidual (run pb n).toSt := by
  obtain ⟨h1, _, h3⟩ := run_same hsym hn hb
  obtain ⟨R, hR⟩ := hsym.1
  rw [solution_eq h1, residual_eq h1]
  exact (C21_reported_residual_is_true pb hs n hn h3).2 R hR

/-- C69: no other combination of the search directions has a smaller residual, and no step increases the reported one. -/
theorem C69_residual_is_minimal (pb : Prob V) (hs : StartOk pb) (hsym : SymmetricOp pb) (n : Nat) (hn : n ≤ pb.maxIter)
    (hb : NoBreakdown pb n) :
    (∀ y : Nat → ℝ, absoluteResidual (run pb n).toSt ≤ ‖residual pb (pb.x0 + ∑ i ∈ range n, y i • pb.right ((run pb n).vs i))‖) ∧
    ∀ m ≤ n, absoluteResidual (run pb n).toSt ≤ absoluteResidual (run pb m).toSt := by
  obtain ⟨h1, _, h3⟩ := run_same hsym hn hb
  refine ⟨fun y => ?_, fun m hm => ?_⟩
  · rw [residual_eq h1, h1.vs]
    exact C21_residual_is_minimal pb hs n hn h3 y
  · have h1' := (run_same hsym (n := m) (by omega) ⟨hb.1, fun k hk => hb.2 k (by omega)⟩).1
    rw [residual_eq h1, residual_eq h1']
    exact C21_residual_never_increases pb n h3 hn m hm

/-- C69: in exact arithmetic MINRES solves any regular symmetric preconditioned system exactly within as many steps as there are unknowns. -/
theorem C69_converges_within_dimension [FiniteDimensional ℝ V] (pb : Prob V) (hs : StartOk pb) (hsym : SymmetricOp pb)
    (hinj : Function.Injective (fun v => pb.left (pb.op (pb.right v)))) (hmax : Module.finrank ℝ V ≤ pb.maxIter)
    (hr : initialResidual pb ≠ 0) :
    ∃ n ≤ Module.finrank ℝ V, residual pb (solutionG pb (run pb n).toSt) = 0 ∧ absoluteResidual (run pb n).toSt = 0 := by
  obtain ⟨R, hR⟩ := hsym.1
  have hinj' : Function.Injective (fun v => pb.left (pb.op (R v))) := by
    have : (fun v => pb.left (pb.op (R v))) = fun v => pb.left (pb.op (pb.right v)) := funext fun v => by rw [hR]
    rw [this]; exact hinj
  obtain ⟨n, hn, hg, h⟩ := converges_at pb hs R hR hinj' hmax hr
  -- as long as GMRES has not broken down, nor has MINRES
  have key : ∀ k ≤ n, NoBreakdown pb k := by
    intro k
    induction k with
    | zero => intro _; exact ⟨hr, fun m hm => absurd hm (Nat.not_lt_zero _)⟩
    | succ k ih =>
        intro hk
        have hb := ih (by omega)
        obtain ⟨h1, h2, h3⟩ := run_same hsym (by omega) hb
        obtain ⟨_, ho, _⟩ := run_inv h3 (by omega)
        refine ⟨hr, fun m hm' => ?_⟩
        by_cases hmk : m = k
        · subst hmk; rw [lanczos_eq h1 hsym h2 ho]; exact hg.2 m (by omega)
        · exact hb.2 m (by omega)
  obtain ⟨h1, h2, h3⟩ := run_same hsym (by omega) (key n le_rfl)
  obtain ⟨_, ho, _⟩ := run_inv h3 (by omega)
  have hsame : Same (run pb (n + 1)) (Gmres.run pb (n + 1)) := by
    rw [run_succ, Gmres.run_succ]
    exact same_step h1 hsym h2 ho
  exact ⟨n + 1, by omega, by rw [solution_eq hsame]; exact h.1, by rw [residual_eq hsame]; exact h.2⟩

/-- C69: once `max_iter` steps are done, further calls change nothing. -/
theorem C69_no_step_beyond_max_iter (pb : Prob V) (st : St V) (h : st.iter = pb.maxIter) : iterateProcess pb st = st := by
  rw [iterateProcess, if_pos h]

/-- A problem that meets the hypotheses: two unknowns, the operator exchanges them, and there are two different steps. -/
example : ∃ pb : Prob ℂ, StartOk pb ∧ SymmetricOp pb ∧ NoBreakdown pb 1 ∧ Function.Injective (fun v => pb.left (pb.op (pb.right v))) := by
  let conjI : ℂ →ₗ[ℝ] ℂ := { toFun := fun z => ⟨z.im, z.re⟩, map_add' := fun a b => by apply Complex.ext <;> simp, map_smul' := fun a b => by apply Complex.ext <;> simp }
  refine ⟨⟨conjI, LinearMap.id, id, 1, 0, fun x => x = 0, 5⟩, fun _ => rfl, ⟨⟨LinearMap.id, fun _ => rfl⟩, ?_⟩, ⟨?_, ?_⟩, ?_⟩
  · intro u v
    simp [conjI, Complex.inner]
    ring
  · simp [initialResidual]
  · intro m hm
    obtain rfl : m = 0 := by omega
    simp [run, setup, lanczos, Gmres.setup, newVector, initialResidual, alpha, conjI, Complex.inner]
    intro h
    simpa using congrArg Complex.im h
  · intro a b h
    have h1 := congrArg Complex.re h
    have h2 := congrArg Complex.im h
    simp [conjI] at h1 h2
    exact Complex.ext h2 h1

/-- the rotation of the plane by a right angle -/
def rot : ℂ →ₗ[ℝ] ℂ where
  toFun := fun z => ⟨-z.im, z.re⟩
  map_add' := fun a b => by apply Complex.ext <;> simp [add_comm]
  map_smul' := fun a b => by apply Complex.ext <;> simp

/-- solve `rot x = 1` from `x = 0` -/
noncomputable def turned : Prob ℂ := ⟨rot, LinearMap.id, id, 1, 0, fun x => x = 0, 5⟩

theorem turned_start : initialResidual turned = 1 := by simp [initialResidual, turned]

/-- a step in terms of what it computes -/
theorem step_eq {pb : Prob V} {st : St V} (h : st.iter ≠ pb.maxIter) {u : V} {col : Nat → ℝ} {d : ℝ} (hu : lanczos pb st = u)
    (hc : rotated pb st = col) (hd : den pb st = d) :
    iterateProcess pb st =
      { iter := st.iter + 1
        vs := Function.update st.vs (st.iter + 1) ((‖u‖)⁻¹ • u)
        zs := st.zs
        r := fun a b => if b = st.iter then (if a = st.iter then col st.iter / d * col st.iter + col (st.iter + 1) / d * col (st.iter + 1) else col a) else st.r a b
        c := Function.update st.c st.iter (col st.iter / d)
        s := Function.update st.s st.iter (col (st.iter + 1) / d)
        g := Function.update (Function.update st.g (st.iter + 1) (-(col (st.iter + 1) / d) * st.g st.iter)) st.iter (col st.iter / d * st.g st.iter)
        beta := ‖u‖ } := by
  rw [iterateProcess, if_neg h, hu, hc, hd]

theorem turned_zero : (run turned 0).iter = 0 ∧ (run turned 0).vs 0 = 1 ∧ (run turned 0).g 0 = 1 ∧ (run turned 0).beta = 0 := by
  refine ⟨rfl, ?_, ?_, rfl⟩
  · simp [run, setup, Gmres.setup, turned_start]
  · simp [run, setup, Gmres.setup, turned_start]

theorem turned_lanczos_zero : alpha turned (run turned 0) = 0 ∧ lanczos turned (run turned 0) = Complex.I := by
  obtain ⟨h1, h2, h3, h4⟩ := turned_zero
  have hn : newVector turned (run turned 0).toSt = Complex.I := by
    rw [newVector, h1, h2]
    apply Complex.ext <;> simp [turned, rot]
  have ha : alpha turned (run turned 0) = 0 := by
    rw [alpha, hn, h1, h2]; simp [Complex.inner]
  refine ⟨ha, ?_⟩
  rw [lanczos, if_pos h1, hn, ha]; simp

theorem turned_one : (run turned 1).iter = 1 ∧ (run turned 1).vs 0 = 1 ∧ (run turned 1).vs 1 = Complex.I ∧ (run turned 1).r 0 0 = 1 ∧
    (run turned 1).c 0 = 0 ∧ (run turned 1).s 0 = 1 ∧ (run turned 1).g 0 = 0 ∧ (run turned 1).g 1 = -1 ∧ (run turned 1).beta = 1 := by
  obtain ⟨h1, h2, h3, h4⟩ := turned_zero
  obtain ⟨ha, hl⟩ := turned_lanczos_zero
  have hcol : rotated turned (run turned 0) = column turned (run turned 0) := by
    rw [rotated, h1]; rfl
  have c0 : column turned (run turned 0) 0 = 0 := by rw [column, h1, ha]; simp
  have c1 : column turned (run turned 0) 1 = 1 := by rw [column, h1, hl]; simp
  have hd : den turned (run turned 0) = 1 := by rw [den, hcol, h1, c0, zero_add, c1]; norm_num
  rw [run_succ, step_eq (by rw [h1]; decide) hl hcol hd]
  simp only [h1, c0, c1, h2, h3, zero_add]
  refine ⟨trivial, ?_, ?_, ?_, ?_, ?_, ?_, ?_, ?_⟩ <;> simp [h2]

theorem turned_lanczos_one : alpha turned (run turned 1) = 0 ∧ lanczos turned (run turned 1) = -2 := by
  obtain ⟨h1, h2, h3, h4, h5, h6, h7, h8, h9⟩ := turned_one
  have hn : newVector turned (run turned 1).toSt = -1 := by
    rw [newVector, h1, h3]
    apply Complex.ext <;> simp [turned, rot]
  have ha : alpha turned (run turned 1) = 0 := by
    rw [alpha, hn, h1, h3]; simp [Complex.inner]
  refine ⟨ha, ?_⟩
  rw [lanczos, if_neg (by rw [h1]; decide), hn, ha, h1, h9, h2]
  norm_num

theorem turned_two : (run turned 2).iter = 2 ∧ (run turned 2).vs 0 = 1 ∧ (run turned 2).vs 1 = Complex.I ∧ (run turned 2).r 0 0 = 1 ∧
    (run turned 2).r 0 1 = 0 ∧ (run turned 2).r 1 1 = 5 / Real.sqrt 5 ∧ (run turned 2).g 0 = 0 ∧ (run turned 2).g 1 = 1 / Real.sqrt 5 ∧
    (run turned 2).g 2 = 2 / Real.sqrt 5 := by
  obtain ⟨h1, h2, h3, h4, h5, h6, h7, h8, h9⟩ := turned_one
  obtain ⟨ha, hl⟩ := turned_lanczos_one
  have c0 : column turned (run turned 1) 0 = 1 := by rw [column, h1, h9]; simp
  have c1 : column turned (run turned 1) 1 = 0 := by rw [column, h1, ha]; simp
  have c2 : column turned (run turned 1) 2 = 2 := by rw [column, h1, hl]; simp
  have hcol : rotated turned (run turned 1) = rotate 0 1 0 (column turned (run turned 1)) := by
    rw [rotated, h1]
    show rotate _ _ _ _ = _
    rw [h5, h6]
  have r0 : rotate 0 1 0 (column turned (run turned 1)) 0 = 0 := by rw [rotate_at, c0, c1]; norm_num
  have r1 : rotate 0 1 0 (column turned (run turned 1)) 1 = -1 := by rw [rotate_succ, c0, c1]; norm_num
  have r2 : rotate 0 1 0 (column turned (run turned 1)) 2 = 2 := by rw [rotate_other _ _ _ _ (by decide) (by decide), c2]
  have hd : den turned (run turned 1) = Real.sqrt 5 := by
    rw [den, hcol, h1, r1, r2]; norm_num
  rw [run_succ, step_eq (by rw [h1]; decide) hl hcol hd]
  simp only [h1, r1, h8]
  norm_num [r0, r1, r2, h2, h3, h4, h7]
  field_simp; rw [Real.sq_sqrt (by norm_num)]; norm_num

/-- C69, a hazard: the operator has to be symmetric.  For the rotation of the plane by a right angle, the second step reports a residual of
`2 / √5` for a solution whose residual is `6 / 5`, larger than that of the start. -/
theorem C69_unsymmetric_is_misjudged : ∃ pb : Prob ℂ, StartOk pb ∧ ‖Gmres.residual pb pb.x0‖ = 1 ∧ NoBreakdown pb 2 ∧
    absoluteResidual (run pb 2).toSt = 2 / Real.sqrt 5 ∧ ‖Gmres.residual pb (solutionG pb (run pb 2).toSt)‖ = 6 / 5 := by
  obtain ⟨h1, h2, h3, h4, h5, h6, h7, h8, h9⟩ := turned_two
  have h50 : Real.sqrt 5 ≠ 0 := by positivity
  refine ⟨turned, fun _ => rfl, ?_, ⟨?_, ?_⟩, ?_, ?_⟩
  · simp [Gmres.residual, turned]
  · rw [turned_start]; exact one_ne_zero
  · intro m hm
    interval_cases m
    · rw [turned_lanczos_zero.2]; exact Complex.I_ne_zero
    · rw [turned_lanczos_one.2]; norm_num
  · rw [absoluteResidual, h1, h9, abs_of_nonneg (by positivity)]
  · have hy1 : coefficients (run turned 2).toSt 1 = 1 / 5 := by
      rw [coefficients, h1]
      simp [backLoop, h6, h8]
      field_simp
      rw [Real.sq_sqrt (by norm_num)]
    have hy0 : coefficients (run turned 2).toSt 0 = 0 := by
      rw [coefficients, h1]
      simp [backLoop, h4, h5, h7]
    have hx : solutionG turned (run turned 2).toSt = (1 / 5 : ℝ) • Complex.I := by
      rw [solutionG, h1]
      simp only [List.range_succ, List.range_zero, List.nil_append, List.cons_append, List.foldl_cons, List.foldl_nil, hy0, hy1, h3]
      simp [turned]
    rw [hx]
    have : Gmres.residual turned ((1 / 5 : ℝ) • Complex.I) = ((6 / 5 : ℝ) : ℂ) := by
      apply Complex.ext <;> norm_num [Gmres.residual, turned, rot]
    rw [this, Complex.norm_real]
    norm_num

end Verif.Minres
