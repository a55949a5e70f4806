import Verif.Model.Gmres
import Mathlib.Algebra.BigOperators.Intervals
import Mathlib.Tactic.Linarith
import Mathlib.Tactic.FieldSimp
import Mathlib.Tactic.Ring
import Mathlib.Tactic.Module

/-!
# Lemmas about the GMRES iteration

`tvec`, `wvec` are the basis obtained by applying the Givens rotations to the Krylov basis; they do not occur in the code.
-/

namespace Verif.Gmres

open Finset

variable {V : Type*} [NormedAddCommGroup V] [InnerProductSpace ℝ V]

theorem foldl_sub_range {M : Type*} [AddCommGroup M] (f : Nat → M) (a : M) (n : Nat) :
    (List.range n).foldl (fun u i => u - f i) a = a - ∑ i ∈ range n, f i := by
  induction n with
  | zero => simp
  | succ n ih => rw [List.range_succ, List.foldl_append, ih, sum_range_succ]; simp [sub_sub]

theorem foldl_add_range {M : Type*} [AddCommGroup M] (f : Nat → M) (a : M) (n : Nat) :
    (List.range n).foldl (fun u i => u + f i) a = a + ∑ i ∈ range n, f i := by
  induction n with
  | zero => simp
  | succ n ih => rw [List.range_succ, List.foldl_append, ih, sum_range_succ]; simp [add_assoc]

theorem foldl_sub_range' (f : Nat → ℝ) : ∀ (m : Nat) (a : ℝ) (s : Nat),
    (List.range' s m).foldl (fun u i => u - f i) a = a - ∑ i ∈ Ico s (s + m), f i
  | 0, a, s => by simp
  | m + 1, a, s => by
      rw [List.range'_succ, List.foldl_cons, foldl_sub_range' f m,
        sum_eq_sum_Ico_succ_bot (show s < s + (m + 1) by omega), show s + 1 + m = s + (m + 1) by omega]
      ring

/-- the last vector of the rotated basis after `i` rotations -/
noncomputable def tvec (st : St V) : Nat → V
  | 0 => st.vs 0
  | i + 1 => -st.s i • tvec st i + st.c i • st.vs (i + 1)

/-- the `i`-th vector of the rotated basis, final after rotation `i` -/
noncomputable def wvec (st : St V) (i : Nat) : V := st.c i • tvec st i + st.s i • st.vs (i + 1)

theorem tvec_congr {st st' : St V} {n : Nat} (hv : ∀ i ≤ n, st.vs i = st'.vs i) (hc : ∀ i < n, st.c i = st'.c i)
    (hs : ∀ i < n, st.s i = st'.s i) : ∀ m ≤ n, tvec st m = tvec st' m := by
  intro m
  induction m with
  | zero => intro _; exact hv 0 (by omega)
  | succ m ih => intro h; rw [tvec, tvec, ih (by omega), hv _ h, hc m (by omega), hs m (by omega)]

theorem wvec_congr {st st' : St V} {n : Nat} (hv : ∀ i ≤ n, st.vs i = st'.vs i) (hc : ∀ i < n, st.c i = st'.c i)
    (hs : ∀ i < n, st.s i = st'.s i) : ∀ m < n, wvec st m = wvec st' m := by
  intro m h
  rw [wvec, wvec, tvec_congr hv hc hs m (by omega), hv _ (by omega), hc m h, hs m h]

/-- What holds after every step without a zero denominator. -/
structure Weak (pb : Prob V) (st : St V) : Prop where
  unit : ∀ i < st.iter, st.c i ^ 2 + st.s i ^ 2 = 1
  diag : ∀ i < st.iter, st.r i i ≠ 0
  col : ∀ j < st.iter, pb.left (pb.op (st.zs j)) = ∑ i ∈ range (j + 1), st.r i j • wvec st i
  res : initialResidual pb = ∑ i ∈ range st.iter, st.g i • wvec st i + st.g st.iter • tvec st st.iter
  zs : ∀ j < st.iter, st.zs j = pb.right (st.vs j)
  le : st.iter ≤ pb.maxIter

/-- The Krylov basis is orthonormal. -/
def Ortho (st : St V) : Prop :=
  ∀ i ≤ st.iter, ∀ j ≤ st.iter, inner ℝ (st.vs i) (st.vs j) = if i = j then (1 : ℝ) else 0

theorem rotate_at (c s : ℝ) (i : Nat) (col : Nat → ℝ) : rotate c s i col i = c * col i + s * col (i + 1) := by
  simp [rotate, Function.update_of_ne (show i ≠ i + 1 by omega)]

theorem rotate_succ (c s : ℝ) (i : Nat) (col : Nat → ℝ) : rotate c s i col (i + 1) = -s * col i + c * col (i + 1) := by
  simp [rotate]

theorem rotate_other (c s : ℝ) (i : Nat) (col : Nat → ℝ) {k : Nat} (h1 : k ≠ i) (h2 : k ≠ i + 1) :
    rotate c s i col k = col k := by
  simp [rotate, Function.update_of_ne h1, Function.update_of_ne h2]

/-- The rotations rewrite a combination of the Krylov basis in the rotated basis. -/
theorem rotations (st : St V) (col : Nat → ℝ) (j : Nat) (hu : ∀ i < j, st.c i ^ 2 + st.s i ^ 2 = 1) : ∀ m ≤ j,
    (∀ i, m < i → ((List.range m).foldl (fun col i => rotate (st.c i) (st.s i) i col) col) i = col i) ∧
    ∑ i ∈ range (j + 1), col i • st.vs i =
      ∑ i ∈ range m, ((List.range m).foldl (fun col i => rotate (st.c i) (st.s i) i col) col) i • wvec st i +
      ((List.range m).foldl (fun col i => rotate (st.c i) (st.s i) i col) col) m • tvec st m +
      ∑ i ∈ Ico (m + 1) (j + 1), col i • st.vs i := by
  intro m
  induction m with
  | zero =>
      intro _
      refine ⟨fun i _ => rfl, ?_⟩
      simp only [List.range_zero, List.foldl_nil, range_zero, sum_empty, zero_add, tvec]
      rw [← Finset.sum_range_add_sum_Ico _ (show 1 ≤ j + 1 by omega)]
      simp
  | succ m ih =>
      intro hm
      obtain ⟨h1, h2⟩ := ih (by omega)
      set C := (List.range m).foldl (fun col i => rotate (st.c i) (st.s i) i col) col with hC
      have hC' : (List.range (m + 1)).foldl (fun col i => rotate (st.c i) (st.s i) i col) col =
          rotate (st.c m) (st.s m) m C := by
        rw [List.range_succ, List.foldl_append]; rfl
      rw [hC']
      refine ⟨fun i hi => by rw [rotate_other _ _ _ _ (by omega) (by omega)]; exact h1 i (by omega), ?_⟩
      rw [h2, sum_range_succ, rotate_at, rotate_succ, sum_eq_sum_Ico_succ_bot (by omega : m + 1 < j + 1)]
      have e1 : ∑ i ∈ range m, rotate (st.c m) (st.s m) m C i • wvec st i = ∑ i ∈ range m, C i • wvec st i := by
        apply sum_congr rfl
        intro i hi
        have := mem_range.1 hi
        rw [rotate_other _ _ _ _ (by omega) (by omega)]
      rw [e1, h1 (m + 1) (by omega), wvec, tvec]
      have hu' := hu m (by omega)
      have e2 : C m • tvec st m + col (m + 1) • st.vs (m + 1) =
          (st.c m * C m + st.s m * col (m + 1)) • (st.c m • tvec st m + st.s m • st.vs (m + 1)) +
          (-st.s m * C m + st.c m * col (m + 1)) • (-st.s m • tvec st m + st.c m • st.vs (m + 1)) := by
        have a1 : C m = (st.c m * C m + st.s m * col (m + 1)) * st.c m +
            (-st.s m * C m + st.c m * col (m + 1)) * (-st.s m) := by
          calc C m = (st.c m ^ 2 + st.s m ^ 2) * C m := by rw [hu']; ring
            _ = _ := by ring
        have a2 : col (m + 1) = (st.c m * C m + st.s m * col (m + 1)) * st.s m +
            (-st.s m * C m + st.c m * col (m + 1)) * st.c m := by
          calc col (m + 1) = (st.c m ^ 2 + st.s m ^ 2) * col (m + 1) := by rw [hu']; ring
            _ = _ := by ring
        conv_lhs => rw [a1, a2]
        module
      calc _ = ∑ i ∈ range m, C i • wvec st i + (C m • tvec st m + col (m + 1) • st.vs (m + 1)) +
            ∑ i ∈ Ico (m + 1 + 1) (j + 1), col i • st.vs i := by abel
        _ = _ := by rw [e2]; abel

theorem norm_smul_inv (u : V) : ‖u‖ • (‖u‖⁻¹ • u) = u := by
  by_cases h : u = 0
  · simp [h]
  · rw [smul_smul, mul_inv_cancel₀ (norm_ne_zero_iff.2 h), one_smul]

theorem weak_setup (pb : Prob V) : Weak pb (setup pb) := by
  refine ⟨fun i h => ?_, fun i h => ?_, fun i h => ?_, ?_, fun i h => ?_, Nat.zero_le _⟩
  · simp [setup] at h
  · simp [setup] at h
  · simp [setup] at h
  · simp [setup, tvec, norm_smul_inv]
  · simp [setup] at h

theorem newVector_eq (pb : Prob V) (st : St V) : newVector pb st =
    ∑ i ∈ range (st.iter + 1), column pb st i • st.vs i + orthogonalised pb st := by
  have h : orthogonalised pb st = newVector pb st - ∑ i ∈ range (st.iter + 1), dots pb st i • st.vs i := by
    rw [orthogonalised, foldl_sub_range]
  have h2 : ∑ i ∈ range (st.iter + 1), column pb st i • st.vs i = ∑ i ∈ range (st.iter + 1), dots pb st i • st.vs i := by
    apply sum_congr rfl
    intro i hi
    rw [column, if_pos (by have := mem_range.1 hi; omega)]
  rw [h2, h]; abel

theorem rotated_succ (pb : Prob V) (st : St V) (h : Weak pb st) :
    rotated pb st (st.iter + 1) = ‖orthogonalised pb st‖ := by
  rw [rotated, (rotations st (column pb st) st.iter h.unit st.iter le_rfl).1 _ (by omega), column, if_neg (by omega),
    if_pos rfl]

/-- The values of the new rotation. -/
theorem cs_spec {x y d : ℝ} (hd : d = Real.sqrt (x ^ 2 + y ^ 2)) (h0 : d ≠ 0) :
    (x / d) ^ 2 + (y / d) ^ 2 = 1 ∧ (x / d) * x + (y / d) * y = d ∧ -(y / d) * x + (x / d) * y = 0 := by
  have hsq : d ^ 2 = x ^ 2 + y ^ 2 := by rw [hd, Real.sq_sqrt (by positivity)]
  refine ⟨?_, ?_, ?_⟩
  · field_simp; linarith
  · field_simp; linarith
  · field_simp; ring

theorem weak_step {pb : Prob V} {st : St V} (h : Weak pb st) (hlt : st.iter < pb.maxIter) (hd : den pb st ≠ 0) :
    Weak pb (iterateProcess pb st) := by
  set st' := iterateProcess pb st with hst'
  have hne : st.iter ≠ pb.maxIter := by omega
  have hiter : st'.iter = st.iter + 1 := by rw [hst', iterateProcess, if_neg hne]
  set j := st.iter with hj
  set x := rotated pb st j with hx
  set y := rotated pb st (j + 1) with hy
  set d := den pb st with hdd
  obtain ⟨u1, u2, u3⟩ := cs_spec (x := x) (y := y) (d := d) (by rw [hdd, den]) hd
  have hvs : ∀ i ≤ j, st'.vs i = st.vs i := by
    intro i hi
    rw [hst', iterateProcess, if_neg hne]
    exact Function.update_of_ne (show i ≠ j + 1 by omega) _ _
  have hvj : st'.vs (j + 1) = (‖orthogonalised pb st‖)⁻¹ • orthogonalised pb st := by
    rw [hst', iterateProcess, if_neg hne]; simp [hj]
  have hc : ∀ i < j, st'.c i = st.c i := by
    intro i hi
    rw [hst', iterateProcess, if_neg hne]
    exact Function.update_of_ne (show i ≠ j by omega) _ _
  have hcj : st'.c j = x / d := by rw [hst', iterateProcess, if_neg hne]; simp [hj, hx, hdd]
  have hs : ∀ i < j, st'.s i = st.s i := by
    intro i hi
    rw [hst', iterateProcess, if_neg hne]
    exact Function.update_of_ne (show i ≠ j by omega) _ _
  have hsj : st'.s j = y / d := by rw [hst', iterateProcess, if_neg hne]; simp [hj, hy, hdd]
  have hg : ∀ i < j, st'.g i = st.g i := by
    intro i hi
    rw [hst', iterateProcess, if_neg hne]
    simp only
    rw [Function.update_of_ne (show i ≠ j by omega), Function.update_of_ne (show i ≠ j + 1 by omega)]
  have hgj : st'.g j = x / d * st.g j := by rw [hst', iterateProcess, if_neg hne]; simp [hj, hx, hdd]
  have hgj1 : st'.g (j + 1) = -(y / d) * st.g j := by
    rw [hst', iterateProcess, if_neg hne]
    simp only
    rw [Function.update_of_ne (show st.iter + 1 ≠ st.iter by omega)]
    simp [hj, hy, hdd]
  have hz : ∀ i < j, st'.zs i = st.zs i := by
    intro i hi
    rw [hst', iterateProcess, if_neg hne]
    exact Function.update_of_ne (show i ≠ j by omega) _ _
  have hzj : st'.zs j = pb.right (st.vs j) := by rw [hst', iterateProcess, if_neg hne]; simp [hj]
  have hr : ∀ a b, b < j → st'.r a b = st.r a b := by
    intro a b hb
    rw [hst', iterateProcess, if_neg hne]
    exact if_neg (show b ≠ j by omega)
  have hrj : ∀ a, a < j → st'.r a j = rotated pb st a := by
    intro a ha
    rw [hst', iterateProcess, if_neg hne]
    simp only
    rw [if_pos rfl, if_neg (show a ≠ j by omega)]
  have hrjj : st'.r j j = d := by
    rw [hst', iterateProcess, if_neg hne]
    simp only
    rw [if_pos rfl, if_pos rfl]
    exact u2
  have ht : ∀ m ≤ j, tvec st' m = tvec st m := tvec_congr hvs hc hs
  have hw : ∀ m < j, wvec st' m = wvec st m := wvec_congr hvs hc hs
  have hwj : wvec st' j = (x / d) • tvec st j + (y / d) • st'.vs (j + 1) := by
    rw [wvec, hcj, hsj, ht j le_rfl]
  have htj : tvec st' (j + 1) = -(y / d) • tvec st j + (x / d) • st'.vs (j + 1) := by
    rw [tvec, hcj, hsj, ht j le_rfl]
  constructor
  · intro i hi
    rw [hiter] at hi
    by_cases hij : i = j
    · rw [hij, hcj, hsj]; exact u1
    · rw [hc i (by omega), hs i (by omega)]; exact h.unit i (by omega)
  · intro i hi
    rw [hiter] at hi
    by_cases hij : i = j
    · rw [hij, hrjj]; exact hd
    · rw [hr i i (by omega)]; exact h.diag i (by omega)
  · intro k hk
    rw [hiter] at hk
    by_cases hkj : k = j
    · subst hkj
      rw [hzj]
      have e := newVector_eq pb st
      rw [newVector] at e
      rw [e, ← hj, (rotations st (column pb st) j h.unit j le_rfl).2]
      rw [sum_range_succ, hrjj, hwj]
      have e1 : ∑ i ∈ range j, st'.r i j • wvec st' i = ∑ i ∈ range j, rotated pb st i • wvec st i := by
        apply sum_congr rfl
        intro i hi
        rw [hrj i (mem_range.1 hi), hw i (mem_range.1 hi)]
      rw [e1]
      have hyn : y = ‖orthogonalised pb st‖ := rotated_succ pb st h
      have e2 : orthogonalised pb st = y • st'.vs (j + 1) := by rw [hvj, hyn, norm_smul_inv]
      conv_lhs => rw [e2]
      change ∑ i ∈ range j, rotated pb st i • wvec st i + x • tvec st j + ∑ i ∈ Ico (j + 1) (j + 1), _ + _ = _
      rw [Ico_self, sum_empty, add_zero, add_assoc]
      congr 1
      rw [smul_add, smul_smul, smul_smul]
      have f1 : d * (x / d) = x := by field_simp
      have f2 : d * (y / d) = y := by field_simp
      rw [f1, f2]
    · rw [hz k (by omega), h.col k (by omega)]
      apply sum_congr rfl
      intro i hi
      have := mem_range.1 hi
      rw [hr i k (by omega), hw i (by omega)]
  · rw [hiter, sum_range_succ, h.res, hgj, hgj1, hwj, htj]
    have e1 : ∑ i ∈ range j, st'.g i • wvec st' i = ∑ i ∈ range j, st.g i • wvec st i := by
      apply sum_congr rfl
      intro i hi
      rw [hg i (mem_range.1 hi), hw i (mem_range.1 hi)]
    rw [e1, add_assoc]
    congr 1
    have : st.g j = (x / d * st.g j) * (x / d) + (-(y / d) * st.g j) * -(y / d) := by
      calc st.g j = ((x / d) ^ 2 + (y / d) ^ 2) * st.g j := by rw [u1]; ring
        _ = _ := by ring
    conv_lhs => rw [this]
    module
  · intro k hk
    rw [hiter] at hk
    by_cases hkj : k = j
    · rw [hkj, hzj, hvs j le_rfl]
    · rw [hz k (by omega), hvs k (by omega)]; exact h.zs k (by omega)
  · rw [hiter]; omega

theorem ortho_setup (pb : Prob V) (h : initialResidual pb ≠ 0) : Ortho (setup pb) := by
  intro i hi j hj
  simp only [setup, Nat.le_zero] at hi hj
  subst hi hj
  have hn : ‖initialResidual pb‖ ≠ 0 := norm_ne_zero_iff.2 h
  simp only [setup, if_true]
  rw [inner_smul_left, inner_smul_right, real_inner_self_eq_norm_sq]
  simp only [map_inv₀, conj_trivial]
  field_simp

theorem inner_orthogonalised {pb : Prob V} {st : St V} (h : Ortho st) (i : Nat) (hi : i ≤ st.iter) :
    inner ℝ (st.vs i) (orthogonalised pb st) = (0 : ℝ) := by
  rw [orthogonalised, foldl_sub_range, inner_sub_right, inner_sum]
  have : ∑ k ∈ range (st.iter + 1), inner ℝ (st.vs i) (dots pb st k • st.vs k) = dots pb st i := by
    rw [sum_eq_single i]
    · rw [inner_smul_right, h i hi i hi]; simp
    · intro k hk hne
      have := mem_range.1 hk
      rw [inner_smul_right, h i hi k (by omega), if_neg (Ne.symm hne)]; simp
    · intro hn; exact absurd (mem_range.2 (by omega)) hn
  rw [this, dots]; simp

theorem ortho_step {pb : Prob V} {st : St V} (h : Ortho st) (hlt : st.iter < pb.maxIter) (hu : orthogonalised pb st ≠ 0) :
    Ortho (iterateProcess pb st) := by
  have hne : st.iter ≠ pb.maxIter := by omega
  set st' := iterateProcess pb st with hst'
  have hiter : st'.iter = st.iter + 1 := by rw [hst', iterateProcess, if_neg hne]
  have hvs : ∀ i ≤ st.iter, st'.vs i = st.vs i := by
    intro i hi
    rw [hst', iterateProcess, if_neg hne]
    exact Function.update_of_ne (show i ≠ st.iter + 1 by omega) _ _
  have hvj : st'.vs (st.iter + 1) = (‖orthogonalised pb st‖)⁻¹ • orthogonalised pb st := by
    rw [hst', iterateProcess, if_neg hne]; simp
  have hn : ‖orthogonalised pb st‖ ≠ 0 := norm_ne_zero_iff.2 hu
  have hnew : ∀ i ≤ st.iter, inner ℝ (st'.vs i) (st'.vs (st.iter + 1)) = (0 : ℝ) := by
    intro i hi
    rw [hvs i hi, hvj, inner_smul_right, inner_orthogonalised h i hi]; simp
  intro i hi k hk
  rw [hiter] at hi hk
  by_cases h1 : i = st.iter + 1
  · by_cases h2 : k = st.iter + 1
    · subst h1 h2
      rw [if_pos rfl, hvj, inner_smul_left, inner_smul_right, real_inner_self_eq_norm_sq]
      simp only [map_inv₀, conj_trivial]
      field_simp
    · subst h1
      rw [if_neg (Ne.symm h2), real_inner_comm]
      exact hnew k (by omega)
  · by_cases h2 : k = st.iter + 1
    · subst h2
      rw [if_neg h1]; exact hnew i (by omega)
    · rw [hvs i (by omega), hvs k (by omega)]
      exact h i (by omega) k (by omega)

theorem tvec_ortho {st : St V} (h : Ortho st) : ∀ m ≤ st.iter, ∀ j ≤ st.iter, m < j →
    inner ℝ (tvec st m) (st.vs j) = (0 : ℝ) := by
  intro m
  induction m with
  | zero => intro h1 j hj hlt; rw [tvec, h 0 h1 j hj, if_neg (by omega)]
  | succ m ih =>
      intro h1 j hj hlt
      rw [tvec, inner_add_left, inner_smul_left, inner_smul_left, ih (by omega) j hj (by omega), h (m + 1) h1 j hj,
        if_neg (by omega)]
      simp

theorem tvec_unit {st : St V} (h : Ortho st) (hu : ∀ i < st.iter, st.c i ^ 2 + st.s i ^ 2 = 1) : ∀ m ≤ st.iter,
    inner ℝ (tvec st m) (tvec st m) = (1 : ℝ) := by
  intro m
  induction m with
  | zero => intro h1; rw [tvec, h 0 h1 0 h1, if_pos rfl]
  | succ m ih =>
      intro h1
      have e1 := ih (by omega)
      have e2 := tvec_ortho h m (by omega) (m + 1) h1 (by omega)
      have e3 := h (m + 1) h1 (m + 1) h1
      rw [if_pos rfl] at e3
      rw [tvec]
      simp only [inner_add_left, inner_add_right, inner_smul_left, inner_smul_right, e1, e2, e3,
        real_inner_comm (tvec st m) (st.vs (m + 1)), conj_trivial]
      have := hu m (by omega)
      linarith

theorem wvec_tvec {st : St V} (h : Ortho st) (hu : ∀ i < st.iter, st.c i ^ 2 + st.s i ^ 2 = 1) (i : Nat) : ∀ m ≤ st.iter,
    i < m → inner ℝ (wvec st i) (tvec st m) = (0 : ℝ) := by
  intro m
  induction m with
  | zero => intro _ hi; omega
  | succ m ih =>
      intro h1 hi
      have e0 := tvec_unit h hu
      by_cases him : i = m
      · subst him
        have e1 := e0 i (by omega)
        have e2 := tvec_ortho h i (by omega) (i + 1) h1 (by omega)
        have e3 := h (i + 1) h1 (i + 1) h1
        rw [if_pos rfl] at e3
        rw [tvec, wvec]
        simp only [inner_add_left, inner_add_right, inner_smul_left, inner_smul_right, e1, e2, e3,
          real_inner_comm (tvec st i) (st.vs (i + 1)), conj_trivial]
        ring
      · have e1 := ih (by omega) (by omega)
        have e2 := tvec_ortho h i (by omega) (m + 1) h1 (by omega)
        have e3 := h (i + 1) (by omega) (m + 1) h1
        rw [if_neg (by omega)] at e3
        rw [tvec, inner_add_right, inner_smul_right, e1, inner_smul_right, wvec, inner_add_left, inner_smul_left, e2,
          inner_smul_left, e3]
        simp

theorem backLoop_spec (r : Nat → Nat → ℝ) (g : Nat → ℝ) (k : Nat) : ∀ (m : Nat) (y : Nat → ℝ), m ≤ k →
    (∀ i, m ≤ i → backLoop r g k m y i = y i) ∧
    ∀ j < m, backLoop r g k m y j = (g j - ∑ i ∈ Ico (j + 1) k, r j i * backLoop r g k m y i) / r j j := by
  intro m
  induction m with
  | zero => intro y _; exact ⟨fun i _ => rfl, by simp⟩
  | succ m ih =>
      intro y hm
      rw [backLoop]
      set yj := ((List.range' (m + 1) (k - 1 - m)).foldl (fun a i => a - r m i * y i) (g m)) / r m m with hyj
      obtain ⟨h1, h2⟩ := ih (Function.update y m yj) (by omega)
      refine ⟨fun i hi => ?_, fun j hj => ?_⟩
      · simp only [h1 i (by omega), Function.update_of_ne (show i ≠ m by omega)]
      · by_cases hjm : j = m
        · subst hjm
          have e : ∑ i ∈ Ico (j + 1) k, r j i * backLoop r g k j (Function.update y j yj) i =
              ∑ i ∈ Ico (j + 1) k, r j i * y i := by
            apply sum_congr rfl
            intro i hi
            have := mem_Ico.1 hi
            rw [h1 i (by omega), Function.update_of_ne (show i ≠ j by omega)]
          rw [e, h1 j le_rfl, Function.update_self, hyj, foldl_sub_range' (fun i => r j i * y i),
            show j + 1 + (k - 1 - j) = k by omega]
        · exact h2 j (by omega)

/-- Backward substitution solves the triangular system. -/
theorem coefficients_spec (st : St V) (hd : ∀ i < st.iter, st.r i i ≠ 0) (j : Nat) (hj : j < st.iter) :
    ∑ i ∈ Ico j st.iter, st.r j i * coefficients st i = st.g j := by
  have h := (backLoop_spec st.r st.g st.iter st.iter (fun _ => 0) le_rfl).2 j hj
  rw [sum_eq_sum_Ico_succ_bot hj]
  change st.r j j * coefficients st j + _ = _
  change coefficients st j = _ at h
  rw [h]
  have := hd j hj
  change st.r j j * ((st.g j - ∑ i ∈ Ico (j + 1) st.iter, st.r j i * coefficients st i) / st.r j j) + _ = _
  field_simp
  ring

/-- The residual of any combination of the search directions, in the rotated basis. -/
theorem residual_combination {pb : Prob V} {st : St V} (h : Weak pb st) (y : Nat → ℝ) :
    initialResidual pb - ∑ j ∈ range st.iter, y j • pb.left (pb.op (st.zs j)) =
      ∑ i ∈ range st.iter, (st.g i - ∑ j ∈ Ico i st.iter, st.r i j * y j) • wvec st i +
        st.g st.iter • tvec st st.iter := by
  have h1 : ∑ j ∈ range st.iter, y j • pb.left (pb.op (st.zs j)) =
      ∑ i ∈ range st.iter, (∑ j ∈ Ico i st.iter, st.r i j * y j) • wvec st i := by
    have : ∀ j ∈ range st.iter, y j • pb.left (pb.op (st.zs j)) =
        ∑ i ∈ range (j + 1), (st.r i j * y j) • wvec st i := by
      intro j hj
      rw [h.col j (mem_range.1 hj), smul_sum]
      apply sum_congr rfl
      intro i _
      rw [smul_smul, mul_comm]
    rw [sum_congr rfl this]
    simp only [sum_smul]
    apply sum_comm'
    intro i j
    simp only [mem_range, mem_Ico]
    omega
  rw [h1, h.res]
  simp only [sub_smul, sum_sub_distrib]
  abel

end Verif.Gmres
