import Verif.Model.Orthonormalize
import Mathlib.Analysis.InnerProductSpace.Orthonormal
import Mathlib.LinearAlgebra.Dimension.OrzechProperty
import Mathlib.LinearAlgebra.FiniteDimensional.Lemmas
import Mathlib.Analysis.InnerProductSpace.PiL2

/-!
# C45: `orthonormalize_cols` yields an orthonormal basis of the same space
-/

namespace Verif.Orth

open scoped InnerProductSpace

variable {E : Type*} [NormedAddCommGroup E] [InnerProductSpace ℝ E]

/-- The space spanned by the first `k` columns. -/
def lead (m : Nat → E) (k : Nat) : Submodule ℝ E := Submodule.span ℝ (m '' {j | j < k})

/-- The loop over `j` leaves column `i` and the earlier ones, and removes the component along column `i` from the others. -/
theorem sweep_eq (n i : Nat) (m : Nat → E) :
    sweep n i m = fun j => if i < j ∧ j < n then m j - ⟪m i, m j⟫_ℝ • m i else m j := by
  have key : ∀ k (m : Nat → E),
      (List.range' (i + 1) k).foldl (fun m j => Function.update m j (m j - ⟪m i, m j⟫_ℝ • m i)) m
        = fun j => if i < j ∧ j < i + 1 + k then m j - ⟪m i, m j⟫_ℝ • m i else m j := by
    intro k
    induction k with
    | zero =>
        intro m; funext j
        have : ¬ (i < j ∧ j < i + 1 + 0) := by omega
        simp [this]
    | succ k ih =>
        intro m
        rw [List.range'_concat, List.foldl_append, ih]
        funext j
        simp only [List.foldl_cons, List.foldl_nil, Nat.one_mul]
        have hi : ¬ (i < i ∧ i < i + 1 + k) := by omega
        have hk : ¬ (i < i + 1 + k ∧ i + 1 + k < i + 1 + k) := by omega
        rw [if_neg hi, if_neg hk]
        by_cases hj : j = i + 1 + k
        · subst hj
          rw [Function.update_self, if_pos (by omega)]
        · rw [Function.update_of_ne hj]
          by_cases h : i < j ∧ j < i + 1 + k
          · rw [if_pos h, if_pos (by omega)]
          · rw [if_neg h, if_neg (by omega)]
  rw [sweep, key]
  funext j
  by_cases h : i < j ∧ j < n
  · rw [if_pos h, if_pos (by omega)]
  · rw [if_neg h, if_neg (by omega)]

/-- What holds after `i` iterations of the outer loop. -/
structure Inv (n : Nat) (m s : Nat → E) (i : Nat) : Prop where
  unit : ∀ j < i, ‖s j‖ = 1
  orth : ∀ k < i, ∀ j < n, k < j → ⟪s k, s j⟫_ℝ = 0
  diff : ∀ j < n, i ≤ j → m j - s j ∈ lead s i
  span : ∀ k ≤ i, lead s k = lead m k

theorem lead_succ (m : Nat → E) (k : Nat) : lead m (k + 1) = lead m k ⊔ Submodule.span ℝ {m k} := by
  rw [lead, lead, ← Submodule.span_union]
  congr 1
  ext x
  simp only [Set.mem_image, Set.mem_setOf_eq, Set.union_singleton, Set.mem_insert_iff]
  constructor
  · rintro ⟨j, hj, rfl⟩
    by_cases h : j = k
    · exact Or.inl (by rw [h])
    · exact Or.inr ⟨j, by omega, rfl⟩
  · rintro (rfl | ⟨j, hj, rfl⟩)
    · exact ⟨k, by omega, rfl⟩
    · exact ⟨j, by omega, rfl⟩

theorem lead_congr {s t : Nat → E} {k : Nat} (h : ∀ j < k, s j = t j) : lead s k = lead t k := by
  rw [lead, lead]
  congr 1
  exact Set.image_congr (fun j hj => h j hj)

theorem step_inv {n i : Nat} {m s t : Nat → E} (hi : i < n) (h : Inv n m s i) (hs : step n s i = some t) :
    Inv n m t (i + 1) := by
  unfold step at hs
  split at hs
  · cases hs
  rename_i hne
  injection hs with hs
  have hne' : ‖s i‖ ≠ 0 := hne
  rw [sweep_eq] at hs
  set u := ‖s i‖⁻¹ • s i with hu
  have t_lt : ∀ j < i, t j = s j := by
    intro j hj
    rw [← hs]
    simp only
    rw [if_neg (by omega), Function.update_of_ne (by omega)]
  have t_i : t i = u := by
    rw [← hs]
    simp only
    rw [if_neg (by omega), Function.update_self]
  have t_gt : ∀ j, i < j → j < n → t j = s j - ⟪u, s j⟫_ℝ • u := by
    intro j h1 h2
    rw [← hs]
    simp only
    rw [if_pos ⟨h1, h2⟩, Function.update_self, Function.update_of_ne (by omega)]
  have hunit : ‖u‖ = 1 := by
    rw [hu, norm_smul, norm_inv, norm_norm, inv_mul_cancel₀ hne']
  have huu : ⟪u, u⟫_ℝ = 1 := by rw [real_inner_self_eq_norm_sq, hunit]; norm_num
  have leadt : lead t i = lead s i := lead_congr t_lt
  have leadti : lead t (i + 1) = lead m (i + 1) := by
    rw [lead_succ, lead_succ, leadt, t_i, h.span i (Nat.le_refl _)]
    have hd : m i - s i ∈ lead m i := by rw [← h.span i (Nat.le_refl _)]; exact h.diff i hi (Nat.le_refl _)
    apply le_antisymm
    · refine sup_le le_sup_left ?_
      rw [Submodule.span_singleton_le_iff_mem]
      have : u = ‖s i‖⁻¹ • (m i - (m i - s i)) := by rw [hu]; congr 1; abel
      rw [this]
      apply Submodule.smul_mem
      apply Submodule.sub_mem
      · exact Submodule.mem_sup_right (Submodule.mem_span_singleton_self _)
      · exact Submodule.mem_sup_left hd
    · refine sup_le le_sup_left ?_
      rw [Submodule.span_singleton_le_iff_mem]
      have : m i = (m i - s i) + ‖s i‖ • u := by
        rw [hu, smul_smul, mul_inv_cancel₀ hne', one_smul]; abel
      rw [this]
      apply Submodule.add_mem
      · exact Submodule.mem_sup_left hd
      · exact Submodule.mem_sup_right (Submodule.smul_mem _ _ (Submodule.mem_span_singleton_self _))
  refine ⟨?_, ?_, ?_, ?_⟩
  · intro j hj
    by_cases hji : j = i
    · subst hji; rw [t_i]; exact hunit
    · rw [t_lt j (by omega)]; exact h.unit j (by omega)
  · intro k hk j hj hkj
    by_cases hki : k = i
    · subst hki
      rw [t_i, t_gt j hkj hj, inner_sub_right, inner_smul_right, huu]; ring
    · have hk' : k < i := by omega
      rw [t_lt k hk']
      by_cases hji : j < i
      · rw [t_lt j hji]; exact h.orth k hk' j hj hkj
      · have hku : ⟪s k, u⟫_ℝ = 0 := by
          rw [hu, inner_smul_right, h.orth k hk' i hi hk']; ring
        by_cases hji' : j = i
        · subst hji'; rw [t_i]; exact hku
        · rw [t_gt j (by omega) hj, inner_sub_right, inner_smul_right, hku, h.orth k hk' j hj hkj]; ring
  · intro j hj hij
    rw [t_gt j (by omega) hj]
    have h1 : m j - s j ∈ lead t (i + 1) := by
      rw [lead_succ, leadt]; exact Submodule.mem_sup_left (h.diff j hj (by omega))
    have h2 : ⟪u, s j⟫_ℝ • u ∈ lead t (i + 1) := by
      rw [lead_succ, t_i]
      exact Submodule.mem_sup_right (Submodule.smul_mem _ _ (Submodule.mem_span_singleton_self _))
    have : m j - (s j - ⟪u, s j⟫_ℝ • u) = (m j - s j) + ⟪u, s j⟫_ℝ • u := by abel
    rw [this]
    exact Submodule.add_mem _ h1 h2
  · intro k hk
    by_cases hki : k = i + 1
    · subst hki; exact leadti
    · rw [← h.span k (by omega)]
      exact lead_congr (fun j hj => t_lt j (by omega))

theorem init_inv (n : Nat) (m : Nat → E) : Inv n m m 0 :=
  ⟨by intro j hj; omega, by intro k hk; omega, by intro j _ _; rw [sub_self]; exact Submodule.zero_mem _,
    fun _ _ => rfl⟩

theorem prefix_inv {n : Nat} {m : Nat → E} : ∀ i ≤ n, ∀ t, (List.range i).foldlM (step n) m = some t → Inv n m t i := by
  intro i
  induction i with
  | zero => intro _ t ht; simp at ht; subst ht; exact init_inv n m
  | succ i ih =>
      intro hi t ht
      rw [List.range_succ, List.foldlM_append] at ht
      cases hp : (List.range i).foldlM (step n) m with
      | none => rw [hp] at ht; cases ht
      | some s =>
          rw [hp] at ht
          simp only [List.foldlM_cons, List.foldlM_nil, Option.bind_eq_bind, Option.bind_some] at ht
          have : step n s i = some t := by
            cases hst : step n s i with
            | none => rw [hst] at ht; cases ht
            | some u => rw [hst] at ht; simpa using ht
          exact step_inv (by omega) (ih (by omega) s hp) this

theorem mem_lead_of_lt {m : Nat → E} {j k : Nat} (h : j < k) : m j ∈ lead m k :=
  Submodule.subset_span ⟨j, h, rfl⟩

/-- **C45.** For every matrix of `n` columns in a real inner product space: if the columns are independent, the function returns;
the resulting columns are orthonormal; and for every `k`, the first `k` of them span the same space as the first `k` of the
input. -/
theorem C45_orthonormalize (n : Nat) (m : Nat → E) (hm : LinearIndependent ℝ (fun j : Fin n => m j)) :
    ∃ q, orthonormalizeCols n m = some q ∧ Orthonormal ℝ (fun j : Fin n => q j) ∧
      ∀ k ≤ n, Submodule.span ℝ (q '' {j | j < k}) = Submodule.span ℝ (m '' {j | j < k}) := by
  have hex : ∀ i ≤ n, ∃ t, (List.range i).foldlM (step n) m = some t := by
    intro i
    induction i with
    | zero => intro _; exact ⟨m, rfl⟩
    | succ i ih =>
        intro hi
        obtain ⟨s, hs⟩ := ih (by omega)
        have hinv := prefix_inv i (by omega) s hs
        rw [List.range_succ, List.foldlM_append, hs]
        have hne : ‖s i‖ ≠ 0 := by
          intro h0
          have hz : s i = 0 := norm_eq_zero.mp h0
          have hd := hinv.diff i (by omega) (Nat.le_refl _)
          rw [hz, sub_zero, hinv.span i (Nat.le_refl _)] at hd
          have hnot := hm.notMem_span_image (s := {j : Fin n | j.val < i}) (x := ⟨i, by omega⟩) (by simp)
          apply hnot
          have himg : (fun j : Fin n => m j) '' {j : Fin n | j.val < i} = m '' {j | j < i} := by
            ext x
            constructor
            · rintro ⟨j, hj, rfl⟩; exact ⟨j, hj, rfl⟩
            · rintro ⟨j, hj, rfl⟩
              have hj' : j < i := hj
              exact ⟨⟨j, by omega⟩, hj', rfl⟩
          rw [himg]
          exact hd
        refine ⟨sweep n i (Function.update s i (‖s i‖⁻¹ • s i)), ?_⟩
        simp [step, hne]
  obtain ⟨q, hq⟩ := hex n (Nat.le_refl _)
  have hinv := prefix_inv n (Nat.le_refl _) q hq
  refine ⟨q, hq, ⟨fun j => hinv.unit j j.isLt, ?_⟩, hinv.span⟩
  intro a b hab
  have hab' : a.val ≠ b.val := fun h => hab (Fin.ext h)
  rcases Nat.lt_or_gt_of_ne hab' with h | h
  · exact hinv.orth a a.isLt b b.isLt h
  · change ⟪q a, q b⟫_ℝ = 0
    rw [real_inner_comm]
    exact hinv.orth b b.isLt a a.isLt h

/-- Conversely, with dependent columns some division is by a norm of zero (the result is NaN). -/
theorem C45_dependent_columns_give_nan (n : Nat) (m : Nat → E)
    (hm : ¬ LinearIndependent ℝ (fun j : Fin n => m j)) : orthonormalizeCols n m = none := by
  by_contra hne
  obtain ⟨q, hq⟩ := Option.ne_none_iff_exists'.mp hne
  apply hm
  have hinv := prefix_inv n (Nat.le_refl _) q hq
  have hq' : LinearIndependent ℝ (fun j : Fin n => q j) := by
    refine Orthonormal.linearIndependent ⟨fun j => hinv.unit j j.isLt, ?_⟩
    intro a b hab
    have hab' : a.val ≠ b.val := fun h => hab (Fin.ext h)
    rcases Nat.lt_or_gt_of_ne hab' with h | h
    · exact hinv.orth a a.isLt b b.isLt h
    · change ⟪q a, q b⟫_ℝ = 0
      rw [real_inner_comm]
      exact hinv.orth b b.isLt a a.isLt h
  have himg : ∀ f : Nat → E, Set.range (fun j : Fin n => f j) = f '' {j | j < n} := by
    intro f
    ext x
    constructor
    · rintro ⟨j, rfl⟩; exact ⟨j, j.isLt, rfl⟩
    · rintro ⟨j, hj, rfl⟩; exact ⟨⟨j, hj⟩, rfl⟩
  rw [linearIndependent_iff_card_eq_finrank_span] at hq' ⊢
  rw [hq', Set.finrank, Set.finrank, himg, himg]
  have := hinv.span n (Nat.le_refl _)
  rw [lead, lead] at this
  rw [this]

/-- The hypotheses are met: two independent, non-orthogonal, non-unit columns. -/
example : LinearIndependent ℝ (fun j : Fin 2 =>
    (if (j : Nat) = 0 then !₂[(2 : ℝ), 0] else !₂[(1 : ℝ), 3] : EuclideanSpace ℝ (Fin 2))) := by
  rw [Fintype.linearIndependent_iff]
  intro g hg
  rw [Fin.sum_univ_two] at hg
  have h1 := congrFun (congrArg (WithLp.ofLp) hg) 1
  have h0 := congrFun (congrArg (WithLp.ofLp) hg) 0
  simp at h0 h1
  rw [h1] at h0
  simp at h0
  intro i
  fin_cases i
  · exact h0
  · exact h1

end Verif.Orth
