import Verif.Model.ClosestPoint
import Mathlib.Analysis.Convex.Hull
import Mathlib.Analysis.Convex.Combination
import Mathlib.Tactic.FinCases
import Mathlib.Data.Fin.VecNotation
import Mathlib.Tactic.Linarith
import Mathlib.Tactic.FieldSimp
import Mathlib.Tactic.Module

namespace Verif.ClosestPoint

variable {V : Type*} [NormedAddCommGroup V] [InnerProductSpace ℝ V]

theorem dot_self (u : V) : dot u u = ‖u‖ ^ 2 := by
  simp [dot]

theorem dot_sub_right (u v w : V) : dot u (v - w) = dot u v - dot u w := by simp [dot, inner_sub_right]
theorem dot_sub_left (u v w : V) : dot (v - w) u = dot v u - dot w u := by simp [dot, inner_sub_left]
theorem dot_add_right (u v w : V) : dot u (v + w) = dot u v + dot u w := by simp [dot, inner_add_right]
theorem dot_add_left (u v w : V) : dot (v + w) u = dot v u + dot w u := by simp [dot, inner_add_left]
theorem dot_smul_right (u v : V) (r : ℝ) : dot u (r • v) = r * dot u v := by simp [dot, inner_smul_right]
theorem dot_smul_left (u v : V) (r : ℝ) : dot (r • u) v = r * dot u v := by simp [dot, inner_smul_left]
theorem dot_comm (u v : V) : dot u v = dot v u := by simp [dot, real_inner_comm]

theorem cauchy (u v : V) : dot u v ^ 2 ≤ dot u u * dot v v := by
  have := real_inner_mul_inner_self_le u v
  simp only [dot]; nlinarith

theorem dot_self_nonneg (u : V) : 0 ≤ dot u u := by rw [dot_self]; positivity

theorem dot_self_pos {u : V} (h : u ≠ 0) : 0 < dot u u := by
  rw [dot_self]; have := norm_pos_iff.2 h; positivity

/-- The barycentric form of the triangle. -/
theorem mem_triangle {a b c x : V} :
    x ∈ convexHull ℝ ({a, b, c} : Set V) ↔ ∃ s t : ℝ, 0 ≤ s ∧ 0 ≤ t ∧ s + t ≤ 1 ∧ x = a + s • (b - a) + t • (c - a) := by
  constructor
  · intro h
    have hconv : Convex ℝ {x : V | ∃ s t : ℝ, 0 ≤ s ∧ 0 ≤ t ∧ s + t ≤ 1 ∧ x = a + s • (b - a) + t • (c - a)} := by
      rintro x ⟨s, t, hs, ht, hst, rfl⟩ y ⟨s', t', hs', ht', hst', rfl⟩ u v hu hv huv
      refine ⟨u * s + v * s', u * t + v * t', by positivity, by positivity, ?_, ?_⟩
      · nlinarith
      · have : u = 1 - v := by linarith
        subst this
        module
    refine convexHull_min ?_ hconv h
    rintro y (rfl | rfl | rfl)
    · exact ⟨0, 0, le_rfl, le_rfl, by norm_num, by module⟩
    · exact ⟨1, 0, by norm_num, le_rfl, by norm_num, by module⟩
    · exact ⟨0, 1, le_rfl, by norm_num, by norm_num, by module⟩
  · rintro ⟨s, t, hs, ht, hst, rfl⟩
    have hc := convex_convexHull ℝ ({a, b, c} : Set V)
    have ha := subset_convexHull ℝ ({a, b, c} : Set V) (Set.mem_insert a _)
    have hb := subset_convexHull ℝ ({a, b, c} : Set V) (Set.mem_insert_of_mem a (Set.mem_insert b _))
    have hcc := subset_convexHull ℝ ({a, b, c} : Set V) (Set.mem_insert_of_mem a (Set.mem_insert_of_mem b rfl))
    have := hc.sum_mem (t := Finset.univ) (w := ![1 - s - t, s, t]) (z := ![a, b, c])
      (by intro i _; fin_cases i <;> simp <;> linarith) (by simp only [Fin.sum_univ_three, Matrix.cons_val_zero, Matrix.cons_val_one, Matrix.cons_val]; ring)
      (by intro i _; fin_cases i <;> assumption)
    simp only [Fin.sum_univ_three, Matrix.cons_val_zero, Matrix.cons_val_one, Matrix.cons_val] at this
    convert this using 1
    module

/-- The variational characterisation: `q` is the nearest point. -/
theorem nearest_of {a b c p q : V}
    (h : ∀ s t : ℝ, 0 ≤ s → 0 ≤ t → s + t ≤ 1 → dot (p - q) (a + s • (b - a) + t • (c - a) - q) ≤ 0) :
    ∀ x ∈ convexHull ℝ ({a, b, c} : Set V), ‖p - q‖ ≤ ‖p - x‖ := by
  intro x hx
  obtain ⟨s, t, hs, ht, hst, rfl⟩ := mem_triangle.1 hx
  have h0 := h s t hs ht hst
  generalize a + s • (b - a) + t • (c - a) = x at h0
  have e : dot (p - x) (p - x) = dot (p - q) (p - q) - 2 * dot (p - q) (x - q) + dot (x - q) (x - q) := by
    have : p - x = (p - q) - (x - q) := by abel
    rw [this]
    generalize p - q = u
    generalize x - q = v
    rw [dot_sub_left, dot_sub_right, dot_sub_right, dot_comm v u]; ring
  have e2 := dot_self_nonneg (x - q)
  have : ‖p - q‖ ^ 2 ≤ ‖p - x‖ ^ 2 := by rw [← dot_self, ← dot_self]; linarith
  exact (sq_le_sq₀ (norm_nonneg _) (norm_nonneg _)).1 this

/-- When none of the vertex and edge regions apply, the projection's coordinate along `c` is positive. -/
theorem vc_pos {L M N d1 d2 : ℝ} (hL : 0 ≤ L) (hLM : N ^ 2 ≤ L * M) (hd : L = 0 → d1 = 0)
    (hA : ¬ (d1 ≤ 0 ∧ d2 ≤ 0)) (hB : ¬ (d1 - L ≥ 0 ∧ d2 - N ≤ d1 - L)) (hC : ¬ (d2 - M ≥ 0 ∧ d1 - N ≤ d2 - M))
    (hAB : ¬ (L * d2 - N * d1 ≤ 0 ∧ d1 ≥ 0 ∧ d1 - L ≤ 0)) (hAC : ¬ (M * d1 - N * d2 ≤ 0 ∧ d2 ≥ 0 ∧ d2 - M ≤ 0))
    (hBC : ¬ ((L * M - N ^ 2) - (M * d1 - N * d2) - (L * d2 - N * d1) ≤ 0 ∧ (d2 - N) - (d1 - L) ≥ 0 ∧ (d1 - N) - (d2 - M) ≥ 0)) :
    0 < L * d2 - N * d1 := by
  by_contra hcon
  rw [not_lt] at hcon
  have hL0 : 0 < L := by
    rcases hL.lt_or_eq with h | h
    · exact h
    · have := hd h.symm
      subst this
      subst h
      exact absurd ⟨by simp, le_rfl, by simp⟩ hAB
  rcases lt_or_ge d1 0 with h1 | h1
  · have h2 : 0 < d2 := by
      by_contra h; exact hA ⟨h1.le, not_lt.1 h⟩
    have hN : N < 0 := by
      by_contra h
      nlinarith [mul_pos hL0 h2, not_lt.1 h]
    have hvb : M * d1 - N * d2 ≤ 0 := by
      have : L * (M * d1 - N * d2) ≤ 0 := by nlinarith
      by_contra h
      nlinarith [mul_pos hL0 (not_le.1 h)]
    have h6 : 0 < d2 - M := by
      by_contra h; exact hAC ⟨hvb, h2.le, not_lt.1 h⟩
    have h5 : d2 - M < d1 - N := by
      by_contra h; exact hC ⟨h6.le, not_lt.1 h⟩
    nlinarith [mul_pos (sub_pos.2 h5) h2, mul_pos h6 hL0]
  · have h3 : 0 < d1 - L := by
      by_contra h; exact hAB ⟨hcon, h1, not_lt.1 h⟩
    have h4 : d1 - L < d2 - N := by
      by_contra h; exact hB ⟨h3.le, not_lt.1 h⟩
    have hNL : L < N := by
      by_contra h
      have := not_lt.1 h
      nlinarith [mul_pos hL0 (sub_pos.2 h4)]
    have key : L * (d2 - N) ≤ N * (d1 - L) := by nlinarith
    have hva : (L * M - N ^ 2) - (M * d1 - N * d2) - (L * d2 - N * d1) ≤ 0 := by
      have e : (L * M - N ^ 2) - (M * d1 - N * d2) - (L * d2 - N * d1) = -((d1 - L) * (M - N) + (d2 - N) * (L - N)) := by ring
      rw [e]
      have : 0 ≤ L * ((d1 - L) * (M - N) + (d2 - N) * (L - N)) := by
        nlinarith [mul_nonneg (sub_nonneg.2 hLM) h3.le, mul_nonneg (sub_nonneg.2 key) (sub_nonneg.2 hNL.le)]
      by_contra h
      nlinarith [mul_pos hL0 (not_le.1 h)]
    have h56 : d1 - N < d2 - M := by
      by_contra h
      exact hBC ⟨hva, by linarith, by linarith⟩
    have h6 : d2 - M < 0 := by
      by_contra h; exact hC ⟨not_lt.1 h, h56.le⟩
    nlinarith [mul_pos (sub_pos.2 h56) (sub_pos.2 (show (0:ℝ) < d2 by linarith)), mul_pos (neg_pos.2 h6) (sub_pos.2 (show d1 < d2 by linarith))]

theorem va_pos {L M N d1 d2 : ℝ} (hL : 0 < L) (hM : 0 < M) (hLM : N ^ 2 ≤ L * M)
    (hB : ¬ (d1 - L ≥ 0 ∧ d2 - N ≤ d1 - L)) (hC : ¬ (d2 - M ≥ 0 ∧ d1 - N ≤ d2 - M))
    (hvc : 0 < L * d2 - N * d1) (hvb : 0 < M * d1 - N * d2)
    (hBC : ¬ ((L * M - N ^ 2) - (M * d1 - N * d2) - (L * d2 - N * d1) ≤ 0 ∧ (d2 - N) - (d1 - L) ≥ 0 ∧ (d1 - N) - (d2 - M) ≥ 0)) :
    0 < (L * M - N ^ 2) - (M * d1 - N * d2) - (L * d2 - N * d1) := by
  by_contra hcon
  rw [not_lt] at hcon
  have half : ∀ {L M N d1 d2 : ℝ}, 0 < L → N ^ 2 ≤ L * M → ¬ (d1 - L ≥ 0 ∧ d2 - N ≤ d1 - L) → 0 < L * d2 - N * d1 →
      (L * M - N ^ 2) - (M * d1 - N * d2) - (L * d2 - N * d1) ≤ 0 → d2 - N < d1 - L → False := by
    intro L M N d1 d2 hL hLM hB hvc hcon h43
    have h3 : d1 - L < 0 := by
      by_contra h; exact hB ⟨not_lt.1 h, h43.le⟩
    have key : 0 < L * (d2 - N) - N * (d1 - L) := by nlinarith
    have hNL : L < N := by
      by_contra h
      nlinarith [mul_pos hL (sub_pos.2 h43), not_lt.1 h]
    have e : (L * M - N ^ 2) - (M * d1 - N * d2) - (L * d2 - N * d1) = -((d1 - L) * (M - N) + (d2 - N) * (L - N)) := by ring
    rw [e] at hcon
    have : L * ((d1 - L) * (M - N) + (d2 - N) * (L - N)) < 0 := by
      nlinarith [mul_nonneg (sub_nonneg.2 hLM) (neg_nonneg.2 h3.le), mul_pos key (sub_pos.2 hNL)]
    nlinarith [mul_nonneg hL.le (neg_nonpos.1 hcon)]
  by_cases h1 : d2 - N < d1 - L
  · exact half hL hLM hB hvc hcon h1
  · by_cases h2 : d1 - N < d2 - M
    · exact half (L := M) (M := L) (N := N) (d1 := d2) (d2 := d1) hM (by linarith) hC (by linarith) (by linarith) h2
    · exact hBC ⟨hcon, by linarith, by linarith⟩

end Verif.ClosestPoint
