import Verif.Lemmas.ClosestPoint
import Mathlib.Topology.MetricSpace.HausdorffDistance
import Mathlib.Tactic.NormNum
import Mathlib.Analysis.Complex.Basic

/-!
# The nearest point of a triangle: property C59

The specification is Mathlib's: the triangle is the convex hull of its corners, the distance to it the infimum of the distances to its
points.
-/

namespace Verif.ClosestPoint

variable {V : Type*} [NormedAddCommGroup V] [InnerProductSpace ℝ V]

set_option maxHeartbeats 1000000 in
/-- The two claims together, case by case. -/
theorem closest_cases (p a b c : V) :
    (pointTriangleClosest p a b c = none ∧ a = b ∧ 0 < dot (c - a) (p - a) ∧ dot (c - a) (p - a) < dot (c - a) (c - a)) ∨
    (¬ (a = b ∧ 0 < dot (c - a) (p - a) ∧ dot (c - a) (p - a) < dot (c - a) (c - a)) ∧
      ∃ r, pointTriangleClosest p a b c = some r ∧ r.closest ∈ convexHull ℝ ({a, b, c} : Set V) ∧
        (∀ x ∈ convexHull ℝ ({a, b, c} : Set V), ‖p - r.closest‖ ≤ ‖p - x‖) ∧ r.dist2 = ‖p - r.closest‖ ^ 2) := by
  have e3 : dot (b - a) (p - b) = dot (b - a) (p - a) - dot (b - a) (b - a) := by rw [← dot_sub_right]; congr 1; abel
  have e4 : dot (c - a) (p - b) = dot (c - a) (p - a) - dot (b - a) (c - a) := by
    rw [dot_comm (b - a), ← dot_sub_right]; congr 1; abel
  have e5 : dot (b - a) (p - c) = dot (b - a) (p - a) - dot (b - a) (c - a) := by rw [← dot_sub_right]; congr 1; abel
  have e6 : dot (c - a) (p - c) = dot (c - a) (p - a) - dot (c - a) (c - a) := by rw [← dot_sub_right]; congr 1; abel
  have hL := dot_self_nonneg (b - a)
  have hM := dot_self_nonneg (c - a)
  have hLM := cauchy (b - a) (c - a)
  have hL0 : dot (b - a) (b - a) = 0 → b - a = 0 := fun h => by
    by_contra h'; exact (dot_self_pos h').ne' h
  have hM0 : dot (c - a) (c - a) = 0 → c - a = 0 := fun h => by
    by_contra h'; exact (dot_self_pos h').ne' h
  have hd1 : dot (b - a) (b - a) = 0 → dot (b - a) (p - a) = 0 := fun h => by rw [hL0 h]; simp [dot]
  have hd2 : dot (c - a) (c - a) = 0 → dot (c - a) (p - a) = 0 := fun h => by rw [hM0 h]; simp [dot]
  have hK : dot (c - b) (c - b) = dot (b - a) (b - a) + dot (c - a) (c - a) - 2 * dot (b - a) (c - a) := by
    have : c - b = (c - a) - (b - a) := by abel
    rw [this]
    generalize c - a = u
    generalize b - a = v
    rw [dot_sub_left, dot_sub_right, dot_sub_right, dot_comm u v]; ring
  have hdeg : ∀ {P : Prop}, (a = b → ¬ (0 < dot (c - a) (p - a) ∧ dot (c - a) (p - a) < dot (c - a) (c - a))) → P →
      (¬ (a = b ∧ 0 < dot (c - a) (p - a) ∧ dot (c - a) (p - a) < dot (c - a) (c - a)) ∧ P) :=
    fun h h' => ⟨fun ⟨x, y⟩ => h x y, h'⟩
  simp only [pointTriangleClosest, e3, e4, e5, e6]
  have expand : ∀ (q : V) (v w s t : ℝ), q = a + v • (b - a) + w • (c - a) →
      dot (p - q) (a + s • (b - a) + t • (c - a) - q) =
        (s - v) * (dot (b - a) (p - a) - v * dot (b - a) (b - a) - w * dot (b - a) (c - a)) +
        (t - w) * (dot (c - a) (p - a) - v * dot (b - a) (c - a) - w * dot (c - a) (c - a)) := by
    rintro q v w s t rfl
    have h1 : p - (a + v • (b - a) + w • (c - a)) = (p - a) - (v • (b - a) + w • (c - a)) := by abel
    have h2 : a + s • (b - a) + t • (c - a) - (a + v • (b - a) + w • (c - a)) = (s - v) • (b - a) + (t - w) • (c - a) := by module
    rw [h1, h2]
    generalize p - a = z
    generalize c - a = u
    generalize b - a = x
    simp only [dot_add_right, dot_smul_right, dot_sub_left, dot_add_left, dot_smul_left]
    rw [dot_comm z x, dot_comm z u, dot_comm u x]; ring
  generalize hLe : dot (b - a) (b - a) = L at *
  generalize hMe : dot (c - a) (c - a) = M at *
  generalize hNe : dot (b - a) (c - a) = N at *
  generalize hd1e : dot (b - a) (p - a) = d1 at *
  generalize hd2e : dot (c - a) (p - a) = d2 at *
  have evc : d1 * (d2 - N) - (d1 - L) * d2 = L * d2 - N * d1 := by ring
  have evb : (d1 - N) * d2 - d1 * (d2 - M) = M * d1 - N * d2 := by ring
  have eva : (d1 - L) * (d2 - M) - (d1 - N) * (d2 - N) = (L * M - N ^ 2) - (M * d1 - N * d2) - (L * d2 - N * d1) := by ring
  simp only [evc, evb, eva]
  by_cases hA : d1 ≤ 0 ∧ d2 ≤ 0
  · rw [if_pos hA]
    refine Or.inr (hdeg (fun _ h => by linarith [h.1]) ⟨_, rfl, mem_triangle.2 ⟨0, 0, le_rfl, le_rfl, by norm_num, by module⟩, nearest_of ?_, ?_⟩)
    · intro s t hs ht hst
      rw [expand a 0 0 s t (by module)]
      nlinarith [mul_nonneg hs (neg_nonneg.2 hA.1), mul_nonneg ht (neg_nonneg.2 hA.2)]
    · rw [sqn, dot_self]
  rw [if_neg hA]
  by_cases hB : d1 - L ≥ 0 ∧ d2 - N ≤ d1 - L
  · rw [if_pos hB]
    refine Or.inr (hdeg ?_ ⟨_, rfl, mem_triangle.2 ⟨1, 0, by norm_num, le_rfl, by norm_num, by module⟩, nearest_of ?_, ?_⟩)
    · rintro hab ⟨h1, h2⟩
      subst hab
      have : L = 0 := by rw [← hLe]; simp [dot]
      have : N = 0 := by rw [← hNe]; simp [dot]
      have : d1 = 0 := by rw [← hd1e]; simp [dot]
      linarith [hB.2]
    · intro s t hs ht hst
      rw [expand b 1 0 s t (by module)]
      nlinarith [mul_nonneg ht (sub_nonneg.2 hB.2), mul_nonneg (sub_nonneg.2 hst) hB.1]
    · rw [sqn, dot_self]
  rw [if_neg hB]
  by_cases hC : d2 - M ≥ 0 ∧ d1 - N ≤ d2 - M
  · rw [if_pos hC]
    refine Or.inr (hdeg (fun _ h => by linarith [h.2, hC.1]) ⟨_, rfl, mem_triangle.2 ⟨0, 1, le_rfl, by norm_num, by norm_num, by module⟩, nearest_of ?_, ?_⟩)
    · intro s t hs ht hst
      rw [expand c 0 1 s t (by module)]
      nlinarith [mul_nonneg hs (sub_nonneg.2 hC.2), mul_nonneg (sub_nonneg.2 hst) hC.1]
    · rw [sqn, dot_self]
  rw [if_neg hC]
  by_cases hAB : L * d2 - N * d1 ≤ 0 ∧ d1 ≥ 0 ∧ d1 - L ≤ 0
  · rw [if_pos hAB]
    rcases eq_or_ne L 0 with hz | hz
    · have hab := hL0 hz
      have hd1 := hd1 hz
      left
      refine ⟨by rw [quot, if_pos (by linarith)]; rfl, (sub_eq_zero.1 hab).symm, ?_, ?_⟩
      · by_contra h; exact hA ⟨hd1.le, not_lt.1 h⟩
      · have : N = 0 := by rw [← hNe, hab]; simp [dot]
        by_contra h; exact hC ⟨by linarith, by linarith⟩
    · have hLp : 0 < L := lt_of_le_of_ne hL (Ne.symm hz)
      have hv0 : 0 ≤ d1 / L := div_nonneg hAB.2.1 hL
      have hv1 : d1 / L ≤ 1 := by rw [div_le_one hLp]; linarith [hAB.2.2]
      have hvL : d1 / L * L = d1 := div_mul_cancel₀ _ hz
      right
      rw [quot, if_neg (by rwa [sub_sub_cancel]), sub_sub_cancel]
      refine hdeg (fun h => ?_) ⟨_, rfl, mem_triangle.2 ⟨d1 / L, 0, hv0, le_rfl, by linarith, by module⟩, nearest_of ?_, ?_⟩
      · exact absurd (by rw [← hLe, h]; simp [dot]) hz
      · intro s t hs ht hst
        rw [expand _ (d1 / L) 0 s t (by module)]
        have h1 : d2 - d1 / L * N ≤ 0 := by
          have : L * (d2 - d1 / L * N) ≤ 0 := by
            have : L * (d2 - d1 / L * N) = L * d2 - (d1 / L * L) * N := by ring
            rw [this, hvL]; linarith [hAB.1]
          by_contra h
          nlinarith [mul_pos hLp (not_le.1 h)]
        rw [hvL]
        nlinarith [mul_nonneg ht (neg_nonneg.2 h1)]
      · dsimp only; rw [sqn, dot_self]; congr 2; module
  rw [if_neg hAB]
  have hnab : a ≠ b := by
    rintro rfl
    have h1 : L = 0 := by rw [← hLe]; simp [dot]
    have h2 : N = 0 := by rw [← hNe]; simp [dot]
    have h3 : d1 = 0 := by rw [← hd1e]; simp [dot]
    exact hAB ⟨by rw [h1, h2]; simp, h3.ge, by rw [h1, h3]; simp⟩
  right
  refine hdeg (fun h => absurd h hnab) ?_
  by_cases hAC : M * d1 - N * d2 ≤ 0 ∧ d2 ≥ 0 ∧ d2 - M ≤ 0
  · rw [if_pos hAC]
    have hz : M ≠ 0 := by
      intro hz
      have hac := hM0 hz
      have h2 := hd2 hz
      have hN : N = 0 := by rw [← hNe, hac]; simp [dot]
      have h1 : 0 < d1 := by by_contra h; exact hA ⟨not_lt.1 h, h2.le⟩
      have h3 : d1 - L < 0 := by by_contra h; exact hB ⟨not_lt.1 h, by linarith [not_lt.1 h]⟩
      exact hAB ⟨by rw [h2, hN]; simp, h1.le, h3.le⟩
    have hMp : 0 < M := lt_of_le_of_ne hM (Ne.symm hz)
    have hv0 : 0 ≤ d2 / M := div_nonneg hAC.2.1 hM
    have hv1 : d2 / M ≤ 1 := by rw [div_le_one hMp]; linarith [hAC.2.2]
    have hvM : d2 / M * M = d2 := div_mul_cancel₀ _ hz
    rw [quot, if_neg (by rwa [sub_sub_cancel]), sub_sub_cancel]
    refine ⟨_, rfl, mem_triangle.2 ⟨0, d2 / M, le_rfl, hv0, by linarith, by module⟩, nearest_of ?_, ?_⟩
    · intro s t hs ht hst
      rw [expand _ 0 (d2 / M) s t (by module)]
      have h1 : d1 - d2 / M * N ≤ 0 := by
        have : M * (d1 - d2 / M * N) ≤ 0 := by
          have : M * (d1 - d2 / M * N) = M * d1 - (d2 / M * M) * N := by ring
          rw [this, hvM]; linarith [hAC.1]
        by_contra h
        nlinarith [mul_pos hMp (not_le.1 h)]
      rw [hvM]
      nlinarith [mul_nonneg hs (neg_nonneg.2 h1)]
    · dsimp only; rw [sqn, dot_self]; congr 2; module
  rw [if_neg hAC]
  by_cases hBC : (L * M - N ^ 2) - (M * d1 - N * d2) - (L * d2 - N * d1) ≤ 0 ∧ (d2 - N) - (d1 - L) ≥ 0 ∧ (d1 - N) - (d2 - M) ≥ 0
  · rw [if_pos hBC]
    have hKe : (d2 - N - (d1 - L)) + (d1 - N - (d2 - M)) = dot (c - b) (c - b) := by rw [hK]; ring
    have hz : dot (c - b) (c - b) ≠ 0 := by
      intro hz
      have hcb : c = b := by
        by_contra h
        exact (dot_self_pos (sub_ne_zero.2 h)).ne' hz
      subst hcb
      have hLN : L = N := by rw [← hLe, ← hNe]
      have h12 : d1 = d2 := by rw [← hd1e, ← hd2e]
      have h1 : 0 < d1 := by by_contra h; exact hA ⟨not_lt.1 h, h12 ▸ not_lt.1 h⟩
      have h3 : d1 - L < 0 := by by_contra h; exact hB ⟨not_lt.1 h, by rw [h12, hLN]⟩
      exact hAB ⟨by rw [h12, hLN]; simp, h1.le, h3.le⟩
    rw [hKe, quot, if_neg hz]
    generalize hKK : dot (c - b) (c - b) = K at *
    have hKp : 0 < K := lt_of_le_of_ne (by rw [← hKK]; exact dot_self_nonneg _) (Ne.symm hz)
    have hv0 : 0 ≤ (d2 - N - (d1 - L)) / K := div_nonneg hBC.2.1 hKp.le
    have hv1 : (d2 - N - (d1 - L)) / K ≤ 1 := by rw [div_le_one hKp]; linarith [hBC.2.2]
    have hvK : (d2 - N - (d1 - L)) / K * K = d2 - N - (d1 - L) := div_mul_cancel₀ _ hz
    generalize hw : (d2 - N - (d1 - L)) / K = w at *
    refine ⟨_, rfl, mem_triangle.2 ⟨1 - w, w, by linarith, hv0, by linarith, by module⟩, nearest_of ?_, ?_⟩
    · intro s t hs ht hst
      rw [expand _ (1 - w) w s t (by module)]
      have h1 : 0 ≤ d1 - (1 - w) * L - w * N := by
        have : 0 ≤ K * (d1 - (1 - w) * L - w * N) := by
          have : K * (d1 - (1 - w) * L - w * N) = K * (d1 - L) + (w * K) * (L - N) := by ring
          rw [this, hvK]
          have : K * (d1 - L) + (d2 - N - (d1 - L)) * (L - N) = -((L * M - N ^ 2) - (M * d1 - N * d2) - (L * d2 - N * d1)) := by
            rw [hK]; ring
          rw [this]; linarith [hBC.1]
        exact (mul_nonneg_iff_of_pos_left hKp).1 this
      have h2 : d2 - (1 - w) * N - w * M = d1 - (1 - w) * L - w * N := by
        have : w * (L + M - 2 * N) = d2 - N - (d1 - L) := by rw [← hK]; exact hvK
        linear_combination -this
      rw [h2]
      have : (s - (1 - w)) * (d1 - (1 - w) * L - w * N) + (t - w) * (d1 - (1 - w) * L - w * N) =
        (s + t - 1) * (d1 - (1 - w) * L - w * N) := by ring
      rw [this]
      exact mul_nonpos_of_nonpos_of_nonneg (by linarith) h1
    · dsimp only; rw [sqn, dot_self]
  rw [if_neg hBC]
  have hvc := vc_pos hL hLM hd1 hA hB hC hAB hAC hBC
  have hvb : 0 < M * d1 - N * d2 := by
    refine vc_pos (L := M) (M := L) hM (by linarith) hd2 (fun h => hA h.symm) hC hB hAC hAB ?_
    intro h
    exact hBC ⟨by linarith [h.1], h.2.2, h.2.1⟩
  have hLp : 0 < L := by
    refine lt_of_le_of_ne hL fun h => hnab ?_
    exact (sub_eq_zero.1 (hL0 h.symm)).symm
  have hMp : 0 < M := by
    refine lt_of_le_of_ne hM fun h => ?_
    have hac := hM0 h.symm
    have hN : N = 0 := by rw [← hNe, hac]; simp [dot]
    rw [← h, hN] at hvb
    simp at hvb
  have hva := va_pos hLp hMp hLM hB hC hvc hvb hBC
  have hD : (L * M - N ^ 2) - (M * d1 - N * d2) - (L * d2 - N * d1) + (M * d1 - N * d2) + (L * d2 - N * d1) = L * M - N ^ 2 := by ring
  have hDp : 0 < L * M - N ^ 2 := by linarith
  rw [hD, quot, if_neg hDp.ne']
  refine ⟨_, rfl, mem_triangle.2 ⟨_, _, ?_, ?_, ?_, rfl⟩, nearest_of ?_, ?_⟩
  · positivity
  · positivity
  · rw [← add_mul, mul_one_div, div_le_one hDp]; linarith
  · intro s t hs ht hst
    rw [expand _ _ _ s t rfl]
    have h1 : d1 - (M * d1 - N * d2) * (1 / (L * M - N ^ 2)) * L - (L * d2 - N * d1) * (1 / (L * M - N ^ 2)) * N = 0 := by
      have e : (L * M - N ^ 2) * (1 / (L * M - N ^ 2)) = 1 := mul_one_div_cancel hDp.ne'
      generalize 1 / (L * M - N ^ 2) = k at e
      linear_combination (-d1) * e
    have h2 : d2 - (M * d1 - N * d2) * (1 / (L * M - N ^ 2)) * N - (L * d2 - N * d1) * (1 / (L * M - N ^ 2)) * M = 0 := by
      have e : (L * M - N ^ 2) * (1 / (L * M - N ^ 2)) = 1 := mul_one_div_cancel hDp.ne'
      generalize 1 / (L * M - N ^ 2) = k at e
      linear_combination (-d2) * e
    rw [h1, h2]; simp
  · dsimp only; rw [sqn, dot_self]

/-- Whenever the result is finite: `closest` is a point of the triangle, no point of the triangle is nearer, and the value returned is
the squared distance to it.  The triangle may be degenerate, `p` anywhere. -/
theorem C59_closest_is_nearest (p a b c : V) (r : Closest V) (h : pointTriangleClosest p a b c = some r) :
    r.closest ∈ convexHull ℝ ({a, b, c} : Set V) ∧ (∀ x ∈ convexHull ℝ ({a, b, c} : Set V), ‖p - r.closest‖ ≤ ‖p - x‖) ∧
      r.dist2 = ‖p - r.closest‖ ^ 2 := by
  rcases closest_cases p a b c with ⟨h', -⟩ | ⟨-, r', h', h1⟩
  · rw [h] at h'; cases h'
  · rw [h] at h'; cases h'; exact h1

/-- The result is not finite exactly when the first two corners coincide and the foot of the perpendicular from `p` on the line through
them and the third is strictly between the corners. -/
theorem C59_not_finite_iff (p a b c : V) :
    pointTriangleClosest p a b c = none ↔ a = b ∧ 0 < inner ℝ (c - a) (p - a) ∧ inner ℝ (c - a) (p - a) < ‖c - a‖ ^ 2 := by
  have e : ‖c - a‖ ^ 2 = dot (c - a) (c - a) := (dot_self _).symm
  rw [e]
  rcases closest_cases p a b c with ⟨h, h1⟩ | ⟨h, r, h1, -⟩
  · exact ⟨fun _ => h1, fun _ => h⟩
  · rw [h1]
    exact ⟨fun h' => by simp at h', fun h' => absurd h' h⟩

/-- For a triangle whose first two corners differ: the squared distance of `p` to the triangle. -/
theorem C59_distance (p a b c : V) (h : a ≠ b) :
    pointTriangleDist2 p a b c = some (Metric.infDist p (convexHull ℝ ({a, b, c} : Set V)) ^ 2) := by
  have hn : pointTriangleClosest p a b c ≠ none := fun h' => h ((C59_not_finite_iff p a b c).1 h').1
  obtain ⟨r, hr⟩ := Option.ne_none_iff_exists'.1 hn
  obtain ⟨h1, h2, h3⟩ := C59_closest_is_nearest p a b c r hr
  rw [pointTriangleDist2, hr]
  simp only [Option.map_some, Option.some.injEq]
  rw [h3]
  congr 1
  apply le_antisymm
  · rw [Metric.le_infDist ⟨_, h1⟩]
    intro y hy
    rw [dist_eq_norm]; exact h2 y hy
  · rw [← dist_eq_norm]
    exact Metric.infDist_le_dist_of_mem h1

/-- The nearest point is the only one: `closest` does not depend on the order in which the corners are given (when both orders give a
finite result). -/
theorem C59_closest_independent_of_corner_order (p a b c a' b' c' : V) (r r' : Closest V)
    (hperm : ({a, b, c} : Set V) = {a', b', c'}) (h : pointTriangleClosest p a b c = some r) (h' : pointTriangleClosest p a' b' c' = some r') :
    r = r' := by
  obtain ⟨h1, h2, h3⟩ := C59_closest_is_nearest p a b c r h
  obtain ⟨h1', h2', h3'⟩ := C59_closest_is_nearest p a' b' c' r' h'
  rw [← hperm] at h1' h2'
  have e : ‖p - r.closest‖ = ‖p - r'.closest‖ := le_antisymm (h2 _ h1') (h2' _ h1)
  have hm : (1 / 2 : ℝ) • r.closest + (1 / 2 : ℝ) • r'.closest ∈ convexHull ℝ ({a, b, c} : Set V) :=
    convex_convexHull ℝ _ h1 h1' (by norm_num) (by norm_num) (by norm_num)
  have h4 := h2 _ hm
  have hp := parallelogram_law_with_norm ℝ (p - r.closest) (p - r'.closest)
  have e1 : p - r.closest + (p - r'.closest) = (2 : ℝ) • (p - ((1 / 2 : ℝ) • r.closest + (1 / 2 : ℝ) • r'.closest)) := by module
  have e2 : p - r.closest - (p - r'.closest) = r'.closest - r.closest := by abel
  rw [e1, e2, norm_smul, ← e] at hp
  have : ‖(2 : ℝ)‖ = 2 := by norm_num
  rw [this] at hp
  have hz : ‖r'.closest - r.closest‖ = 0 := by
    have h0 := norm_nonneg (r'.closest - r.closest)
    have h5 := norm_nonneg (p - r.closest)
    nlinarith [mul_self_le_mul_self h5 h4]
  have hc : r'.closest = r.closest := sub_eq_zero.1 (norm_eq_zero.1 hz)
  cases r; cases r'
  simp only at hc h3 h3' e
  subst hc
  rw [h3, h3']

/-- The interior case, in the plane. -/
example : pointTriangleClosest (⟨1 / 4, 1 / 4⟩ : ℂ) 0 1 Complex.I = some ⟨0, ⟨1 / 4, 1 / 4⟩⟩ := by
  obtain ⟨r, hr⟩ := Option.ne_none_iff_exists'.1
    (fun h => absurd ((C59_not_finite_iff (⟨1 / 4, 1 / 4⟩ : ℂ) 0 1 Complex.I).1 h).1 (by simp))
  obtain ⟨h1, h2, h3⟩ := C59_closest_is_nearest _ _ _ _ r hr
  have h4 := h2 (⟨1 / 4, 1 / 4⟩ : ℂ) (mem_triangle.2 ⟨1 / 4, 1 / 4, by norm_num, by norm_num, by norm_num, by
    apply Complex.ext <;> simp⟩)
  rw [sub_self, norm_zero] at h4
  have h5 : r.closest = (⟨1 / 4, 1 / 4⟩ : ℂ) := (sub_eq_zero.1 (norm_le_zero_iff.1 h4)).symm
  rw [hr]
  cases r
  simp only at h3 h5
  subst h5
  simp [h3]

/-- Corners that coincide: on the line, `a = b = 0`, `c = 2`, `p = 1`. -/
example : pointTriangleClosest (1 : ℝ) 0 0 2 = none := by
  rw [C59_not_finite_iff]
  norm_num

/-- ... although with the corners given in another order the result is finite (and so the nearest point). -/
example : pointTriangleDist2 (1 : ℝ) 0 2 0 = some 0 := by
  rw [C59_distance _ _ _ _ (by norm_num), Metric.infDist_zero_of_mem]
  · norm_num
  · exact mem_triangle.2 ⟨1 / 2, 0, by norm_num, le_rfl, by norm_num, by norm_num⟩

end Verif.ClosestPoint
