import Verif.Spec.FmmBox
import Verif.Props.Bbox
import Mathlib.Tactic.NormNum
import Mathlib.Algebra.Order.BigOperators.Group.Finset

/-!
# The transformed box and the cube around it
-/

namespace Verif.FmmBox

open Verif Verif.Bbox

variable {d : Nat}

/-- half the width of the transformed box -/
noncomputable def half (t : Matrix (Fin d) (Fin d) ℝ) (lo hi : Fin d → ℝ) (k : Fin d) : ℝ := ∑ j, |t k j| * ((hi j - lo j) / 2)

theorem mulVec_center (t : Matrix (Fin d) (Fin d) ℝ) (lo hi p : Fin d → ℝ) (k : Fin d) :
    t.mulVec p k - t.mulVec (center lo hi) k = ∑ j, t k j * (p j - center lo hi j) := by
  simp only [Matrix.mulVec, dotProduct]
  rw [← Finset.sum_sub_distrib]
  exact Finset.sum_congr rfl fun j _ => by ring

theorem fin_inj {a b : ℝ} : Dbl.fin a = Dbl.fin b ↔ a = b := by
  unfold Dbl.fin
  rw [Option.some_inj, EReal.coe_eq_coe_iff]

theorem abs_mulVec (t : Matrix (Fin d) (Fin d) ℝ) (lo hi p : Fin d → ℝ) (k : Fin d) :
    |t.mulVec p k - t.mulVec (center lo hi) k| ≤ ∑ j, |t k j| * |p j - center lo hi j| := by
  rw [mulVec_center]
  refine (Finset.abs_sum_le_sum_abs _ _).trans (le_of_eq ?_)
  exact Finset.sum_congr rfl fun j _ => abs_mul _ _

/-- the bounds of the transformed box -/
theorem transform_eq (t : Matrix (Fin d) (Fin d) ℝ) {lo hi : Fin d → ℝ} (hle : ∀ j, lo j ≤ hi j) :
    (finite lo hi).transform t = finite (fun k => t.mulVec (center lo hi) k - half t lo hi k) fun k => t.mulVec (center lo hi) k + half t lo hi k := by
  rw [transform_finite]
  obtain ⟨l, u, h, h1, h2⟩ := fromPoints_mk ((cornerPoints lo hi).map t.mulVec)
  rw [h]
  have hcorner : ∀ c ∈ cornerPoints lo hi, ∀ j, |c j - center lo hi j| = (hi j - lo j) / 2 := by
    intro c hc j
    have hw : 0 ≤ (hi j - lo j) / 2 := by have := hle j; linarith
    rcases ((C39_corners lo hi).2 c).1 hc j with e | e
    · rw [e]
      unfold center
      rw [show lo j - (lo j + (hi j - lo j) / 2) = -((hi j - lo j) / 2) by ring, abs_neg, abs_of_nonneg hw]
    · rw [e]
      unfold center
      rw [show hi j - (lo j + (hi j - lo j) / 2) = (hi j - lo j) / 2 by ring, abs_of_nonneg hw]
  have hbound : ∀ c ∈ cornerPoints lo hi, ∀ k, |t.mulVec c k - t.mulVec (center lo hi) k| ≤ half t lo hi k := by
    intro c hc k
    refine (abs_mulVec t lo hi c k).trans (le_of_eq ?_)
    exact Finset.sum_congr rfl fun j _ => by rw [hcorner c hc j]
  have hlow : ∀ k, l k = ((t.mulVec (center lo hi) k - half t lo hi k : ℝ) : EReal) := by
    intro k
    apply le_antisymm
    · have hmem := ((C39_corners lo hi).2 (fun j => if 0 ≤ t k j then lo j else hi j)).2 (fun j => by by_cases ht : 0 ≤ t k j <;> simp [ht])
      refine le_trans ((h1 k (l k)).1 (le_refl _) _ (List.mem_map_of_mem hmem)) (EReal.coe_le_coe_iff.2 (le_of_eq ?_))
      have := mulVec_center t lo hi (fun j => if 0 ≤ t k j then lo j else hi j) k
      have e : ∑ j, t k j * ((if 0 ≤ t k j then lo j else hi j) - center lo hi j) = -half t lo hi k := by
        unfold half center
        rw [← Finset.sum_neg_distrib]
        refine Finset.sum_congr rfl fun j _ => ?_
        split
        · rename_i ht; rw [abs_of_nonneg ht]; ring
        · rename_i ht; rw [abs_of_neg (not_le.1 ht)]; ring
      rw [e] at this
      linarith
    · refine (h1 k _).2 fun q hq => ?_
      obtain ⟨c, hc, rfl⟩ := List.mem_map.1 hq
      have := (abs_le.1 (hbound c hc k)).1
      exact EReal.coe_le_coe_iff.2 (by linarith)
  have hup : ∀ k, u k = ((t.mulVec (center lo hi) k + half t lo hi k : ℝ) : EReal) := by
    intro k
    apply le_antisymm
    · refine (h2 k _).2 fun q hq => ?_
      obtain ⟨c, hc, rfl⟩ := List.mem_map.1 hq
      have := (abs_le.1 (hbound c hc k)).2
      exact EReal.coe_le_coe_iff.2 (by linarith)
    · have hmem := ((C39_corners lo hi).2 (fun j => if 0 ≤ t k j then hi j else lo j)).2 (fun j => by by_cases ht : 0 ≤ t k j <;> simp [ht])
      refine le_trans (EReal.coe_le_coe_iff.2 (le_of_eq ?_)) ((h2 k (u k)).1 (le_refl _) _ (List.mem_map_of_mem hmem))
      have := mulVec_center t lo hi (fun j => if 0 ≤ t k j then hi j else lo j) k
      have e : ∑ j, t k j * ((if 0 ≤ t k j then hi j else lo j) - center lo hi j) = half t lo hi k := by
        unfold half center
        refine Finset.sum_congr rfl fun j _ => ?_
        split
        · rename_i ht; rw [abs_of_nonneg ht]; ring
        · rename_i ht; rw [abs_of_neg (not_le.1 ht)]; ring
      rw [e] at this
      linarith
  ext1
  · funext k; show some (l k) = _; rw [hlow k]; rfl
  · funext k; show some (u k) = _; rw [hup k]; rfl

theorem sub_fin (a b : ℝ) : sub (Dbl.fin a) (Dbl.fin b) = Dbl.fin (a - b) := by
  unfold sub
  rw [mul_fin, add_fin]
  congr 1
  ring

theorem foldl_max_fin (v : Fin d → ℝ) : ∀ (l : List (Fin d)) (x : ℝ), ∃ m, l.foldl (fun m i => Dbl.max m (Dbl.fin (v i))) (Dbl.fin x) = Dbl.fin m ∧ x ≤ m ∧
    (∀ i ∈ l, v i ≤ m) ∧ (m = x ∨ ∃ i ∈ l, m = v i)
  | [], x => ⟨x, rfl, le_refl _, by simp, Or.inl rfl⟩
  | j :: l, x => by
    have e : Dbl.max (Dbl.fin x) (Dbl.fin (v j)) = Dbl.fin (max x (v j)) := by
      show Dbl.max (some _) (some _) = some _
      rw [max_some]
      congr 1
    obtain ⟨m, h, h0, h1, h2⟩ := foldl_max_fin v l (max x (v j))
    refine ⟨m, by rw [List.foldl_cons, e, h], (le_max_left _ _).trans h0, ?_, ?_⟩
    · intro i hi
      rcases List.mem_cons.1 hi with rfl | hi
      · exact (le_max_right _ _).trans h0
      · exact h1 i hi
    · rcases h2 with h2 | ⟨i, hi, h2⟩
      · rcases max_choice x (v j) with e | e
        · exact Or.inl (h2.trans e)
        · exact Or.inr ⟨j, List.mem_cons_self, h2.trans e⟩
      · exact Or.inr ⟨i, List.mem_cons_of_mem _ hi, h2⟩

theorem maxCoeff_fin (hd : 0 < d) (v : Fin d → ℝ) : ∃ m, maxCoeff (fun j => Dbl.fin (v j)) = Dbl.fin m ∧ (∀ i, v i ≤ m) ∧ ∃ i, m = v i := by
  unfold maxCoeff
  have hall : ∀ i, i ∈ List.finRange d := List.mem_finRange
  generalize List.finRange d = l at hall
  cases l with
  | nil => exact absurd (hall ⟨0, hd⟩) (by simp)
  | cons j l =>
    obtain ⟨m, h, h0, h1, h2⟩ := foldl_max_fin v l (v j)
    refine ⟨m, h, fun i => ?_, ?_⟩
    · rcases List.mem_cons.1 (hall i) with rfl | hi
      · exact h0
      · exact h1 i hi
    · rcases h2 with h2 | ⟨i, -, h2⟩
      · exact ⟨j, h2⟩
      · exact ⟨i, h2⟩

/-- the cube of a finite box -/
theorem makeBox_eq (hd : 0 < d) (t : Matrix (Fin d) (Fin d) ℝ) {lo hi : Fin d → ℝ} (hle : ∀ j, lo j ≤ hi j) :
    ∃ w, (makeBox t (finite lo hi)).width = Dbl.fin w ∧ (∀ k, (makeBox t (finite lo hi)).center k = Dbl.fin (t.mulVec (center lo hi) k)) ∧ 0 < w ∧
      (∀ k, 1.01 * (2 * half t lo hi k) ≤ w) ∧ ((∃ k, w = 1.01 * (2 * half t lo hi k)) ∨ (w = 1 ∧ ∀ k, half t lo hi k = 0)) := by
  have hh : ∀ k, 0 ≤ half t lo hi k := fun k => Finset.sum_nonneg fun j _ => mul_nonneg (abs_nonneg _) (by have := hle j; linarith)
  have hw : width ((finite lo hi).transform t) = fun k => Dbl.fin (2 * half t lo hi k) := by
    rw [transform_eq t hle]
    funext k
    unfold width
    show sub (Dbl.fin _) (Dbl.fin _) = _
    rw [sub_fin]
    congr 1
    ring
  have hc : ∀ k, centerOf ((finite lo hi).transform t) k = Dbl.fin (t.mulVec (center lo hi) k) := by
    intro k
    unfold centerOf
    rw [hw, transform_eq t hle]
    show (Dbl.fin _).add ((Dbl.fin _).mul (Dbl.fin _)) = _
    rw [mul_fin, add_fin]
    congr 1
    ring
  obtain ⟨m, hm, hm1, i, hm2⟩ := maxCoeff_fin hd fun k => 2 * half t lo hi k
  have hm0 : 0 ≤ m := by rw [hm2]; have := hh i; linarith
  unfold makeBox
  dsimp only
  rw [hw, hm, mul_fin]
  by_cases h0 : (1.01 : ℝ) * m = 0
  · have hm0' : m = 0 := by
      rcases mul_eq_zero.1 h0 with h | h
      · norm_num at h
      · exact h
    have hz : ∀ k, half t lo hi k = 0 := fun k => le_antisymm (by have := hm1 k; rw [hm0'] at this; linarith) (hh k)
    refine ⟨1, by rw [h0, if_pos rfl], hc, one_pos, fun k => ?_, Or.inr ⟨rfl, hz⟩⟩
    rw [hz k]; norm_num
  · refine ⟨1.01 * m, by rw [if_neg (fun h => h0 (fin_inj.1 h))], hc, lt_of_le_of_ne (by positivity) (Ne.symm h0), fun k => ?_, Or.inl ⟨i, by rw [hm2]⟩⟩
    have := hm1 k
    nlinarith

/-- a point of the box widened by less than half a percent is inside -/
theorem inside_of (hd : 0 < d) (t : Matrix (Fin d) (Fin d) ℝ) {lo hi : Fin d → ℝ} (hle : ∀ j, lo j ≤ hi j) {p : Fin d → ℝ}
    (hp : ∀ j, |p j - center lo hi j| ≤ (hi j - lo j) / 2 ∨ |p j - center lo hi j| < 1.01 * ((hi j - lo j) / 2)) :
    (makeBox t (finite lo hi)).Inside (t.mulVec p) := by
  obtain ⟨w, hw, hc, h0, h1, -⟩ := makeBox_eq hd t hle
  refine ⟨w, _, hw, hc, h0, fun k => ?_⟩
  refine lt_of_le_of_lt (abs_mulVec t lo hi p k) ?_
  have hterm : ∀ j, |t k j| * |p j - center lo hi j| ≤ 1.01 * (|t k j| * ((hi j - lo j) / 2)) := by
    intro j
    have hj := hle j
    have h := abs_nonneg (t k j)
    rcases hp j with h' | h' <;> nlinarith
  have hsum : 1.01 * half t lo hi k = ∑ j, 1.01 * (|t k j| * ((hi j - lo j) / 2)) := by
    unfold half
    rw [Finset.mul_sum]
  have hk := h1 k
  by_cases he : ∃ j, |t k j| * |p j - center lo hi j| < 1.01 * (|t k j| * ((hi j - lo j) / 2))
  · obtain ⟨j, hj⟩ := he
    have := Finset.sum_lt_sum (s := Finset.univ) (fun i _ => hterm i) ⟨j, Finset.mem_univ j, hj⟩
    rw [← hsum] at this
    linarith
  · have hz : ∀ j, |t k j| * |p j - center lo hi j| = 0 := by
      intro j
      by_contra hne
      have hpos : 0 < |t k j| * |p j - center lo hi j| := lt_of_le_of_ne (mul_nonneg (abs_nonneg _) (abs_nonneg _)) (Ne.symm hne)
      have ht : 0 < |t k j| := by
        rcases (abs_nonneg (t k j)).lt_or_eq with h | h
        · exact h
        · rw [← h, zero_mul] at hpos; exact absurd hpos (lt_irrefl _)
      have hpj : 0 < |p j - center lo hi j| := by
        rcases (abs_nonneg (p j - center lo hi j)).lt_or_eq with h | h
        · exact h
        · rw [← h, mul_zero] at hpos; exact absurd hpos (lt_irrefl _)
      apply he
      refine ⟨j, ?_⟩
      rcases hp j with h' | h' <;> nlinarith
    rw [Finset.sum_eq_zero fun j _ => hz j]
    linarith

end Verif.FmmBox
