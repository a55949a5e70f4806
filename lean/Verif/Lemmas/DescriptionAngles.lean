import Verif.Lemmas.Description
import Mathlib.Tactic.FinCases
import Mathlib.LinearAlgebra.Matrix.Notation
import Mathlib.Analysis.SpecialFunctions.Trigonometric.Basic

/-!
# Normalising the angles keeps the axes
-/

namespace Verif.Description

open Verif

/-- cosine and sine of degrees -/
noncomputable def cd (x : ℝ) : ℝ := Real.cos (x * (Real.pi / 180))
noncomputable def sd (x : ℝ) : ℝ := Real.sin (x * (Real.pi / 180))

theorem cd_neg (x : ℝ) : cd (-x) = cd x := by unfold cd; rw [neg_mul, Real.cos_neg]
theorem sd_neg (x : ℝ) : sd (-x) = -sd x := by unfold sd; rw [neg_mul, Real.sin_neg]
theorem cd_add (x : ℝ) : cd (x + 180) = -cd x := by
  unfold cd; rw [show (x + 180) * (Real.pi / 180) = x * (Real.pi / 180) + Real.pi by ring, Real.cos_add_pi]
theorem sd_add (x : ℝ) : sd (x + 180) = -sd x := by
  unfold sd; rw [show (x + 180) * (Real.pi / 180) = x * (Real.pi / 180) + Real.pi by ring, Real.sin_add_pi]
theorem cd_half (x : ℝ) : cd (180 - x) = -cd x := by
  rw [show (180 - x : ℝ) = -x + 180 by ring, cd_add, cd_neg]
theorem sd_half (x : ℝ) : sd (180 - x) = sd x := by
  rw [show (180 - x : ℝ) = -x + 180 by ring, sd_add, sd_neg, neg_neg]
theorem cd_full (x : ℝ) : cd (360 - x) = cd x := by
  rw [show (360 - x : ℝ) = (-x + 180) + 180 by ring, cd_add, cd_add, cd_neg, neg_neg]
theorem sd_full (x : ℝ) : sd (360 - x) = -sd x := by
  rw [show (360 - x : ℝ) = (-x + 180) + 180 by ring, sd_add, sd_add, sd_neg, neg_neg]
theorem cd_int (x : ℝ) (k : ℤ) : cd (x - k * 180) = (-1) ^ k * cd x := by
  unfold cd; rw [show (x - k * 180) * (Real.pi / 180) = x * (Real.pi / 180) - k * Real.pi by ring, Real.cos_sub_int_mul_pi]
theorem sd_int (x : ℝ) (k : ℤ) : sd (x - k * 180) = (-1) ^ k * sd x := by
  unfold sd; rw [show (x - k * 180) * (Real.pi / 180) = x * (Real.pi / 180) - k * Real.pi by ring, Real.sin_sub_int_mul_pi]
theorem sign_int (k : ℤ) : ((-1 : ℝ) ^ k = 1 ∨ (-1 : ℝ) ^ k = -1) := by
  rcases Int.even_or_odd k with h | h
  · left; exact h.neg_one_zpow
  · right; exact h.neg_one_zpow
theorem cd_int2 (x : ℝ) (k : ℤ) : cd (x - k * 360) = cd x := by
  rw [show x - k * 360 = x - ((2 * k : ℤ) : ℝ) * 180 by push_cast; ring, cd_int, (even_two_mul k).neg_one_zpow, one_mul]
theorem sd_int2 (x : ℝ) (k : ℤ) : sd (x - k * 360) = sd x := by
  rw [show x - k * 360 = x - ((2 * k : ℤ) : ℝ) * 180 by push_cast; ring, sd_int, (even_two_mul k).neg_one_zpow, one_mul]

/-! ## Remainders -/

theorem fmod_eq (x y : ℝ) : ∃ k : ℤ, fmod x y = x - k * y := ⟨_, rfl⟩

theorem fmod_bounds (x : ℝ) {y : ℝ} (hy : 0 < y) : -y < fmod x y ∧ fmod x y < y := by
  unfold fmod
  have hx : x = x / y * y := (div_mul_cancel₀ x hy.ne').symm
  generalize x / y = t at hx
  subst hx
  split
  · have h1 := Int.floor_le t
    have h2 := Int.lt_floor_add_one t
    constructor <;> nlinarith
  · have h1 := Int.le_ceil t
    have h2 := Int.ceil_lt_add_one t
    constructor <;> nlinarith

theorem wrap_eq (x y : ℝ) : ∃ k : ℤ, wrap y x = x - k * y := by
  obtain ⟨k, h⟩ := fmod_eq x y
  unfold wrap
  dsimp only
  split
  · exact ⟨k - 1, by rw [h]; push_cast; ring⟩
  · exact ⟨k, h⟩

theorem wrap_bounds (x : ℝ) {y : ℝ} (hy : 0 < y) : 0 ≤ wrap y x ∧ wrap y x < y := by
  obtain ⟨h1, h2⟩ := fmod_bounds x hy
  unfold wrap
  dsimp only
  split <;> constructor <;> linarith

/-! ## Axes -/

/-- The same axes: the columns of `p` are those of `r`, or their opposites. -/
def SameAxes {d : Nat} (p r : Matrix (Fin d) (Fin d) ℝ) : Prop := ∃ s : Fin d → ℝ, (∀ j, s j * s j = 1) ∧ ∀ i j, p i j = r i j * s j

theorem SameAxes.refl {d : Nat} (r : Matrix (Fin d) (Fin d) ℝ) : SameAxes r r := ⟨fun _ => 1, by simp, by simp⟩

theorem SameAxes.trans {d : Nat} {p q r : Matrix (Fin d) (Fin d) ℝ} (h1 : SameAxes p q) (h2 : SameAxes q r) : SameAxes p r := by
  obtain ⟨s, a1, a2⟩ := h1
  obtain ⟨t, b1, b2⟩ := h2
  refine ⟨fun j => t j * s j, fun j => ?_, fun i j => by rw [a2, b2]; ring⟩
  linear_combination (s j * s j) * b1 j + a1 j

theorem SameAxes.square {d : Nat} {p r : Matrix (Fin d) (Fin d) ℝ} (h : SameAxes p r) (v w : Fin d → ℝ) :
    ∑ i, ((∑ j, p j i * v j) / w i) ^ 2 = ∑ i, ((∑ j, r j i * v j) / w i) ^ 2 := by
  obtain ⟨s, h1, h2⟩ := h
  refine Finset.sum_congr rfl fun i _ => ?_
  have : (∑ j, p j i * v j) = s i * ∑ j, r j i * v j := by
    rw [Finset.mul_sum]
    exact Finset.sum_congr rfl fun j _ => by rw [h2]; ring
  rw [this, mul_div_assoc, mul_pow, show s i ^ 2 = 1 by rw [sq]; exact h1 i, one_mul]

/-- the rotation of the angles of the table -/
noncomputable def eul (a : ℝ × ℝ × ℝ) : Matrix (Fin 3) (Fin 3) ℝ := rz (-a.1) * rx (-a.2.1) * rz (-a.2.2)

theorem eul_eq (a : ℝ × ℝ × ℝ) : eul a = !![cd a.1 * cd a.2.2 - sd a.1 * cd a.2.1 * sd a.2.2, cd a.1 * sd a.2.2 + sd a.1 * cd a.2.1 * cd a.2.2, sd a.1 * sd a.2.1;
    -sd a.1 * cd a.2.2 - cd a.1 * cd a.2.1 * sd a.2.2, -sd a.1 * sd a.2.2 + cd a.1 * cd a.2.1 * cd a.2.2, cd a.1 * sd a.2.1;
    sd a.2.1 * sd a.2.2, -sd a.2.1 * cd a.2.2, cd a.2.1] := by
  have hz : ∀ x, rz (-x) = !![cd x, sd x, 0; -sd x, cd x, 0; 0, 0, 1] := fun x => by
    rw [← cd_neg x, ← neg_neg (sd x), ← sd_neg x]
    unfold rz cd sd
    rw [neg_neg]
  have hx : ∀ x, rx (-x) = !![1, 0, 0; 0, cd x, sd x; 0, -sd x, cd x] := fun x => by
    rw [← cd_neg x, ← neg_neg (sd x), ← sd_neg x]
    unfold rx cd sd
    rw [neg_neg]
  unfold eul
  rw [hz, hx, hz]
  ext i j
  fin_cases i <;> fin_cases j <;> simp [Matrix.mul_apply, Fin.sum_univ_three] <;> ring

theorem same_of_entries {a b : ℝ × ℝ × ℝ} (s : Fin 3 → ℝ) (hs : ∀ j, s j * s j = 1)
    (h : ∀ i j, eul a i j = eul b i j * s j) : SameAxes (eul a) (eul b) := ⟨s, hs, h⟩

theorem turn_neg (a : ℝ × ℝ × ℝ) : SameAxes (eul (a.1 + 180, -a.2.1, a.2.2)) (eul a) := by
  refine ⟨![-1, -1, 1], fun j => by fin_cases j <;> simp, fun i j => ?_⟩
  rw [eul_eq, eul_eq]
  simp only [cd_add, sd_add, cd_neg, sd_neg]
  fin_cases i <;> fin_cases j <;> simp <;> ring

theorem turn1_same (a : ℝ × ℝ × ℝ) : SameAxes (eul (turn1 a)) (eul a) := by
  unfold turn1
  split
  · exact turn_neg a
  · exact .refl _

theorem turn2_same (a : ℝ × ℝ × ℝ) : SameAxes (eul (turn2 a)) (eul a) := by
  unfold turn2
  split
  · refine ⟨![-1, -1, 1], fun j => by fin_cases j <;> simp, fun i j => ?_⟩
    rw [eul_eq, eul_eq]
    simp only [cd_add, sd_add, cd_full, sd_full]
    fin_cases i <;> fin_cases j <;> simp <;> ring
  · exact .refl _

theorem turn3_same (a : ℝ × ℝ × ℝ) : SameAxes (eul (turn3 a)) (eul a) := by
  unfold turn3
  split
  · refine ⟨![-1, 1, -1], fun j => by fin_cases j <;> simp, fun i j => ?_⟩
    rw [eul_eq, eul_eq]
    simp only [cd_add, sd_add, cd_half, sd_half, cd_neg, sd_neg]
    fin_cases i <;> fin_cases j <;> simp <;> ring
  · exact .refl _

theorem wrap_same (a : ℝ × ℝ × ℝ) : SameAxes (eul (wrap 360 a.1, a.2.1, wrap 180 a.2.2)) (eul a) := by
  obtain ⟨k, hk⟩ := wrap_eq a.1 360
  obtain ⟨l, hl⟩ := wrap_eq a.2.2 180
  rw [hk, hl]
  have hs : ((-1 : ℝ) ^ l) * (-1) ^ l = 1 := by rcases sign_int l with h | h <;> rw [h] <;> norm_num
  refine ⟨![(-1) ^ l, (-1) ^ l, 1], fun j => by fin_cases j <;> simp [hs], fun i j => ?_⟩
  rw [eul_eq, eul_eq]
  simp only [cd_int2, sd_int2, cd_int, sd_int]
  fin_cases i <;> fin_cases j <;> simp <;> ring

theorem fmod_same (x y z : ℝ) : SameAxes (eul (x, fmod y 360, z)) (eul (x, y, z)) := by
  obtain ⟨k, hk⟩ := fmod_eq y 360
  rw [hk, eul_eq, eul_eq]
  simp only [cd_int2, sd_int2]
  exact .refl _

theorem normalise_same (e : ℝ × ℝ × ℝ) : SameAxes (eul (normalise e)) (eul (-e.1 / deg, -e.2.1 / deg, -e.2.2 / deg)) := by
  unfold normalise
  dsimp only
  exact (wrap_same _).trans ((turn3_same _).trans ((turn2_same _).trans ((turn1_same _).trans (fmod_same _ _ _))))

theorem normalise_bounds (e : ℝ × ℝ × ℝ) : (0 ≤ (normalise e).1 ∧ (normalise e).1 < 360) ∧ (0 ≤ (normalise e).2.1 ∧ (normalise e).2.1 ≤ 90) ∧
    0 ≤ (normalise e).2.2 ∧ (normalise e).2.2 < 180 := by
  unfold normalise
  dsimp only
  refine ⟨wrap_bounds _ (by norm_num), ?_, wrap_bounds _ (by norm_num)⟩
  obtain ⟨h1, h2⟩ := fmod_bounds (-e.2.1 / deg) (y := 360) (by norm_num)
  generalize fmod (-e.2.1 / deg) 360 = x at h1 h2
  have a1 : 0 ≤ (turn1 (-e.1 / deg, x, -e.2.2 / deg)).2.1 ∧ (turn1 (-e.1 / deg, x, -e.2.2 / deg)).2.1 < 360 := by
    unfold turn1
    split
    · rename_i h; dsimp only at h ⊢; constructor <;> linarith
    · rename_i h; dsimp only at h ⊢; constructor <;> linarith
  generalize turn1 (-e.1 / deg, x, -e.2.2 / deg) = b at a1
  have a2 : 0 ≤ (turn2 b).2.1 ∧ (turn2 b).2.1 ≤ 180 := by
    unfold turn2
    split
    · rename_i h; dsimp only at h ⊢; constructor <;> linarith
    · rename_i h; constructor <;> linarith
  generalize turn2 b = c at a2
  unfold turn3
  split
  · rename_i h; dsimp only at h ⊢; constructor <;> linarith
  · rename_i h; constructor <;> linarith

end Verif.Description
