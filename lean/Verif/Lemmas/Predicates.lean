import Verif.Model.Predicates
import Verif.Spec.Geometry
import Mathlib.Tactic.Linarith
import Mathlib.Tactic.LinearCombination
import Mathlib.Tactic.Positivity
import Mathlib.Tactic.FieldSimp
import Mathlib.Data.Fintype.Basic
import Mathlib.Data.Finset.Max

/-! # Lemmas about the geometric predicates -/

namespace Verif.Predicates

open Verif MeshDefects Geometry

/-- Moving in a direction in which some coordinate decreases, a first one reaches zero. -/
theorem exit {ι : Type} [Fintype ι] (c d : ι → ℝ) (hc : ∀ i, 0 ≤ c i) (hd : ∃ i, d i < 0) :
    ∃ τ : ℝ, 0 ≤ τ ∧ ∃ i, d i < 0 ∧ c i + τ * d i = 0 ∧ ∀ k, 0 ≤ c k + τ * d k := by
  classical
  obtain ⟨i0, h0⟩ := hd
  obtain ⟨i, hi, hmin⟩ := Finset.exists_min_image (Finset.univ.filter fun i => d i < 0) (fun i => c i / (-d i))
    ⟨i0, by simp [h0]⟩
  simp only [Finset.mem_filter, Finset.mem_univ, true_and] at hi hmin
  have hτ : 0 ≤ c i / (-d i) := div_nonneg (hc i) (by linarith)
  refine ⟨c i / (-d i), hτ, i, hi, ?_, ?_⟩
  · have : d i ≠ 0 := ne_of_lt hi
    field_simp
    ring
  · intro k
    by_cases hk : d k < 0
    · have := hmin k hk
      rw [le_div_iff₀ (by linarith)] at this
      linarith
    · have : 0 ≤ c i / (-d i) * d k := mul_nonneg hτ (by linarith)
      linarith [hc k]

/-- The segment from `a` to `b` and the one from `p` to `q` meet. -/
def Meet2 (a b p q : ℝ × ℝ) : Prop :=
  ∃ s t u v : ℝ, 0 ≤ s ∧ 0 ≤ t ∧ s + t = 1 ∧ 0 ≤ u ∧ 0 ≤ v ∧ u + v = 1 ∧
    s * a.1 + t * b.1 = u * p.1 + v * q.1 ∧ s * a.2 + t * b.2 = u * p.2 + v * q.2

theorem meet_of_zero {a b : ℝ × ℝ} {V : Fin 3 → ℝ × ℝ} {s t : ℝ} {w : Fin 3 → ℝ} (hs : 0 ≤ s) (ht : 0 ≤ t) (hst : s + t = 1)
    (hw : ∀ i, 0 ≤ w i) (hsum : w 0 + w 1 + w 2 = 1) (h1 : s * a.1 + t * b.1 = w 0 * (V 0).1 + w 1 * (V 1).1 + w 2 * (V 2).1)
    (h2 : s * a.2 + t * b.2 = w 0 * (V 0).2 + w 1 * (V 1).2 + w 2 * (V 2).2) {i : Fin 3} (hi : w i = 0) :
    Meet2 a b (V (i + 1)) (V (i + 2)) := by
  refine ⟨s, t, w (i + 1), w (i + 2), hs, ht, hst, hw _, hw _, ?_⟩
  match i, hi with
  | 0, hi =>
      show w 1 + w 2 = 1 ∧ _ = w 1 * (V 1).1 + w 2 * (V 2).1 ∧ _ = w 1 * (V 1).2 + w 2 * (V 2).2
      rw [hi] at hsum h1 h2
      exact ⟨by linarith, by linarith, by linarith⟩
  | 1, hi =>
      show w 2 + w 0 = 1 ∧ _ = w 2 * (V 2).1 + w 0 * (V 0).1 ∧ _ = w 2 * (V 2).2 + w 0 * (V 0).2
      rw [hi] at hsum h1 h2
      exact ⟨by linarith, by linarith, by linarith⟩
  | 2, hi =>
      show w 0 + w 1 = 1 ∧ _ = w 0 * (V 0).1 + w 1 * (V 1).1 ∧ _ = w 0 * (V 0).2 + w 1 * (V 1).2
      rw [hi] at hsum h1 h2
      exact ⟨by linarith, by linarith, by linarith⟩

theorem fin3_forall {P : Fin 3 → Prop} : (∀ i, P i) ↔ P 0 ∧ P 1 ∧ P 2 :=
  ⟨fun h => ⟨h 0, h 1, h 2⟩, fun h i => by
    match i with
    | 0 => exact h.1
    | 1 => exact h.2.1
    | 2 => exact h.2.2⟩

theorem two_exits {ι : Type} [Fintype ι] {s t : ℝ} {w A B : ι → ℝ} (hs : 0 ≤ s) (ht : 0 ≤ t) (hst : s + t = 1) (hw : ∀ i, 0 ≤ w i)
    (hwD : ∀ i, s * A i + t * B i = w i) (negA : ∃ i, A i < 0) (negB : ∃ i, B i < 0) :
    ∃ τ τ' : ℝ, ∃ i j, i ≠ j ∧ 0 ≤ τ ∧ τ ≤ t ∧ 0 ≤ τ' ∧ τ' ≤ s ∧ w i + τ * (A i - B i) = 0 ∧ (∀ k, 0 ≤ w k + τ * (A k - B k)) ∧
      w j + τ' * -(A j - B j) = 0 ∧ ∀ k, 0 ≤ w k + τ' * -(A k - B k) := by
  obtain ⟨i0, hi0⟩ := negA
  obtain ⟨j0, hj0⟩ := negB
  have eA : ∀ i, w i + t * (A i - B i) = A i := fun i => by rw [← hwD i]; linear_combination hst * A i
  have eB : ∀ i, w i + s * -(A i - B i) = B i := fun i => by rw [← hwD i]; linear_combination hst * B i
  have dA : A i0 - B i0 < 0 := by
    by_contra hh
    have h1 : 0 ≤ t * (A i0 - B i0) := mul_nonneg ht (not_lt.1 hh)
    linarith [eA i0, hw i0]
  have dB : -(A j0 - B j0) < 0 := by
    by_contra hh
    have h1 : 0 ≤ s * -(A j0 - B j0) := mul_nonneg hs (not_lt.1 hh)
    linarith [eB j0, hw j0]
  obtain ⟨τ, τ0, i, hi, hie, hτ⟩ := exit w (fun i => A i - B i) hw ⟨i0, dA⟩
  obtain ⟨τ', τ0', j, hj, hje, hτ'⟩ := exit w (fun i => -(A i - B i)) hw ⟨j0, dB⟩
  refine ⟨τ, τ', i, j, ?_, τ0, ?_, τ0', ?_, hie, hτ, hje, hτ'⟩
  · rintro rfl; linarith
  · by_contra hh
    have h1 : (τ - t) * (A i0 - B i0) ≤ 0 := mul_nonpos_of_nonneg_of_nonpos (by linarith) (le_of_lt dA)
    have h2 := hτ i0
    have h3 := eA i0
    have h4 : (τ - t) * (A i0 - B i0) = τ * (A i0 - B i0) - t * (A i0 - B i0) := by ring
    linarith
  · by_contra hh
    have h1 : (τ' - s) * -(A j0 - B j0) ≤ 0 := mul_nonpos_of_nonneg_of_nonpos (by linarith) (le_of_lt dB)
    have h2 := hτ' j0
    have h3 := eB j0
    have h4 : (τ' - s) * -(A j0 - B j0) = τ' * -(A j0 - B j0) - s * -(A j0 - B j0) := by ring
    linarith

/-- A segment of the plane that meets a triangle without an end in it meets two of its sides. -/
theorem cross2 {a b : ℝ × ℝ} {V : Fin 3 → ℝ × ℝ} {s t : ℝ} {w : Fin 3 → ℝ} (hs : 0 ≤ s) (ht : 0 ≤ t) (hst : s + t = 1)
    (hw : ∀ i, 0 ≤ w i) (hsum : w 0 + w 1 + w 2 = 1) (h1 : s * a.1 + t * b.1 = w 0 * (V 0).1 + w 1 * (V 1).1 + w 2 * (V 2).1)
    (h2 : s * a.2 + t * b.2 = w 0 * (V 0).2 + w 1 * (V 1).2 + w 2 * (V 2).2)
    (ha : (∃ i, orient2d a (V (i + 1)) (V (i + 2)) < 0) ∧ ∃ i, 0 < orient2d a (V (i + 1)) (V (i + 2)))
    (hb : (∃ i, orient2d b (V (i + 1)) (V (i + 2)) < 0) ∧ ∃ i, 0 < orient2d b (V (i + 1)) (V (i + 2))) :
    ∃ i j, i ≠ j ∧ Meet2 a b (V (i + 1)) (V (i + 2)) ∧ Meet2 a b (V (j + 1)) (V (j + 2)) := by
  set D := orient2d (V 0) (V 1) (V 2) with hD
  by_cases hD0 : D = 0
  · -- the corners are collinear
    have hu : ∃ d : Fin 3 → ℝ, d 0 + d 1 + d 2 = 0 ∧ d 0 * (V 0).1 + d 1 * (V 1).1 + d 2 * (V 2).1 = 0 ∧
        d 0 * (V 0).2 + d 1 * (V 1).2 + d 2 * (V 2).2 = 0 ∧ (d 0 ≠ 0 ∨ d 1 ≠ 0) := by
      have hdet : ((V 0).1 - (V 2).1) * ((V 1).2 - (V 2).2) - ((V 0).2 - (V 2).2) * ((V 1).1 - (V 2).1) = 0 := hD0
      by_cases e1 : (V 0).1 - (V 2).1 = 0
      · by_cases e2 : (V 0).2 - (V 2).2 = 0
        · refine ⟨![1, 0, -1], by simp, ?_, ?_, Or.inl (by simp)⟩
          · simp; linarith
          · simp; linarith
        · refine ⟨![-((V 1).2 - (V 2).2), (V 0).2 - (V 2).2, ((V 1).2 - (V 2).2) - ((V 0).2 - (V 2).2)], ?_, ?_, ?_, Or.inr (by simpa using e2)⟩
          · simp
          · simp; linear_combination -hdet
          · simp; ring
      · refine ⟨![-((V 1).1 - (V 2).1), (V 0).1 - (V 2).1, ((V 1).1 - (V 2).1) - ((V 0).1 - (V 2).1)], ?_, ?_, ?_, Or.inr (by simpa using e1)⟩
        · simp
        · simp; ring
        · simp; linear_combination hdet
    obtain ⟨d, d1, d2, d3, d4⟩ := hu
    have hneg : ∃ i, d i < 0 := by
      by_contra h
      rw [not_exists, fin3_forall] at h
      rcases d4 with h' | h'
      · apply h'; linarith [not_lt.1 h.1, not_lt.1 h.2.1, not_lt.1 h.2.2]
      · apply h'; linarith [not_lt.1 h.1, not_lt.1 h.2.1, not_lt.1 h.2.2]
    have hpos : ∃ i, -d i < 0 := by
      by_contra h
      rw [not_exists, fin3_forall] at h
      rcases d4 with h' | h'
      · apply h'; linarith [not_lt.1 h.1, not_lt.1 h.2.1, not_lt.1 h.2.2]
      · apply h'; linarith [not_lt.1 h.1, not_lt.1 h.2.1, not_lt.1 h.2.2]
    obtain ⟨τ, -, i, hi, hi0, hτ⟩ := exit w d hw hneg
    obtain ⟨τ', -, j, hj, hj0, hτ'⟩ := exit w (fun i => -d i) hw hpos
    refine ⟨i, j, ?_, ?_, ?_⟩
    · rintro rfl; linarith
    · refine meet_of_zero (w := fun i => w i + τ * d i) hs ht hst hτ ?_ ?_ ?_ hi0
      · linear_combination hsum + τ * d1
      · linear_combination h1 - τ * d2
      · linear_combination h2 - τ * d3
    · refine meet_of_zero (w := fun i => w i + τ' * -d i) hs ht hst hτ' ?_ ?_ ?_ hj0
      · linear_combination hsum - τ' * d1
      · linear_combination h1 + τ' * d2
      · linear_combination h2 + τ' * d3
  · -- barycentric coordinates
    set A : Fin 3 → ℝ := fun i => orient2d a (V (i + 1)) (V (i + 2)) / D with hA
    set B : Fin 3 → ℝ := fun i => orient2d b (V (i + 1)) (V (i + 2)) / D with hB
    have hco : ∀ z : ℝ × ℝ, orient2d z (V 1) (V 2) + orient2d z (V 2) (V 0) + orient2d z (V 0) (V 1) = D ∧
        orient2d z (V 1) (V 2) * (V 0).1 + orient2d z (V 2) (V 0) * (V 1).1 + orient2d z (V 0) (V 1) * (V 2).1 = D * z.1 ∧
        orient2d z (V 1) (V 2) * (V 0).2 + orient2d z (V 2) (V 0) * (V 1).2 + orient2d z (V 0) (V 1) * (V 2).2 = D * z.2 := by
      intro z
      rw [hD]
      unfold orient2d
      exact ⟨by ring, by ring, by ring⟩
    have hA' : A 0 + A 1 + A 2 = 1 ∧ A 0 * (V 0).1 + A 1 * (V 1).1 + A 2 * (V 2).1 = a.1 ∧
        A 0 * (V 0).2 + A 1 * (V 1).2 + A 2 * (V 2).2 = a.2 := by
      obtain ⟨e1, e2, e3⟩ := hco a
      show orient2d a (V 1) (V 2) / D + orient2d a (V 2) (V 0) / D + orient2d a (V 0) (V 1) / D = 1 ∧
        orient2d a (V 1) (V 2) / D * (V 0).1 + orient2d a (V 2) (V 0) / D * (V 1).1 + orient2d a (V 0) (V 1) / D * (V 2).1 = a.1 ∧
        orient2d a (V 1) (V 2) / D * (V 0).2 + orient2d a (V 2) (V 0) / D * (V 1).2 + orient2d a (V 0) (V 1) / D * (V 2).2 = a.2
      refine ⟨?_, ?_, ?_⟩ <;> field_simp <;> linarith
    have hB' : B 0 + B 1 + B 2 = 1 ∧ B 0 * (V 0).1 + B 1 * (V 1).1 + B 2 * (V 2).1 = b.1 ∧
        B 0 * (V 0).2 + B 1 * (V 1).2 + B 2 * (V 2).2 = b.2 := by
      obtain ⟨e1, e2, e3⟩ := hco b
      show orient2d b (V 1) (V 2) / D + orient2d b (V 2) (V 0) / D + orient2d b (V 0) (V 1) / D = 1 ∧
        orient2d b (V 1) (V 2) / D * (V 0).1 + orient2d b (V 2) (V 0) / D * (V 1).1 + orient2d b (V 0) (V 1) / D * (V 2).1 = b.1 ∧
        orient2d b (V 1) (V 2) / D * (V 0).2 + orient2d b (V 2) (V 0) / D * (V 1).2 + orient2d b (V 0) (V 1) / D * (V 2).2 = b.2
      refine ⟨?_, ?_, ?_⟩ <;> field_simp <;> linarith
    -- the common point has the coordinates `w`
    have hlin : ∀ p q : ℝ × ℝ, orient2d (s * a.1 + t * b.1, s * a.2 + t * b.2) p q = s * orient2d a p q + t * orient2d b p q := by
      intro p q
      unfold orient2d
      have : t = 1 - s := by linarith
      rw [this]; ring
    have hwD : ∀ i, s * A i + t * B i = w i := by
      have e : (s * a.1 + t * b.1, s * a.2 + t * b.2) =
          (w 0 * (V 0).1 + w 1 * (V 1).1 + w 2 * (V 2).1, w 0 * (V 0).2 + w 1 * (V 1).2 + w 2 * (V 2).2) := Prod.ext h1 h2
      have key : ∀ i, orient2d (s * a.1 + t * b.1, s * a.2 + t * b.2) (V (i + 1)) (V (i + 2)) = w i * D := by
        rw [e, fin3_forall]
        have h0 : w 0 = 1 - w 1 - w 2 := by linarith
        refine ⟨?_, ?_, ?_⟩
        · show orient2d _ (V 1) (V 2) = _
          rw [hD, h0]; unfold orient2d; ring
        · show orient2d _ (V 2) (V 0) = _
          rw [hD, h0]; unfold orient2d; ring
        · show orient2d _ (V 0) (V 1) = _
          rw [hD, h0]; unfold orient2d; ring
      intro i
      have := key i
      rw [hlin] at this
      rw [hA, hB]
      dsimp only
      field_simp
      linarith
    have negA : ∃ i, A i < 0 := by
      rcases lt_or_gt_of_ne hD0 with h | h
      · obtain ⟨i, hi⟩ := ha.2
        exact ⟨i, div_neg_of_pos_of_neg hi h⟩
      · obtain ⟨i, hi⟩ := ha.1
        exact ⟨i, div_neg_of_neg_of_pos hi h⟩
    have negB : ∃ i, B i < 0 := by
      rcases lt_or_gt_of_ne hD0 with h | h
      · obtain ⟨i, hi⟩ := hb.2
        exact ⟨i, div_neg_of_pos_of_neg hi h⟩
      · obtain ⟨i, hi⟩ := hb.1
        exact ⟨i, div_neg_of_neg_of_pos hi h⟩
    obtain ⟨τ, τ', i, j, hij, τ0, τt, τ0', τs, hie, hτ, hje, hτ'⟩ := two_exits hs ht hst hw hwD negA negB
    refine ⟨i, j, ?_, ?_, ?_⟩
    · exact hij
    · refine meet_of_zero (s := s + τ) (t := t - τ) (w := fun i => w i + τ * (A i - B i)) (by linarith) (by linarith) (by linarith) hτ ?_ ?_ ?_ hie
      · linear_combination hsum + τ * hA'.1 - τ * hB'.1
      · linear_combination h1 - τ * hA'.2.1 + τ * hB'.2.1
      · linear_combination h2 - τ * hA'.2.2 + τ * hB'.2.2
    · refine meet_of_zero (s := s - τ') (t := t + τ') (w := fun i => w i + τ' * -(A i - B i)) (by linarith) (by linarith) (by linarith) hτ' ?_ ?_ ?_ hje
      · linear_combination hsum - τ' * hA'.1 + τ' * hB'.1
      · linear_combination h1 + τ' * hA'.2.1 - τ' * hB'.2.1
      · linear_combination h2 + τ' * hA'.2.2 - τ' * hB'.2.2

/-! ## Segment against triangle -/

theorem coord_add2 (s t : ℝ) (a b : P3) (i : Nat) : coord (s • a + t • b) i = s * coord a i + t * coord b i := by
  unfold coord
  split
  · simp
  · split <;> simp

theorem coord_add3 (r s t : ℝ) (a b c : P3) (i : Nat) :
    coord (r • a + s • b + t • c) i = r * coord a i + s * coord b i + t * coord c i := by
  unfold coord
  split
  · simp
  · split <;> simp

/-- The two segments' ranges of a coordinate have a common value. -/
def Overlap (a b p q : P3) (i : Nat) : Prop :=
  ¬ (coord a i < coord p i ∧ coord a i < coord q i ∧ coord b i < coord p i ∧ coord b i < coord q i) ∧
  ¬ (coord a i > coord p i ∧ coord a i > coord q i ∧ coord b i > coord p i ∧ coord b i > coord q i)

theorem mix_lt {s t a b c : ℝ} (hs : 0 ≤ s) (ht : 0 ≤ t) (hst : s + t = 1) (ha : a < c) (hb : b < c) : s * a + t * b < c := by
  have h1 : 0 ≤ s * (c - a) := mul_nonneg hs (by linarith)
  have h2 : 0 ≤ t * (c - b) := mul_nonneg ht (by linarith)
  have h3 : 0 < s * (c - a) + t * (c - b) := by
    rcases lt_or_eq_of_le hs with h | h
    · have := mul_pos h (sub_pos.2 ha); linarith
    · have := mul_pos (show 0 < t by linarith) (sub_pos.2 hb); linarith
  have : s * (c - a) + t * (c - b) = c - (s * a + t * b) := by linear_combination c * hst
  linarith

theorem mix_gt {s t a b c : ℝ} (hs : 0 ≤ s) (ht : 0 ≤ t) (hst : s + t = 1) (ha : c < a) (hb : c < b) : c < s * a + t * b := by
  have := mix_lt (a := -a) (b := -b) (c := -c) hs ht hst (by linarith) (by linarith)
  linarith

theorem overlap_of_eq {a b p q : P3} {i : Nat} {s t u v : ℝ} (hs : 0 ≤ s) (ht : 0 ≤ t) (hst : s + t = 1) (hu : 0 ≤ u) (hv : 0 ≤ v)
    (huv : u + v = 1) (h : s * coord a i + t * coord b i = u * coord p i + v * coord q i) : Overlap a b p q i := by
  constructor
  · rintro ⟨h1, h2, h3, h4⟩
    have e1 := mix_lt hs ht hst h1 h3
    have e2 := mix_lt hs ht hst h2 h4
    have e3 := mix_gt hu hv huv e1 e2
    linarith
  · rintro ⟨h1, h2, h3, h4⟩
    have e1 := mix_gt hs ht hst h1 h3
    have e2 := mix_gt hs ht hst h2 h4
    have e3 := mix_lt hu hv huv e1 e2
    linarith

theorem argmax_lt (lo hi : P3) : argmax lo hi < 3 := by
  unfold argmax
  split <;> split <;> omega

theorem argmin_lt (lo hi : P3) : argmin lo hi < 3 := by
  unfold argmin
  split <;> split <;> omega

theorem segSeg1d_true {a b p q : P3} (h : ∀ i, i < 3 → Overlap a b p q i) : segSeg1d a b p q = true := by
  unfold segSeg1d
  dsimp only
  obtain ⟨h1, h2⟩ := h _ (argmax_lt (cmin (cmin (cmin a b) p) q) (cmax (cmax (cmax a b) p) q))
  rw [if_neg h1, if_neg h2]

theorem tiny_nonneg {tf : ℝ} (h : 0 ≤ tf) (lo hi : P3) : 0 ≤ tf * extent lo hi * extent lo hi := by
  have : 0 ≤ extent lo hi := Real.sqrt_nonneg _
  positivity

theorem tiny3_nonneg {tf : ℝ} (h : 0 ≤ tf) (lo hi : P3) : 0 ≤ tf * extent lo hi * extent lo hi * extent lo hi := by
  have : 0 ≤ extent lo hi := Real.sqrt_nonneg _
  positivity

/-- A mix of two values is not zero if they are on the same side of it. -/
theorem not_same_side {s t x y tiny : ℝ} (hs : 0 ≤ s) (ht : 0 ≤ t) (hst : s + t = 1) (hz : s * x + t * y = 0) (htiny : 0 ≤ tiny) :
    ¬ ((x < -tiny ∧ y < -tiny) ∨ (x > tiny ∧ y > tiny)) := by
  rintro (⟨h1, h2⟩ | ⟨h1, h2⟩)
  · have := mix_lt hs ht hst h1 h2; linarith
  · have := mix_gt hs ht hst h1 h2; linarith

theorem segSeg2d_true {tf : ℝ} (htf : 0 ≤ tf) {a b p q : P3} {i j : Nat} (h : Meet2 (proj i j a) (proj i j b) (proj i j p) (proj i j q))
    (h1 : segSeg1d a b p q = true) :
    segSeg2d tf a b p q (orient2d (proj i j a) (proj i j b) (proj i j p)) (orient2d (proj i j a) (proj i j b) (proj i j q))
      (orient2d (proj i j a) (proj i j p) (proj i j q)) (orient2d (proj i j b) (proj i j p) (proj i j q)) = true := by
  obtain ⟨s, t, u, v, hs, ht, hst, hu, hv, huv, e1, e2⟩ := h
  generalize proj i j a = a2 at *
  generalize proj i j b = b2 at *
  generalize proj i j p = p2 at *
  generalize proj i j q = q2 at *
  unfold segSeg2d
  dsimp only
  have hty := tiny_nonneg htf (cmin (cmin (cmin a b) p) q) (cmax (cmax (cmax a b) p) q)
  rw [if_neg (not_same_side hu hv huv ?_ hty), if_neg (not_same_side hs ht hst ?_ hty)]
  · exact h1
  · unfold orient2d
    have es : s = 1 - t := by linarith
    have eu : u = 1 - v := by linarith
    subst es eu
    linear_combination (p2.2 - q2.2) * e1 - (p2.1 - q2.1) * e2
  · unfold orient2d
    have es : s = 1 - t := by linarith
    have eu : u = 1 - v := by linarith
    subst es eu
    linear_combination -(a2.2 - b2.2) * e1 + (a2.1 - b2.1) * e2

theorem not_inside {x y z tiny : ℝ} (ht : 0 ≤ tiny) (h : ¬ ((x ≤ tiny ∧ y ≤ tiny ∧ z ≤ tiny) ∨ (x ≥ -tiny ∧ y ≥ -tiny ∧ z ≥ -tiny))) :
    (x < 0 ∨ y < 0 ∨ z < 0) ∧ (0 < x ∨ 0 < y ∨ 0 < z) := by
  constructor
  · by_contra hh
    push Not at hh
    exact h (Or.inr ⟨by linarith [hh.1], by linarith [hh.2.1], by linarith [hh.2.2]⟩)
  · by_contra hh
    push Not at hh
    exact h (Or.inl ⟨by linarith [hh.1], by linarith [hh.2.1], by linarith [hh.2.2]⟩)

/-- Two sides of a triangle cannot both be apart from the segment in a coordinate in which the triangle meets it. -/
theorem overlap_or {a b p q r : P3} {k : Nat} {s t α β γ : ℝ} (hs : 0 ≤ s) (ht : 0 ≤ t) (hst : s + t = 1) (hα : 0 ≤ α) (hβ : 0 ≤ β)
    (hγ : 0 ≤ γ) (hsum : α + β + γ = 1) (h : s * coord a k + t * coord b k = α * coord p k + β * coord q k + γ * coord r k) :
    Overlap a b p q k ∨ Overlap a b q r k := by
  by_contra hh
  rw [not_or] at hh
  obtain ⟨h1, h2⟩ := hh
  unfold Overlap at h1 h2
  generalize coord a k = a at *
  generalize coord b k = b at *
  generalize coord p k = p at *
  generalize coord q k = q at *
  generalize coord r k = r at *
  have mlt : ∀ c, a < c → b < c → s * a + t * b < c := fun c h h' => mix_lt hs ht hst h h'
  have mgt : ∀ c, c < a → c < b → c < s * a + t * b := fun c h h' => mix_gt hs ht hst h h'
  have key : (∀ c, p ≤ c → q ≤ c → r ≤ c → s * a + t * b ≤ c) ∧ (∀ c, c ≤ p → c ≤ q → c ≤ r → c ≤ s * a + t * b) := by
    constructor
    · intro c e1 e2 e3
      have i1 := mul_nonneg hα (sub_nonneg.2 e1)
      have i2 := mul_nonneg hβ (sub_nonneg.2 e2)
      have i3 := mul_nonneg hγ (sub_nonneg.2 e3)
      have : α * (c - p) + β * (c - q) + γ * (c - r) = c - (s * a + t * b) := by rw [h]; linear_combination c * hsum
      linarith
    · intro c e1 e2 e3
      have i1 := mul_nonneg hα (sub_nonneg.2 e1)
      have i2 := mul_nonneg hβ (sub_nonneg.2 e2)
      have i3 := mul_nonneg hγ (sub_nonneg.2 e3)
      have : α * (p - c) + β * (q - c) + γ * (r - c) = (s * a + t * b) - c := by rw [h]; linear_combination -c * hsum
      linarith
  have d1 : (a < p ∧ a < q ∧ b < p ∧ b < q) ∨ (a > p ∧ a > q ∧ b > p ∧ b > q) := by
    by_contra hc; rw [not_or] at hc; exact h1 hc
  have d2 : (a < q ∧ a < r ∧ b < q ∧ b < r) ∨ (a > q ∧ a > r ∧ b > q ∧ b > r) := by
    by_contra hc; rw [not_or] at hc; exact h2 hc
  rcases d1 with ⟨a1, a2, a3, a4⟩ | ⟨a1, a2, a3, a4⟩ <;> rcases d2 with ⟨b1, b2, b3, b4⟩ | ⟨b1, b2, b3, b4⟩
  · have m1 := mlt (min p (min q r)) (by simp [*]) (by simp [*])
    have m2 := key.2 (min p (min q r)) (by simp) (by simp) (by simp)
    linarith
  · linarith
  · linarith
  · have m1 := mgt (max p (max q r)) (by simp [*]) (by simp [*])
    have m2 := key.1 (max p (max q r)) (by simp) (by simp) (by simp)
    linarith

theorem segTri2d_true {tf : ℝ} (htf : 0 ≤ tf) {a b p q r : P3} {i j k : Nat} (hijk : ∀ n, n < 3 → n = i ∨ n = j ∨ n = k) {s t α β γ : ℝ}
    (hs : 0 ≤ s) (ht : 0 ≤ t) (hst : s + t = 1) (hα : 0 ≤ α) (hβ : 0 ≤ β) (hγ : 0 ≤ γ) (hsum : α + β + γ = 1)
    (h : ∀ n, s * coord a n + t * coord b n = α * coord p n + β * coord q n + γ * coord r n) (lo hi : P3) :
    segTri2d tf a b p q r i j (extent lo hi) = true := by
  have hty := tiny_nonneg htf lo hi
  unfold segTri2d
  dsimp only
  split
  · rfl
  · rename_i ha
    split
    · rfl
    · rename_i hb
      have ha' := not_inside hty ha
      have hb' := not_inside hty hb
      have hex : ∀ z : ℝ × ℝ, ∀ P : ℝ → Prop, (P (orient2d z (proj i j p) (proj i j q)) ∨ P (orient2d z (proj i j q) (proj i j r)) ∨
          P (orient2d z (proj i j r) (proj i j p))) →
          ∃ n : Fin 3, P (orient2d z ((![proj i j p, proj i j q, proj i j r] : Fin 3 → ℝ × ℝ) (n + 1))
            ((![proj i j p, proj i j q, proj i j r] : Fin 3 → ℝ × ℝ) (n + 2))) := by
        rintro z P (h | h | h)
        · exact ⟨2, h⟩
        · exact ⟨0, h⟩
        · exact ⟨1, h⟩
      obtain ⟨n, n', hne, m1, m2⟩ := cross2 (a := proj i j a) (b := proj i j b) (V := ![proj i j p, proj i j q, proj i j r])
        (w := ![α, β, γ]) hs ht hst (fin3_forall.2 ⟨hα, hβ, hγ⟩) hsum (h i) (h j)
        ⟨hex _ (fun x => x < 0) ha'.1, hex _ (fun x => 0 < x) ha'.2⟩ ⟨hex _ (fun x => x < 0) hb'.1, hex _ (fun x => 0 < x) hb'.2⟩
      -- in the two coordinates of the plane the ranges overlap; in the third, one of the two does
      have hov : ∀ x y : P3, Meet2 (proj i j a) (proj i j b) (proj i j x) (proj i j y) → Overlap a b x y k → segSeg1d a b x y = true := by
        rintro x y ⟨s, t, u, v, hs, ht, hst, hu, hv, huv, e1, e2⟩ hk
        refine segSeg1d_true fun n hn => ?_
        rcases hijk n hn with rfl | rfl | rfl
        · exact overlap_of_eq hs ht hst hu hv huv e1
        · exact overlap_of_eq hs ht hst hu hv huv e2
        · exact hk
      have o1 : Overlap a b p q k ∨ Overlap a b q r k := overlap_or hs ht hst hα hβ hγ hsum (h k)
      have o2 : Overlap a b q r k ∨ Overlap a b r p k :=
        overlap_or hs ht hst hβ hγ hα (by linarith) (by rw [h k]; ring)
      have o3 : Overlap a b r p k ∨ Overlap a b p q k :=
        overlap_or hs ht hst hγ hα hβ (by linarith) (by rw [h k]; ring)
      have hpq : Meet2 (proj i j a) (proj i j b) (proj i j p) (proj i j q) → Overlap a b p q k → _ :=
        fun m o => segSeg2d_true htf m (hov p q m o)
      have hqr : Meet2 (proj i j a) (proj i j b) (proj i j q) (proj i j r) → Overlap a b q r k → _ :=
        fun m o => segSeg2d_true htf m (hov q r m o)
      have hrp : Meet2 (proj i j a) (proj i j b) (proj i j r) (proj i j p) → Overlap a b r p k → _ :=
        fun m o => segSeg2d_true htf m (hov r p m o)
      have hcase : (Meet2 (proj i j a) (proj i j b) (proj i j p) (proj i j q) ∧ Meet2 (proj i j a) (proj i j b) (proj i j q) (proj i j r)) ∨
          (Meet2 (proj i j a) (proj i j b) (proj i j q) (proj i j r) ∧ Meet2 (proj i j a) (proj i j b) (proj i j r) (proj i j p)) ∨
          (Meet2 (proj i j a) (proj i j b) (proj i j r) (proj i j p) ∧ Meet2 (proj i j a) (proj i j b) (proj i j p) (proj i j q)) := by
        match n, n', hne, m1, m2 with
        | 0, 0, hne, _, _ => exact (hne rfl).elim
        | 1, 1, hne, _, _ => exact (hne rfl).elim
        | 2, 2, hne, _, _ => exact (hne rfl).elim
        | 0, 1, _, m1, m2 => exact Or.inr (Or.inl ⟨m1, m2⟩)
        | 1, 0, _, m1, m2 => exact Or.inr (Or.inl ⟨m2, m1⟩)
        | 0, 2, _, m1, m2 => exact Or.inl ⟨m2, m1⟩
        | 2, 0, _, m1, m2 => exact Or.inl ⟨m1, m2⟩
        | 1, 2, _, m1, m2 => exact Or.inr (Or.inr ⟨m1, m2⟩)
        | 2, 1, _, m1, m2 => exact Or.inr (Or.inr ⟨m2, m1⟩)
      rw [Bool.or_eq_true, Bool.or_eq_true]
      rcases hcase with ⟨m1, m2⟩ | ⟨m1, m2⟩ | ⟨m1, m2⟩
      · rcases o1 with o | o
        · exact Or.inl (Or.inl (hpq m1 o))
        · exact Or.inl (Or.inr (hqr m2 o))
      · rcases o2 with o | o
        · exact Or.inl (Or.inr (hqr m1 o))
        · exact Or.inr (hrp m2 o)
      · rcases o3 with o | o
        · exact Or.inr (hrp m1 o)
        · exact Or.inl (Or.inl (hpq m2 o))

/-- The orientation is affine in its third point. -/
theorem orient3d_third {a b p q r x d : P3} {α β γ : ℝ} (hsum : α + β + γ = 1) (h0 : x.1 = α * p.1 + β * q.1 + γ * r.1)
    (h1 : x.2.1 = α * p.2.1 + β * q.2.1 + γ * r.2.1) (h2 : x.2.2 = α * p.2.2 + β * q.2.2 + γ * r.2.2) :
    orient3d a b x d = α * orient3d a b p d + β * orient3d a b q d + γ * orient3d a b r d := by
  have e : γ = 1 - α - β := by linarith
  subst e
  unfold orient3d
  rw [h0, h1, h2]
  ring

/-- The orientation is affine in its first point. -/
theorem orient3d_first {a b x p q r : P3} {s t : ℝ} (hsum : s + t = 1) (h0 : x.1 = s * a.1 + t * b.1)
    (h1 : x.2.1 = s * a.2.1 + t * b.2.1) (h2 : x.2.2 = s * a.2.2 + t * b.2.2) :
    orient3d x p q r = s * orient3d a p q r + t * orient3d b p q r := by
  have e : s = 1 - t := by linarith
  subst e
  unfold orient3d
  rw [h0, h1, h2]
  ring

/-- A point of the line through `a` and `b` is coplanar with `a`, `b` and any `d`. -/
theorem orient3d_line {a b x d : P3} {s t : ℝ} (hsum : s + t = 1) (h0 : x.1 = s * a.1 + t * b.1)
    (h1 : x.2.1 = s * a.2.1 + t * b.2.1) (h2 : x.2.2 = s * a.2.2 + t * b.2.2) : orient3d a b x d = 0 := by
  have e : s = 1 - t := by linarith
  subst e
  unfold orient3d
  rw [h0, h1, h2]
  ring

/-- A point of the plane through `p`, `q`, `r` has orientation 0 with respect to it. -/
theorem orient3d_plane {p q r x : P3} {α β γ : ℝ} (hsum : α + β + γ = 1) (h0 : x.1 = α * p.1 + β * q.1 + γ * r.1)
    (h1 : x.2.1 = α * p.2.1 + β * q.2.1 + γ * r.2.1) (h2 : x.2.2 = α * p.2.2 + β * q.2.2 + γ * r.2.2) :
    orient3d x p q r = 0 := by
  have e : γ = 1 - α - β := by linarith
  subst e
  unfold orient3d
  rw [h0, h1, h2]
  ring

theorem orient3d_same {a b d : P3} : orient3d a b d d = 0 := by
  unfold orient3d
  ring

theorem orient3d_swap {a b c d : P3} : orient3d a b d c = -orient3d a b c d := by
  unfold orient3d
  ring

/-- Three numbers in the proportion of nonnegative weights have the same sign. -/
theorem same_sign {α β γ u v w : ℝ} (hα : 0 ≤ α) (hβ : 0 ≤ β) (hγ : 0 ≤ γ) (hsum : α + β + γ = 1) (r1 : α * u = γ * v) (r2 : β * v = α * w)
    (r3 : γ * w = β * u) : (u ≤ 0 ∧ v ≤ 0 ∧ w ≤ 0) ∨ (0 ≤ u ∧ 0 ≤ v ∧ 0 ≤ w) := by
  have eu : u = γ * (u + v + w) := by
    have : u = (α + β + γ) * u := by rw [hsum, one_mul]
    linear_combination this + r1 - r3
  have ev : v = α * (u + v + w) := by
    have : v = (α + β + γ) * v := by rw [hsum, one_mul]
    linear_combination this - r1 + r2
  have ew : w = β * (u + v + w) := by
    have : w = (α + β + γ) * w := by rw [hsum, one_mul]
    linear_combination this - r2 + r3
  rcases le_total (u + v + w) 0 with h | h
  · left
    exact ⟨eu ▸ mul_nonpos_of_nonneg_of_nonpos hγ h, ev ▸ mul_nonpos_of_nonneg_of_nonpos hα h, ew ▸ mul_nonpos_of_nonneg_of_nonpos hβ h⟩
  · right
    exact ⟨eu ▸ mul_nonneg hγ h, ev ▸ mul_nonneg hα h, ew ▸ mul_nonneg hβ h⟩

/-- Where a segment meets a triangle, the narrow test says so. -/
theorem segTri_true {tf : ℝ} (htf : 0 ≤ tf) {a b p q r x : P3} (h1 : InSegment x a b) (h2 : InTriangle x p q r) :
    segTri tf a b p q r (orient3d a p q r) (orient3d b p q r) = true := by
  obtain ⟨s, t, hs, ht, hst, hx⟩ := h1
  obtain ⟨α, β, γ, hα, hβ, hγ, hsum, hx'⟩ := h2
  have hc : ∀ n, s * coord a n + t * coord b n = α * coord p n + β * coord q n + γ * coord r n := by
    intro n
    rw [← coord_add2, ← coord_add3, ← hx, hx']
  have c0 : s * a.1 + t * b.1 = α * p.1 + β * q.1 + γ * r.1 := hc 0
  have c1 : s * a.2.1 + t * b.2.1 = α * p.2.1 + β * q.2.1 + γ * r.2.1 := hc 1
  have c2 : s * a.2.2 + t * b.2.2 = α * p.2.2 + β * q.2.2 + γ * r.2.2 := hc 2
  unfold segTri
  dsimp only
  have hty := tiny3_nonneg htf (cmin (cmin (cmin (cmin a b) p) q) r) (cmax (cmax (cmax (cmax a b) p) q) r)
  have hk := argmin_lt (cmin (cmin (cmin (cmin a b) p) q) r) (cmax (cmax (cmax (cmax a b) p) q) r)
  rw [if_neg (not_same_side hs ht hst ?_ hty)]
  · rw [if_neg]
    · rw [decide_eq_true_iff]
      generalize tf * extent (cmin (cmin (cmin (cmin a b) p) q) r) (cmax (cmax (cmax (cmax a b) p) q) r) *
        extent (cmin (cmin (cmin (cmin a b) p) q) r) (cmax (cmax (cmax (cmax a b) p) q) r) *
        extent (cmin (cmin (cmin (cmin a b) p) q) r) (cmax (cmax (cmax (cmax a b) p) q) r) = tiny at hty
      obtain ⟨x0, x1, x2⟩ := x
      have e0 : x0 = s * a.1 + t * b.1 := congrArg (fun y : P3 => y.1) hx
      have e1 : x1 = s * a.2.1 + t * b.2.1 := congrArg (fun y : P3 => y.2.1) hx
      have e2 : x2 = s * a.2.2 + t * b.2.2 := congrArg (fun y : P3 => y.2.2) hx
      have hz : ∀ d : P3, α * orient3d a b p d + β * orient3d a b q d + γ * orient3d a b r d = 0 := by
        intro d
        rw [← orient3d_third (x := (x0, x1, x2)) hsum (e0.trans c0) (e1.trans c1) (e2.trans c2)]
        exact orient3d_line hst e0 e1 e2
      have r1 : α * orient3d a b p q = γ * orient3d a b q r := by
        have := hz q
        rw [orient3d_same, orient3d_swap (c := q) (d := r)] at this
        linarith
      have r2 : β * orient3d a b q r = α * orient3d a b r p := by
        have := hz r
        rw [orient3d_same, orient3d_swap (c := r) (d := p)] at this
        linarith
      have r3 : γ * orient3d a b r p = β * orient3d a b p q := by
        have := hz p
        rw [orient3d_same, orient3d_swap (c := p) (d := q)] at this
        linarith
      rcases same_sign hα hβ hγ hsum r1 r2 r3 with ⟨u1, u2, u3⟩ | ⟨u1, u2, u3⟩
      · exact Or.inl ⟨by linarith, by linarith, by linarith⟩
      · exact Or.inr ⟨by linarith, by linarith, by linarith⟩
    · rw [segTri2d_true (k := argmin (cmin (cmin (cmin (cmin a b) p) q) r) (cmax (cmax (cmax (cmax a b) p) q) r)) htf ?_ hs ht hst hα hβ hγ hsum hc]
      · simp
      · intro n hn
        omega
  · obtain ⟨x0, x1, x2⟩ := x
    have e0 : x0 = s * a.1 + t * b.1 := congrArg (fun y : P3 => y.1) hx
    have e1 : x1 = s * a.2.1 + t * b.2.1 := congrArg (fun y : P3 => y.2.1) hx
    have e2 : x2 = s * a.2.2 + t * b.2.2 := congrArg (fun y : P3 => y.2.2) hx
    rw [← orient3d_first (x := (x0, x1, x2)) hst e0 e1 e2]
    exact orient3d_plane hsum (e0.trans c0) (e1.trans c1) (e2.trans c2)

end Verif.Predicates
