import Verif.Spec.Refiner
import Verif.Lemmas.SnapperStep

/-! # Lemmas: moving a vertex -/

namespace Verif.Refiner

open Verif Verif.AbstractMesh Verif.SpatialGrid Verif.SpatialGrid.Spec Verif.ClosestPoint
open Verif.Predicates (P3 narrow kTinyFactor kTinyFactor_nonneg)
open Verif.MeshDefects hiding Face corner
open Verif.MeshDefects.Spec
open Verif.Thinner (toE E3 dotP crossP stopAtHit)
open Verif.Geometry (Cross cornerSet)
open Verif.Refiner.Spec
open Verif.Snapper (visits mem_visits callUntil_false)

variable {I : Input} {m : Mesh} {s s' : State}

/-! ### two triangles with the moved vertex -/

theorem weights_lt {n u u' x x' s1 s2 t1 t2 : ℝ} (hs1 : 0 ≤ s1) (hs2 : 0 ≤ s2) (ht1 : 0 ≤ t1) (ht2 : 0 ≤ t2) (ht : 0 < t1 + t2)
    (h1 : n < x) (h2 : n < x') (h3 : u < x) (h4 : u < x') (h5 : u' < x) (h6 : u' < x')
    (e : s1 * (u - n) + s2 * (u' - n) = t1 * (x - n) + t2 * (x' - n)) : t1 + t2 < s1 + s2 := by
  by_contra hc
  push Not at hc
  obtain ⟨M, hM⟩ : ∃ M, M = max n (max u u') := ⟨_, rfl⟩
  have m1 : n ≤ M := hM ▸ le_max_left _ _
  have m2 : u ≤ M := hM ▸ (le_max_left _ _).trans (le_max_right _ _)
  have m3 : u' ≤ M := hM ▸ (le_max_right _ _).trans (le_max_right _ _)
  have m4 : M < x := hM ▸ max_lt h1 (max_lt h3 h5)
  have m5 : M < x' := hM ▸ max_lt h2 (max_lt h4 h6)
  have a1 := mul_le_mul_of_nonneg_left (sub_le_sub_right m2 n) hs1
  have a2 := mul_le_mul_of_nonneg_left (sub_le_sub_right m3 n) hs2
  have a3 := mul_le_mul_of_nonneg_right hc (sub_nonneg.2 m1)
  have a4 := mul_le_mul_of_nonneg_left (sub_le_sub_right m4.le n) ht1
  have a5 := mul_le_mul_of_nonneg_left (sub_le_sub_right m5.le n) ht2
  rcases ht1.lt_or_eq with h | h
  · have := mul_lt_mul_of_pos_left (sub_lt_sub_right m4 n) h
    nlinarith
  · have h' : 0 < t2 := by linarith
    have := mul_lt_mul_of_pos_left (sub_lt_sub_right m5 n) h'
    nlinarith

/-- The three coordinates. -/
def axis (k : Fin 3) (p : P3) : ℝ := if k = 0 then p.1 else if k = 1 then p.2.1 else p.2.2

theorem axis_lin (k : Fin 3) (a b c : ℝ) (x y z : P3) : axis k (a • x + b • y + c • z) = a * axis k x + b * axis k y + c * axis k z := by
  unfold axis
  split
  · simp
  split <;> simp

/-- Boxes that do not overlap are separated along an axis. -/
theorem separated {t t' : P3 × P3 × P3} (h : ¬ Overlap (bboxOf t) (bboxOf t')) :
    ∃ k, (∀ x ∈ cornerSet t, ∀ y ∈ cornerSet t', axis k x < axis k y) ∨ (∀ x ∈ cornerSet t, ∀ y ∈ cornerSet t', axis k y < axis k x) := by
  obtain ⟨a, b, c⟩ := t
  obtain ⟨a', b', c'⟩ := t'
  unfold Overlap bboxOf cmin cmax at h
  simp only [cornerSet, Set.mem_insert_iff, Set.mem_singleton_iff, forall_eq_or_imp, forall_eq]
  by_cases h0 : (min (min a.1 b.1) c.1 ≤ max (max a'.1 b'.1) c'.1 ∧ min (min a'.1 b'.1) c'.1 ≤ max (max a.1 b.1) c.1)
  · by_cases h1 : (min (min a.2.1 b.2.1) c.2.1 ≤ max (max a'.2.1 b'.2.1) c'.2.1 ∧ min (min a'.2.1 b'.2.1) c'.2.1 ≤ max (max a.2.1 b.2.1) c.2.1)
    · have h2 : ¬ (min (min a.2.2 b.2.2) c.2.2 ≤ max (max a'.2.2 b'.2.2) c'.2.2 ∧ min (min a'.2.2 b'.2.2) c'.2.2 ≤ max (max a.2.2 b.2.2) c.2.2) := fun h2 => h ⟨h0, h1, h2⟩
      refine ⟨2, ?_⟩
      rw [not_and_or, not_le, not_le] at h2
      have e : ∀ p : P3, axis 2 p = p.2.2 := fun _ => rfl
      simp only [e]
      simp only [max_lt_iff, lt_min_iff] at h2
      rcases h2 with h2 | h2 <;> [right; left] <;> simp only [h2, and_self]
    · refine ⟨1, ?_⟩
      rw [not_and_or, not_le, not_le] at h1
      have e : ∀ p : P3, axis 1 p = p.2.1 := fun _ => rfl
      simp only [e]
      simp only [max_lt_iff, lt_min_iff] at h1
      rcases h1 with h1 | h1 <;> [right; left] <;> simp only [h1, and_self]
  · refine ⟨0, ?_⟩
    rw [not_and_or, not_le, not_le] at h0
    have e : ∀ p : P3, axis 0 p = p.1 := fun _ => rfl
    simp only [e]
    simp only [max_lt_iff, lt_min_iff] at h0
    rcases h0 with h0 | h0 <;> [right; left] <;> simp only [h0, and_self]

theorem mem_corners {p : Nat → P3} {f : Face} {x : P3} : x ∈ cornerSet (tri p f) ↔ ∃ a, Corner f a ∧ x = p a := by
  obtain ⟨a, b, c⟩ := f
  simp only [cornerSet, tri, Set.mem_insert_iff, Set.mem_singleton_iff, Corner]
  constructor
  · rintro (h | h | h)
    · exact ⟨a, Or.inl rfl, h⟩
    · exact ⟨b, Or.inr (Or.inl rfl), h⟩
    · exact ⟨c, Or.inr (Or.inr rfl), h⟩
  · rintro ⟨d, rfl | rfl | rfl, h⟩
    · exact Or.inl h
    · exact Or.inr (Or.inl h)
    · exact Or.inr (Or.inr h)

/-- The vertex first. -/
theorem star_corners {f : Face} (hf : Nondeg f) {v : Nat} (hv : Corner f v) : ∃ a b, Corner f a ∧ Corner f b ∧ a ≠ v ∧ b ≠ v ∧
    ∀ p : Nat → P3, cornerSet (tri p f) = {p v, p a, p b} := by
  obtain ⟨x, y, z⟩ := f
  obtain ⟨h1, h2, h3⟩ := hf
  dsimp only at h1 h2 h3
  rcases hv with rfl | rfl | rfl
  · exact ⟨y, z, Or.inr (Or.inl rfl), Or.inr (Or.inr rfl), fun e => h1 e.symm, h3, fun p => rfl⟩
  · refine ⟨z, x, Or.inr (Or.inr rfl), Or.inl rfl, fun e => h2 e.symm, h1, fun p => ?_⟩
    ext w; simp only [cornerSet, tri, Set.mem_insert_iff, Set.mem_singleton_iff]; tauto
  · refine ⟨x, y, Or.inl rfl, Or.inr (Or.inl rfl), fun e => h3 e.symm, h2, fun p => ?_⟩
    ext w; simp only [cornerSet, tri, Set.mem_insert_iff, Set.mem_singleton_iff]; tauto

theorem inTri {a b c x : P3} (h : x ∈ convexHull ℝ ({a, b, c} : Set P3)) : ∃ r s t : ℝ, 0 ≤ s ∧ 0 ≤ t ∧ r + s + t = 1 ∧ x = r • a + s • b + t • c := by
  have h' : x ∈ convexHull ℝ (cornerSet (a, b, c)) := h
  obtain ⟨r, s, t, -, h2, h3, h4, h5⟩ := Predicates.inTriangle_of_hull h'
  exact ⟨r, s, t, h2, h3, h4, h5⟩

theorem upd_ne {p : Nat → P3} {v : Nat} {q : P3} {a : Nat} (h : a ≠ v) : upd p v q a = p a := if_neg h

theorem upd_self {p : Nat → P3} {v : Nat} {q : P3} : upd p v q v = q := if_pos rfl

/-- If two faces at the moved vertex cross, one of them now overlaps the place where the other one was. -/
theorem star_overlap {f g : Face} (hf : Nondeg f) (hg : Nondeg g) {v : Nat} (fv : Corner f v) (gv : Corner g v) {p : Nat → P3} {q : P3}
    (h : Cross (tri (upd p v q) f) (tri (upd p v q) g)) :
    Overlap (bboxOf (tri (upd p v q) f)) (bboxOf (tri p g)) ∨ Overlap (bboxOf (tri (upd p v q) g)) (bboxOf (tri p f)) := by
  by_contra hc
  rw [not_or] at hc
  obtain ⟨c1, c2⟩ := hc
  obtain ⟨z, z1, z2, z3⟩ := h
  obtain ⟨u, u', fu, fu', nu, nu', ef⟩ := star_corners hf fv
  obtain ⟨x, x', gx, gx', nx, nx', eg⟩ := star_corners hg gv
  have hq : q ∈ cornerSet (tri (upd p v q) f) ∩ cornerSet (tri (upd p v q) g) := by
    rw [ef, eg]; simp [upd_self]
  rw [ef, upd_self, upd_ne nu, upd_ne nu'] at z1
  rw [eg, upd_self, upd_ne nx, upd_ne nx'] at z2
  obtain ⟨r, s1, s2, hs1, hs2, hs, e1⟩ := inTri z1
  obtain ⟨r', t1, t2, ht1, ht2, ht, e2⟩ := inTri z2
  have hz : z ≠ q := fun e => z3 (subset_convexHull ℝ _ (e ▸ hq))
  have hs0 : 0 < s1 + s2 := by
    by_contra h0
    have a1 : s1 = 0 := by linarith
    have a2 : s2 = 0 := by linarith
    have a3 : r = 1 := by linarith
    rw [a1, a2, a3] at e1; simp at e1; exact hz e1
  have ht0 : 0 < t1 + t2 := by
    by_contra h0
    have a1 : t1 = 0 := by linarith
    have a2 : t2 = 0 := by linarith
    have a3 : r' = 1 := by linarith
    rw [a1, a2, a3] at e2; simp at e2; exact hz e2
  have eqn : ∀ k, s1 * (axis k (p u) - axis k q) + s2 * (axis k (p u') - axis k q) = t1 * (axis k (p x) - axis k q) + t2 * (axis k (p x') - axis k q) := by
    intro k
    have a1 := axis_lin k r s1 s2 q (p u) (p u')
    have a2 := axis_lin k r' t1 t2 q (p x) (p x')
    rw [← e1] at a1; rw [← e2] at a2
    have b1 : r = 1 - s1 - s2 := by linarith
    have b2 : r' = 1 - t1 - t2 := by linarith
    subst b1 b2
    linarith
  have mq : q ∈ cornerSet (tri (upd p v q) f) := hq.1
  have mq' : q ∈ cornerSet (tri (upd p v q) g) := hq.2
  have mu : p u ∈ cornerSet (tri (upd p v q) f) := mem_corners.2 ⟨u, fu, (upd_ne nu).symm⟩
  have mu' : p u' ∈ cornerSet (tri (upd p v q) f) := mem_corners.2 ⟨u', fu', (upd_ne nu').symm⟩
  have mx : p x ∈ cornerSet (tri (upd p v q) g) := mem_corners.2 ⟨x, gx, (upd_ne nx).symm⟩
  have mx' : p x' ∈ cornerSet (tri (upd p v q) g) := mem_corners.2 ⟨x', gx', (upd_ne nx').symm⟩
  have ou : p u ∈ cornerSet (tri p f) := mem_corners.2 ⟨u, fu, rfl⟩
  have ou' : p u' ∈ cornerSet (tri p f) := mem_corners.2 ⟨u', fu', rfl⟩
  have ox : p x ∈ cornerSet (tri p g) := mem_corners.2 ⟨x, gx, rfl⟩
  have ox' : p x' ∈ cornerSet (tri p g) := mem_corners.2 ⟨x', gx', rfl⟩
  have l1 : t1 + t2 < s1 + s2 := by
    obtain ⟨k, hk | hk⟩ := separated c1
    · exact weights_lt hs1 hs2 ht1 ht2 ht0 (hk _ mq _ ox) (hk _ mq _ ox') (hk _ mu _ ox) (hk _ mu _ ox') (hk _ mu' _ ox) (hk _ mu' _ ox') (eqn k)
    · exact weights_lt (n := -axis k q) (u := -axis k (p u)) (u' := -axis k (p u')) (x := -axis k (p x)) (x' := -axis k (p x')) hs1 hs2 ht1 ht2 ht0
        (neg_lt_neg (hk _ mq _ ox)) (neg_lt_neg (hk _ mq _ ox')) (neg_lt_neg (hk _ mu _ ox)) (neg_lt_neg (hk _ mu _ ox')) (neg_lt_neg (hk _ mu' _ ox))
        (neg_lt_neg (hk _ mu' _ ox')) (by linarith [eqn k])
  have l2 : s1 + s2 < t1 + t2 := by
    obtain ⟨k, hk | hk⟩ := separated c2
    · exact weights_lt ht1 ht2 hs1 hs2 hs0 (hk _ mq' _ ou) (hk _ mq' _ ou') (hk _ mx _ ou) (hk _ mx _ ou') (hk _ mx' _ ou) (hk _ mx' _ ou') (eqn k).symm
    · exact weights_lt (n := -axis k q) (u := -axis k (p x)) (u' := -axis k (p x')) (x := -axis k (p u)) (x' := -axis k (p u')) ht1 ht2 hs1 hs2 hs0
        (neg_lt_neg (hk _ mq' _ ou)) (neg_lt_neg (hk _ mq' _ ou')) (neg_lt_neg (hk _ mx _ ou)) (neg_lt_neg (hk _ mx _ ou')) (neg_lt_neg (hk _ mx' _ ou))
        (neg_lt_neg (hk _ mx' _ ou')) (by linarith [eqn k])
  linarith

theorem cross_box {t t' : P3 × P3 × P3} (h : Cross t t') : Overlap (bboxOf t) (bboxOf t') := by
  obtain ⟨x, h1, h2, -⟩ := h
  obtain ⟨⟨a1, a2, a3⟩, a4, a5, a6⟩ := Snapper.hull_in_box t h1
  obtain ⟨⟨b1, b2, b3⟩, b4, b5, b6⟩ := Snapper.hull_in_box t' h2
  exact ⟨⟨a1.trans b4, b1.trans a4⟩, ⟨a2.trans b5, b2.trans a5⟩, a3.trans b6, b3.trans a6⟩

end Verif.Refiner
