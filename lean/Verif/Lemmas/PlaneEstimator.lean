import Verif.Spec.PlaneEstimator
import Mathlib.Tactic.Linarith
import Mathlib.Tactic.Ring
import Mathlib.Tactic.FieldSimp
import Mathlib.Tactic.LinearCombination
import Mathlib.LinearAlgebra.Matrix.NonsingularInverse

/-!
# Least squares in terms of the singular values
-/

namespace Verif.Plane

open Verif Verif.Plane.Spec
open Verif.Normals (V3 dot)

theorem dot3 (a b : V3) : dot a b = a 0 * b 0 + a 1 * b 1 + a 2 * b 2 := by
  unfold dot; rw [Fin.sum_univ_three]

theorem dot_comm (a b : V3) : dot a b = dot b a := by rw [dot3, dot3]; ring

theorem sum_add (f g : V3 → ℝ) (l : List V3) : (l.map (fun p => f p + g p)).sum = (l.map f).sum + (l.map g).sum := by
  induction l with
  | nil => simp
  | cons a l ih => simp only [List.map_cons, List.sum_cons, ih]; ring

theorem sum_mul (c : ℝ) (f : V3 → ℝ) (l : List V3) : (l.map (fun p => c * f p)).sum = c * (l.map f).sum := by
  induction l with
  | nil => simp
  | cons a l ih => simp only [List.map_cons, List.sum_cons, ih]; ring

theorem sum_const (c : ℝ) (l : List V3) : (l.map (fun _ => c)).sum = l.length * c := by
  induction l with
  | nil => simp
  | cons a l ih => simp only [List.map_cons, List.sum_cons, ih, List.length_cons]; push_cast; ring

theorem sum_congr {f g : V3 → ℝ} {l : List V3} (h : ∀ p ∈ l, f p = g p) : (l.map f).sum = (l.map g).sum := by
  rw [List.map_congr_left h]

theorem sum_le {f g : V3 → ℝ} (h : ∀ p, f p ≤ g p) (l : List V3) : (l.map f).sum ≤ (l.map g).sum := by
  induction l with
  | nil => simp
  | cons a l ih => simp only [List.map_cons, List.sum_cons]; linarith [h a]

theorem sum_nonneg {f : V3 → ℝ} (h : ∀ p, 0 ≤ f p) (l : List V3) : 0 ≤ (l.map f).sum := by
  induction l with
  | nil => simp
  | cons a l ih => simp only [List.map_cons, List.sum_cons]; linarith [h a]

/-- an orthonormal basis is complete -/
theorem complete {V : Fin 3 → V3} (h : ∀ k l, dot (V k) (V l) = if k = l then 1 else 0) (i j : Fin 3) :
    V 0 i * V 0 j + V 1 i * V 1 j + V 2 i * V 2 j = if i = j then 1 else 0 := by
  have h1 : (Matrix.of V) * (Matrix.of V).transpose = 1 := by
    ext k l
    rw [Matrix.mul_apply, Matrix.one_apply, ← h k l]
    rfl
  have h2 := mul_eq_one_comm.1 h1
  have h3 := congrFun (congrFun h2 i) j
  rw [Matrix.mul_apply, Fin.sum_univ_three, Matrix.one_apply] at h3
  exact h3

/-- products of vectors in terms of an orthonormal basis -/
theorem parseval {V : Fin 3 → V3} (h : ∀ k l, dot (V k) (V l) = if k = l then 1 else 0) (a b : V3) :
    dot a b = dot a (V 0) * dot b (V 0) + dot a (V 1) * dot b (V 1) + dot a (V 2) * dot b (V 2) := by
  have c00 := complete h 0 0; have c01 := complete h 0 1; have c02 := complete h 0 2
  have c11 := complete h 1 1; have c12 := complete h 1 2; have c22 := complete h 2 2
  simp only [if_true, show ((0 : Fin 3) = 1) = False from by simp, show ((0 : Fin 3) = 2) = False from by simp,
    show ((1 : Fin 3) = 2) = False from by simp, if_false] at c00 c01 c02 c11 c12 c22
  simp only [dot3]
  linear_combination (-(a 0 * b 0)) * c00 - (a 1 * b 1) * c11 - (a 2 * b 2) * c22 - (a 0 * b 1 + a 1 * b 0) * c01 -
    (a 0 * b 2 + a 2 * b 0) * c02 - (a 1 * b 2 + a 2 * b 1) * c12

/-- the sum of squared components along `w` in terms of the singular values -/
theorem sum_along {A : List V3} {s : V3} {V : Fin 3 → V3} (h : SvdOf A s V) (w : V3) :
    (A.map (fun a => dot a w ^ 2)).sum = s 0 ^ 2 * dot w (V 0) ^ 2 + s 1 ^ 2 * dot w (V 1) ^ 2 + s 2 ^ 2 * dot w (V 2) ^ 2 := by
  have e : ∀ a ∈ A, dot a w ^ 2 =
      ((dot w (V 0) ^ 2 * (dot a (V 0) * dot a (V 0)) + dot w (V 1) ^ 2 * (dot a (V 1) * dot a (V 1))) +
        (dot w (V 2) ^ 2 * (dot a (V 2) * dot a (V 2)) + (2 * dot w (V 0) * dot w (V 1)) * (dot a (V 0) * dot a (V 1)))) +
      ((2 * dot w (V 0) * dot w (V 2)) * (dot a (V 0) * dot a (V 2)) + (2 * dot w (V 1) * dot w (V 2)) * (dot a (V 1) * dot a (V 2))) := by
    intro a _
    rw [parseval h.orthonormal a w]
    ring
  rw [sum_congr e, sum_add, sum_add, sum_add, sum_add, sum_add, sum_mul, sum_mul, sum_mul, sum_mul, sum_mul, sum_mul,
    h.columns, h.columns, h.columns, h.columns, h.columns, h.columns]
  simp only [if_true, show ((0 : Fin 3) = 1) = False from by simp, show ((0 : Fin 3) = 2) = False from by simp,
    show ((1 : Fin 3) = 2) = False from by simp, if_false]
  ring

theorem sum_norm {A : List V3} {s : V3} {V : Fin 3 → V3} (h : SvdOf A s V) :
    (A.map (fun a => dot a a)).sum = s 0 ^ 2 + s 1 ^ 2 + s 2 ^ 2 := by
  have e : ∀ a ∈ A, dot a a = (dot a (V 0) * dot a (V 0) + dot a (V 1) * dot a (V 1)) + dot a (V 2) * dot a (V 2) := by
    intro a _
    rw [parseval h.orthonormal a a]
  rw [sum_congr e, sum_add, sum_add, h.columns, h.columns, h.columns]
  simp

theorem sq_le {s t : ℝ} (h0 : 0 ≤ s) (h : s ≤ t) : s ^ 2 ≤ t ^ 2 := by nlinarith

/-- the least squares along a unit vector -/
theorem along_ge {A : List V3} {s : V3} {V : Fin 3 → V3} (h : SvdOf A s V) (w : V3) (hw : dot w w = 1) :
    s 2 ^ 2 ≤ (A.map (fun a => dot a w ^ 2)).sum := by
  rw [sum_along h]
  have h1 := parseval h.orthonormal w w
  rw [hw] at h1
  have h2 := sq_le (h.nonneg 2) h.decreasing.2
  have h3 := sq_le (h.nonneg 1) h.decreasing.1
  nlinarith [mul_nonneg (sub_nonneg.2 h2) (sq_nonneg (dot w (V 1))), mul_nonneg (sub_nonneg.2 (h2.trans h3)) (sq_nonneg (dot w (V 0)))]

/-- the greatest squares along a unit vector -/
theorem along_le {A : List V3} {s : V3} {V : Fin 3 → V3} (h : SvdOf A s V) (w : V3) (hw : dot w w = 1) :
    (A.map (fun a => dot a w ^ 2)).sum ≤ s 0 ^ 2 := by
  rw [sum_along h]
  have h1 := parseval h.orthonormal w w
  rw [hw] at h1
  have h2 := sq_le (h.nonneg 2) h.decreasing.2
  have h3 := sq_le (h.nonneg 1) h.decreasing.1
  nlinarith [mul_nonneg (sub_nonneg.2 h3) (sq_nonneg (dot w (V 1))), mul_nonneg (sub_nonneg.2 (h2.trans h3)) (sq_nonneg (dot w (V 2)))]

theorem along_basis {A : List V3} {s : V3} {V : Fin 3 → V3} (h : SvdOf A s V) (k : Fin 3) :
    (A.map (fun a => dot a (V k) ^ 2)).sum = s k ^ 2 := by
  have := h.columns k k
  rw [if_pos rfl] at this
  rw [← this]
  exact sum_congr (fun a _ => by ring)

/-- the deviations from the barycenter add up to zero -/
theorem centred_sum {points : List V3} (hn : points ≠ []) (w : V3) : (points.map (fun p => dot (p - barycenter points) w)).sum = 0 := by
  have hl : (points.length : ℝ) ≠ 0 := by
    rw [Nat.cast_ne_zero]; exact fun h => hn (List.length_eq_zero_iff.1 h)
  have e : ∀ p ∈ points, dot (p - barycenter points) w =
      (w 0 * p 0 + w 1 * p 1) + (w 2 * p 2 + -dot (barycenter points) w) := by
    intro p _
    simp only [dot3, Pi.sub_apply]; ring
  rw [sum_congr e, sum_add, sum_add, sum_add, sum_mul, sum_mul, sum_mul, sum_const, dot3]
  simp only [barycenter]
  field_simp
  ring

/-- deviations from any point -/
theorem sum_shift {points : List V3} (hn : points ≠ []) (c w : V3) :
    (points.map (fun p => dot (p - c) w ^ 2)).sum =
      (points.map (fun p => dot (p - barycenter points) w ^ 2)).sum + points.length * dot (barycenter points - c) w ^ 2 := by
  have e : ∀ p ∈ points, dot (p - c) w ^ 2 = dot (p - barycenter points) w ^ 2 +
      (2 * dot (barycenter points - c) w * dot (p - barycenter points) w + dot (barycenter points - c) w ^ 2) := by
    intro p _
    have : dot (p - c) w = dot (p - barycenter points) w + dot (barycenter points - c) w := by
      simp only [dot3, Pi.sub_apply]; ring
    rw [this]; ring
  rw [sum_congr e, sum_add, sum_add, sum_mul, sum_const, centred_sum hn]
  ring

theorem sum_shift_norm {points : List V3} (hn : points ≠ []) (c : V3) :
    (points.map (fun p => dot (p - c) (p - c))).sum =
      (points.map (fun p => dot (p - barycenter points) (p - barycenter points))).sum +
        points.length * dot (barycenter points - c) (barycenter points - c) := by
  have e : ∀ p ∈ points, dot (p - c) (p - c) = dot (p - barycenter points) (p - barycenter points) +
      (2 * dot (p - barycenter points) (barycenter points - c) + dot (barycenter points - c) (barycenter points - c)) := by
    intro p _
    simp only [dot3, Pi.sub_apply]; ring
  rw [sum_congr e, sum_add, sum_add, sum_mul, sum_const, centred_sum hn]
  ring

theorem sum_sub (f g : V3 → ℝ) (l : List V3) : (l.map (fun p => f p - g p)).sum = (l.map f).sum - (l.map g).sum := by
  induction l with
  | nil => simp
  | cons a l ih => simp only [List.map_cons, List.sum_cons, ih]; ring

theorem cauchy (a d : V3) (hd : dot d d = 1) : dot a d ^ 2 ≤ dot a a := by
  have h : 0 ≤ dot (a - fun i => dot a d * d i) (a - fun i => dot a d * d i) := by
    rw [dot3]; nlinarith [mul_self_nonneg ((a - fun i => dot a d * d i) 0), mul_self_nonneg ((a - fun i => dot a d * d i) 1),
      mul_self_nonneg ((a - fun i => dot a d * d i) 2)]
  have e : dot (a - fun i => dot a d * d i) (a - fun i => dot a d * d i) = dot a a - 2 * dot a d ^ 2 + dot a d ^ 2 * dot d d := by
    generalize hx : dot a d = x
    have hx' := hx
    rw [dot3] at hx'
    simp only [dot3, Pi.sub_apply]
    linear_combination (-2 * x) * hx'
  rw [e, hd] at h
  linarith

theorem centred_map (points : List V3) (f : V3 → ℝ) :
    ((centred points).map f).sum = (points.map (fun p => f (p - barycenter points))).sum := by
  unfold centred
  rw [List.map_map]
  rfl

end Verif.Plane
