import Verif.Model.Directions
import Mathlib.Tactic.LinearCombination
import Mathlib.Tactic.Linarith
import Mathlib.Data.Finset.Max
import Mathlib.Data.List.Basic

/-!
# How far a direction can be from those of the tables

The convex hull of the directions and their opposites is a polyhedron around the origin.  A vector is in the cone over the face in whose direction it reaches
furthest, and there it is close to one of the corners of the face.
-/

namespace Verif.Variogram.Dir

/-! ## Space -/

abbrev Z3 := ℤ × ℤ × ℤ

def dot3 (a b : Z3) : ℤ := a.1 * b.1 + a.2.1 * b.2.1 + a.2.2 * b.2.2

def cross3 (a b : Z3) : Z3 := (a.2.1 * b.2.2 - a.2.2 * b.2.1, a.2.2 * b.1 - a.1 * b.2.2, a.1 * b.2.1 - a.2.1 * b.1)

def add3 (a b : Z3) : Z3 := (a.1 + b.1, a.2.1 + b.2.1, a.2.2 + b.2.2)

/-- The product with a real vector. -/
def ev3 (a : Z3) (v : Fin 3 → ℝ) : ℝ := a.1 * v 0 + a.2.1 * v 1 + a.2.2 * v 2

/-- The directions, then the opposite ones. -/
def pt3 (k : Nat) : Z3 :=
  if k < 46 then table3.getD k (0, 0, 0)
  else let d := table3.getD (k - 46) (0, 0, 0); (-d.1, -d.2.1, -d.2.2)

abbrev Tri := Nat × Nat × Nat

def normal3 (f : Tri) : Z3 :=
  let a := pt3 f.1; let b := pt3 f.2.1; let c := pt3 f.2.2
  add3 (cross3 b c) (add3 (cross3 c a) (cross3 a b))

def det3 (f : Tri) : ℤ := dot3 (pt3 f.1) (cross3 (pt3 f.2.1) (pt3 f.2.2))

/-- The faces of the polyhedron. -/
def faces3 : List Tri :=
  [(0, 1, 2), (0, 2, 10), (0, 10, 16), (0, 16, 22), (0, 22, 1), (1, 3, 2), (1, 7, 3), (1, 22, 28), (1, 28, 7), (2, 3, 4), (2, 4, 11), (2, 11, 10),
   (3, 5, 4), (3, 7, 8), (3, 8, 5), (4, 5, 6), (4, 6, 15), (4, 15, 11), (5, 8, 32), (5, 32, 33), (5, 33, 6), (6, 33, 34), (6, 34, 15), (7, 9, 8),
   (7, 28, 29), (7, 29, 9), (8, 9, 31), (8, 31, 32), (9, 29, 45), (9, 45, 31), (10, 11, 12), (10, 12, 17), (10, 17, 16), (11, 13, 12), (11, 15, 13), (12, 13, 14),
   (12, 14, 21), (12, 21, 17), (13, 15, 35), (13, 35, 36), (13, 36, 14), (14, 36, 37), (14, 37, 21), (15, 34, 35), (16, 17, 18), (16, 18, 23), (16, 23, 22), (17, 19, 18),
   (17, 21, 19), (18, 19, 20), (18, 20, 27), (18, 27, 23), (19, 21, 38), (19, 38, 39), (19, 39, 20), (20, 39, 40), (20, 40, 27), (21, 37, 38), (22, 23, 24), (22, 24, 28),
   (23, 25, 24), (23, 27, 25), (24, 25, 26), (24, 26, 30), (24, 30, 28), (25, 27, 41), (25, 41, 42), (25, 42, 26), (26, 42, 43), (26, 43, 30), (27, 40, 41), (28, 30, 29),
   (29, 30, 44), (29, 44, 45), (30, 43, 44), (31, 45, 84), (31, 84, 85), (31, 85, 32), (32, 85, 86), (32, 86, 33), (33, 86, 87), (33, 87, 34), (34, 87, 88), (34, 88, 35),
   (35, 88, 89), (35, 89, 36), (36, 89, 90), (36, 90, 37), (37, 90, 91), (37, 91, 38), (38, 77, 39), (38, 91, 77), (39, 77, 78), (39, 78, 40), (40, 78, 79), (40, 79, 41),
   (41, 79, 80), (41, 80, 42), (42, 80, 81), (42, 81, 43), (43, 81, 82), (43, 82, 44), (44, 82, 83), (44, 83, 45), (45, 83, 84), (46, 47, 68), (46, 48, 47), (46, 56, 48),
   (46, 62, 56), (46, 68, 62), (47, 48, 49), (47, 49, 53), (47, 53, 74), (47, 74, 68), (48, 50, 49), (48, 56, 57), (48, 57, 50), (49, 50, 51), (49, 51, 54), (49, 54, 53),
   (50, 52, 51), (50, 57, 61), (50, 61, 52), (51, 52, 79), (51, 78, 54), (51, 79, 78), (52, 61, 80), (52, 80, 79), (53, 54, 55), (53, 55, 75), (53, 75, 74), (54, 77, 55),
   (54, 78, 77), (55, 77, 91), (55, 91, 75), (56, 58, 57), (56, 62, 63), (56, 63, 58), (57, 58, 59), (57, 59, 61), (58, 60, 59), (58, 63, 67), (58, 67, 60), (59, 60, 82),
   (59, 81, 61), (59, 82, 81), (60, 67, 83), (60, 83, 82), (61, 81, 80), (62, 64, 63), (62, 68, 69), (62, 69, 64), (63, 64, 65), (63, 65, 67), (64, 66, 65), (64, 69, 73),
   (64, 73, 66), (65, 66, 85), (65, 84, 67), (65, 85, 84), (66, 73, 86), (66, 86, 85), (67, 84, 83), (68, 70, 69), (68, 74, 70), (69, 70, 71), (69, 71, 73), (70, 72, 71),
   (70, 74, 76), (70, 76, 72), (71, 72, 88), (71, 87, 73), (71, 88, 87), (72, 76, 89), (72, 89, 88), (73, 87, 86), (74, 75, 76), (75, 90, 76), (75, 91, 90), (76, 90, 89)]

def has (g : Tri) (k : Nat) : Bool := g.1 == k || g.2.1 == k || g.2.2 == k

/-- The face across the side `y z`, as seen from the corner `x`. -/
def across3 (x y z : Nat) : Bool :=
  faces3.any fun g => has g y && has g z && decide (0 < det3 g) && decide (dot3 (normal3 g) (pt3 x) < det3 g)

def close3 (f : Tri) (x : Nat) : Bool :=
  decide (944 * (dot3 (normal3 f) (normal3 f) * dot3 (pt3 x) (pt3 x)) ≤ 1000 * det3 f ^ 2) && decide (x < 92)

def check3 (f : Tri) : Bool :=
  decide (0 < det3 f) && across3 f.1 f.2.1 f.2.2 && across3 f.2.1 f.2.2 f.1 && across3 f.2.2 f.1 f.2.1 &&
    close3 f f.1 && close3 f f.2.1 && close3 f f.2.2

theorem check3_all : faces3.all check3 = true := by decide +kernel

/-! ## The plane -/

abbrev Z2 := ℤ × ℤ

def ev2 (a : Z2) (v : Fin 2 → ℝ) : ℝ := a.1 * v 0 + a.2 * v 1

def pt2 (k : Nat) : Z2 :=
  if k < 8 then table2.getD k (0, 0)
  else let d := table2.getD (k - 8) (0, 0); (-d.1, -d.2)

def dot2 (a b : Z2) : ℤ := a.1 * b.1 + a.2 * b.2

def normal2 (f : Nat × Nat) : Z2 := ((pt2 f.2).2 - (pt2 f.1).2, (pt2 f.1).1 - (pt2 f.2).1)

def det2 (f : Nat × Nat) : ℤ := (pt2 f.1).1 * (pt2 f.2).2 - (pt2 f.1).2 * (pt2 f.2).1

/-- The sides of the polygon. -/
def sides2 : List (Nat × Nat) :=
  [(0, 1), (1, 2), (2, 3), (3, 4), (4, 5), (5, 6), (6, 7), (7, 8), (8, 9), (9, 10), (10, 11), (11, 12), (12, 13), (13, 14), (14, 15), (15, 0)]

def across2 (x y : Nat) : Bool :=
  sides2.any fun g => (g.1 == y || g.2 == y) && decide (0 < det2 g) && decide (dot2 (normal2 g) (pt2 x) < det2 g)

def close2 (f : Nat × Nat) (x : Nat) : Bool :=
  decide (961 * (dot2 (normal2 f) (normal2 f) * dot2 (pt2 x) (pt2 x)) ≤ 1000 * det2 f ^ 2) && decide (x < 16)

def check2 (f : Nat × Nat) : Bool :=
  decide (0 < det2 f) && across2 f.1 f.2 && across2 f.2 f.1 && close2 f f.1 && close2 f f.2

theorem check2_all : sides2.all check2 = true := by decide +kernel

/-! ## The argument -/

/-- The last step in both dimensions: `n` is the normal of the face, `q` its determinant, `M` the largest product with a corner. -/
theorem bound_of {q pv v2 n2 M : ℝ} (hq : 0 < q) (hv : 0 < v2) (hcs : pv ^ 2 ≤ n2 * v2) (hp : 0 ≤ pv) (hM : q * v2 ≤ pv * M) : q ^ 2 * v2 ≤ n2 * M ^ 2 := by
  have hqv : 0 < q * v2 := mul_pos hq hv
  have h1 : (q * v2) ^ 2 ≤ (pv * M) ^ 2 := pow_le_pow_left₀ hqv.le hM 2
  have h2 : (pv * M) ^ 2 ≤ n2 * v2 * M ^ 2 := by
    rw [mul_pow]
    exact mul_le_mul_of_nonneg_right hcs (sq_nonneg M)
  have h3 : v2 * (q ^ 2 * v2) ≤ v2 * (n2 * M ^ 2) := by nlinarith
  exact le_of_mul_le_mul_left h3 hv

theorem ev3_normal (f : Tri) (v : Fin 3 → ℝ) :
    ev3 (normal3 f) v = ev3 (cross3 (pt3 f.2.1) (pt3 f.2.2)) v + ev3 (cross3 (pt3 f.2.2) (pt3 f.1)) v + ev3 (cross3 (pt3 f.1) (pt3 f.2.1)) v := by
  unfold ev3 normal3 add3
  push_cast
  ring

/-- The coordinates of a vector with respect to three others. -/
theorem coords3 (a b c : Z3) (v : Fin 3 → ℝ) (n : Z3) :
    (dot3 a (cross3 b c) : ℝ) * ev3 n v = ev3 (cross3 b c) v * dot3 n a + ev3 (cross3 c a) v * dot3 n b + ev3 (cross3 a b) v * dot3 n c := by
  unfold ev3 dot3 cross3
  push_cast
  ring

theorem coords3_sq (a b c : Z3) (v : Fin 3 → ℝ) :
    (dot3 a (cross3 b c) : ℝ) * (v 0 * v 0 + v 1 * v 1 + v 2 * v 2) = ev3 (cross3 b c) v * ev3 a v + ev3 (cross3 c a) v * ev3 b v + ev3 (cross3 a b) v * ev3 c v := by
  unfold ev3 dot3 cross3
  push_cast
  ring

theorem normal3_corner (g : Tri) (k : Nat) (h : has g k = true) : dot3 (normal3 g) (pt3 k) = det3 g := by
  unfold has at h
  simp only [Bool.or_eq_true, beq_iff_eq] at h
  rcases h with (rfl | rfl) | rfl <;>
  · unfold det3 normal3 add3 cross3 dot3
    ring

/-- Where a face reaches furthest in the direction `v`, the coordinate of `v` at a corner is not negative. -/
theorem coord_nonneg {x y z : Nat} {v : Fin 3 → ℝ} (hq : 0 < dot3 (pt3 x) (cross3 (pt3 y) (pt3 z))) {g : Tri} (hy : has g y = true) (hz : has g z = true)
    (hg : 0 < det3 g) (hx : dot3 (normal3 g) (pt3 x) < det3 g)
    (hmax : (det3 g : ℝ)⁻¹ * ev3 (normal3 g) v ≤ (dot3 (pt3 x) (cross3 (pt3 y) (pt3 z)) : ℝ)⁻¹ *
      (ev3 (cross3 (pt3 y) (pt3 z)) v + ev3 (cross3 (pt3 z) (pt3 x)) v + ev3 (cross3 (pt3 x) (pt3 y)) v)) :
    0 ≤ ev3 (cross3 (pt3 y) (pt3 z)) v := by
  have hc := coords3 (pt3 x) (pt3 y) (pt3 z) v (normal3 g)
  rw [normal3_corner g y hy, normal3_corner g z hz] at hc
  set q : ℝ := (dot3 (pt3 x) (cross3 (pt3 y) (pt3 z)) : ℝ) with hqd
  set α := ev3 (cross3 (pt3 y) (pt3 z)) v
  set β := ev3 (cross3 (pt3 z) (pt3 x)) v
  set γ := ev3 (cross3 (pt3 x) (pt3 y)) v
  have hq' : 0 < q := by rw [hqd]; exact_mod_cast hq
  have hg' : (0 : ℝ) < det3 g := by exact_mod_cast hg
  have hx' : (dot3 (normal3 g) (pt3 x) : ℝ) < det3 g := by exact_mod_cast hx
  have h1 : q * ev3 (normal3 g) v ≤ det3 g * (α + β + γ) := by
    have := mul_le_mul_of_nonneg_left hmax (mul_pos hq' hg').le
    have e1 : q * (det3 g : ℝ) * ((det3 g : ℝ)⁻¹ * ev3 (normal3 g) v) = q * ev3 (normal3 g) v := by field_simp
    have e2 : q * (det3 g : ℝ) * (q⁻¹ * (α + β + γ)) = det3 g * (α + β + γ) := by field_simp
    rwa [e1, e2] at this
  rw [hc] at h1
  have h2 : 0 ≤ α * ((det3 g : ℝ) - dot3 (normal3 g) (pt3 x)) := by nlinarith
  by_contra hneg
  have := mul_neg_of_neg_of_pos (not_le.1 hneg) (sub_pos.2 hx')
  linarith

theorem cs3 (n : Z3) (v : Fin 3 → ℝ) : ev3 n v ^ 2 ≤ (dot3 n n : ℝ) * (v 0 * v 0 + v 1 * v 1 + v 2 * v 2) := by
  unfold ev3 dot3
  push_cast
  nlinarith [sq_nonneg ((n.1 : ℝ) * v 1 - n.2.1 * v 0), sq_nonneg ((n.1 : ℝ) * v 2 - n.2.2 * v 0), sq_nonneg ((n.2.1 : ℝ) * v 2 - n.2.2 * v 1)]

/-- One of the 92 points is close to `v`. -/
theorem close_to (v : Fin 3 → ℝ) : ∃ k < 92, 944 * ((dot3 (pt3 k) (pt3 k) : ℝ) * (v 0 * v 0 + v 1 * v 1 + v 2 * v 2)) ≤ 1000 * ev3 (pt3 k) v ^ 2 := by
  rcases (add_nonneg (add_nonneg (mul_self_nonneg (v 0)) (mul_self_nonneg (v 1))) (mul_self_nonneg (v 2))).eq_or_lt with h0 | hv
  · refine ⟨0, by omega, ?_⟩
    rw [← h0, mul_zero, mul_zero]
    positivity
  obtain ⟨f, hf, hmax⟩ := (faces3.toFinset).exists_max_image (fun g => (det3 g : ℝ)⁻¹ * ev3 (normal3 g) v) ⟨(0, 1, 2), by decide +kernel⟩
  rw [List.mem_toFinset] at hf
  have hm : ∀ g ∈ faces3, (det3 g : ℝ)⁻¹ * ev3 (normal3 g) v ≤ (det3 f : ℝ)⁻¹ * ev3 (normal3 f) v := fun g hg => hmax g (List.mem_toFinset.2 hg)
  have hck := List.all_eq_true.1 check3_all f hf
  unfold check3 at hck
  simp only [Bool.and_eq_true, decide_eq_true_eq] at hck
  obtain ⟨⟨⟨⟨⟨⟨hq, ha⟩, hb⟩, hc⟩, ka⟩, kb⟩, kc⟩ := hck
  have hrot1 : dot3 (pt3 f.2.1) (cross3 (pt3 f.2.2) (pt3 f.1)) = det3 f := by unfold det3 cross3 dot3; ring
  have hrot2 : dot3 (pt3 f.2.2) (cross3 (pt3 f.1) (pt3 f.2.1)) = det3 f := by unfold det3 cross3 dot3; ring
  have hrot0 : dot3 (pt3 f.1) (cross3 (pt3 f.2.1) (pt3 f.2.2)) = det3 f := rfl
  have hsum := ev3_normal f v
  have hα : 0 ≤ ev3 (cross3 (pt3 f.2.1) (pt3 f.2.2)) v := by
    unfold across3 at ha
    obtain ⟨g, hg, h⟩ := List.any_eq_true.1 ha
    simp only [Bool.and_eq_true, decide_eq_true_eq] at h
    obtain ⟨⟨⟨h1, h2⟩, h3⟩, h4⟩ := h
    refine coord_nonneg (by rw [hrot0]; exact hq) h1 h2 h3 h4 ?_
    rw [hrot0, ← hsum]
    exact hm g hg
  have hβ : 0 ≤ ev3 (cross3 (pt3 f.2.2) (pt3 f.1)) v := by
    unfold across3 at hb
    obtain ⟨g, hg, h⟩ := List.any_eq_true.1 hb
    simp only [Bool.and_eq_true, decide_eq_true_eq] at h
    obtain ⟨⟨⟨h1, h2⟩, h3⟩, h4⟩ := h
    refine coord_nonneg (by rw [hrot1]; exact hq) h1 h2 h3 h4 ?_
    rw [hrot1]
    have := hm g hg
    rw [hsum] at this
    convert this using 2
    ring
  have hγ : 0 ≤ ev3 (cross3 (pt3 f.1) (pt3 f.2.1)) v := by
    unfold across3 at hc
    obtain ⟨g, hg, h⟩ := List.any_eq_true.1 hc
    simp only [Bool.and_eq_true, decide_eq_true_eq] at h
    obtain ⟨⟨⟨h1, h2⟩, h3⟩, h4⟩ := h
    refine coord_nonneg (by rw [hrot2]; exact hq) h1 h2 h3 h4 ?_
    rw [hrot2]
    have := hm g hg
    rw [hsum] at this
    convert this using 2
    ring
  have hq' : (0 : ℝ) < det3 f := by exact_mod_cast hq
  obtain ⟨x, hcl, e1, e2, e3⟩ : ∃ x, close3 f x = true ∧ ev3 (pt3 f.1) v ≤ ev3 (pt3 x) v ∧ ev3 (pt3 f.2.1) v ≤ ev3 (pt3 x) v ∧ ev3 (pt3 f.2.2) v ≤ ev3 (pt3 x) v := by
    rcases le_total (ev3 (pt3 f.1) v) (ev3 (pt3 f.2.1) v) with h1 | h1
    · rcases le_total (ev3 (pt3 f.2.1) v) (ev3 (pt3 f.2.2) v) with h2 | h2
      · exact ⟨_, kc, h1.trans h2, h2, le_refl _⟩
      · exact ⟨_, kb, h1, le_refl _, h2⟩
    · rcases le_total (ev3 (pt3 f.1) v) (ev3 (pt3 f.2.2) v) with h2 | h2
      · exact ⟨_, kc, h2, h1.trans h2, le_refl _⟩
      · exact ⟨_, ka, le_refl _, h1, h2⟩
  unfold close3 at hcl
  simp only [Bool.and_eq_true, decide_eq_true_eq] at hcl
  obtain ⟨hcl, hx⟩ := hcl
  have hcl' : 944 * ((dot3 (normal3 f) (normal3 f) : ℝ) * dot3 (pt3 x) (pt3 x)) ≤ 1000 * (det3 f : ℝ) ^ 2 := by exact_mod_cast hcl
  refine ⟨x, hx, ?_⟩
  have hp : 0 ≤ ev3 (normal3 f) v := by rw [hsum]; positivity
  have hM : (det3 f : ℝ) * (v 0 * v 0 + v 1 * v 1 + v 2 * v 2) ≤ ev3 (normal3 f) v * ev3 (pt3 x) v := by
    rw [← hrot0, coords3_sq, hsum]
    nlinarith [mul_le_mul_of_nonneg_left e1 hα, mul_le_mul_of_nonneg_left e2 hβ, mul_le_mul_of_nonneg_left e3 hγ]
  have hb := bound_of hq' hv (cs3 (normal3 f) v) hp hM
  have hn2 : (0 : ℝ) < dot3 (normal3 f) (normal3 f) := by
    by_contra hn
    have h1 : (dot3 (normal3 f) (normal3 f) : ℝ) * ev3 (pt3 x) v ^ 2 ≤ 0 := mul_nonpos_of_nonpos_of_nonneg (not_lt.1 hn) (sq_nonneg _)
    have h2 : 0 < (det3 f : ℝ) ^ 2 * (v 0 * v 0 + v 1 * v 1 + v 2 * v 2) := by positivity
    linarith
  refine le_of_mul_le_mul_left ?_ hn2
  have h1 := mul_le_mul_of_nonneg_right hcl' hv.le
  nlinarith

theorem ev2_corner (g : Nat × Nat) (k : Nat) (h : (g.1 == k || g.2 == k) = true) : dot2 (normal2 g) (pt2 k) = det2 g := by
  simp only [Bool.or_eq_true, beq_iff_eq] at h
  rcases h with rfl | rfl <;>
  · unfold det2 normal2 dot2
    ring

theorem cs2 (n : Z2) (v : Fin 2 → ℝ) : ev2 n v ^ 2 ≤ (dot2 n n : ℝ) * (v 0 * v 0 + v 1 * v 1) := by
  unfold ev2 dot2
  push_cast
  nlinarith [sq_nonneg ((n.1 : ℝ) * v 1 - n.2 * v 0)]

theorem coord_nonneg2 {q α β nx dg : ℝ} {ev : ℝ} (hq : 0 < q) (hg : 0 < dg) (hx : nx < dg) (hc : q * ev = α * nx + β * dg)
    (hmax : dg⁻¹ * ev ≤ q⁻¹ * (α + β)) : 0 ≤ α := by
  have h1 : q * ev ≤ dg * (α + β) := by
    have := mul_le_mul_of_nonneg_left hmax (mul_pos hq hg).le
    have e1 : q * dg * (dg⁻¹ * ev) = q * ev := by field_simp
    have e2 : q * dg * (q⁻¹ * (α + β)) = dg * (α + β) := by field_simp
    rwa [e1, e2] at this
  rw [hc] at h1
  by_contra hneg
  have := mul_neg_of_neg_of_pos (not_le.1 hneg) (sub_pos.2 hx)
  nlinarith

/-- One of the 16 points is close to `v`. -/
theorem close_to2 (v : Fin 2 → ℝ) : ∃ k < 16, 961 * ((dot2 (pt2 k) (pt2 k) : ℝ) * (v 0 * v 0 + v 1 * v 1)) ≤ 1000 * ev2 (pt2 k) v ^ 2 := by
  rcases (add_nonneg (mul_self_nonneg (v 0)) (mul_self_nonneg (v 1))).eq_or_lt with h0 | hv
  · refine ⟨0, by omega, ?_⟩
    rw [← h0, mul_zero, mul_zero]
    positivity
  obtain ⟨f, hf, hmax⟩ := (sides2.toFinset).exists_max_image (fun g => (det2 g : ℝ)⁻¹ * ev2 (normal2 g) v) ⟨(0, 1), by decide +kernel⟩
  rw [List.mem_toFinset] at hf
  have hm : ∀ g ∈ sides2, (det2 g : ℝ)⁻¹ * ev2 (normal2 g) v ≤ (det2 f : ℝ)⁻¹ * ev2 (normal2 f) v := fun g hg => hmax g (List.mem_toFinset.2 hg)
  have hck := List.all_eq_true.1 check2_all f hf
  unfold check2 at hck
  simp only [Bool.and_eq_true, decide_eq_true_eq] at hck
  obtain ⟨⟨⟨⟨hq, ha⟩, hb⟩, ka⟩, kb⟩ := hck
  have hq' : (0 : ℝ) < det2 f := by exact_mod_cast hq
  set α : ℝ := v 0 * (pt2 f.2).2 - v 1 * (pt2 f.2).1 with hαd
  set β : ℝ := (pt2 f.1).1 * v 1 - (pt2 f.1).2 * v 0 with hβd
  have hsum : ev2 (normal2 f) v = α + β := by
    rw [hαd, hβd]
    unfold ev2 normal2
    push_cast
    ring
  have hcoord : ∀ n : Z2, (det2 f : ℝ) * ev2 n v = α * dot2 n (pt2 f.1) + β * dot2 n (pt2 f.2) := by
    intro n
    rw [hαd, hβd]
    unfold ev2 dot2 det2
    push_cast
    ring
  have hα : 0 ≤ α := by
    unfold across2 at ha
    obtain ⟨g, hg, h⟩ := List.any_eq_true.1 ha
    simp only [Bool.and_eq_true, decide_eq_true_eq] at h
    obtain ⟨⟨h1, h3⟩, h4⟩ := h
    refine coord_nonneg2 (dg := det2 g) (nx := dot2 (normal2 g) (pt2 f.1)) (ev := ev2 (normal2 g) v) hq' (by exact_mod_cast h3) (by exact_mod_cast h4) ?_ (by rw [← hsum]; exact hm g hg)
    rw [hcoord, ev2_corner g f.2 h1]
  have hβ : 0 ≤ β := by
    unfold across2 at hb
    obtain ⟨g, hg, h⟩ := List.any_eq_true.1 hb
    simp only [Bool.and_eq_true, decide_eq_true_eq] at h
    obtain ⟨⟨h1, h3⟩, h4⟩ := h
    refine coord_nonneg2 (dg := det2 g) (nx := dot2 (normal2 g) (pt2 f.2)) (ev := ev2 (normal2 g) v) hq' (by exact_mod_cast h3) (by exact_mod_cast h4) ?_
      (by rw [add_comm, ← hsum]; exact hm g hg)
    rw [hcoord, ev2_corner g f.1 h1, add_comm]
  obtain ⟨x, hcl, e1, e2⟩ : ∃ x, close2 f x = true ∧ ev2 (pt2 f.1) v ≤ ev2 (pt2 x) v ∧ ev2 (pt2 f.2) v ≤ ev2 (pt2 x) v := by
    rcases le_total (ev2 (pt2 f.1) v) (ev2 (pt2 f.2) v) with h1 | h1
    · exact ⟨_, kb, h1, le_refl _⟩
    · exact ⟨_, ka, le_refl _, h1⟩
  unfold close2 at hcl
  simp only [Bool.and_eq_true, decide_eq_true_eq] at hcl
  obtain ⟨hcl, hx⟩ := hcl
  have hcl' : 961 * ((dot2 (normal2 f) (normal2 f) : ℝ) * dot2 (pt2 x) (pt2 x)) ≤ 1000 * (det2 f : ℝ) ^ 2 := by exact_mod_cast hcl
  refine ⟨x, hx, ?_⟩
  have hp : 0 ≤ ev2 (normal2 f) v := by rw [hsum]; positivity
  have hM : (det2 f : ℝ) * (v 0 * v 0 + v 1 * v 1) ≤ ev2 (normal2 f) v * ev2 (pt2 x) v := by
    have : (det2 f : ℝ) * (v 0 * v 0 + v 1 * v 1) = α * ev2 (pt2 f.1) v + β * ev2 (pt2 f.2) v := by
      rw [hαd, hβd]
      unfold ev2 det2
      push_cast
      ring
    rw [this, hsum]
    nlinarith [mul_le_mul_of_nonneg_left e1 hα, mul_le_mul_of_nonneg_left e2 hβ]
  have hb := bound_of hq' hv (cs2 (normal2 f) v) hp hM
  have hn2 : (0 : ℝ) < dot2 (normal2 f) (normal2 f) := by
    by_contra hn
    have h1 : (dot2 (normal2 f) (normal2 f) : ℝ) * ev2 (pt2 x) v ^ 2 ≤ 0 := mul_nonpos_of_nonpos_of_nonneg (not_lt.1 hn) (sq_nonneg _)
    have h2 : 0 < (det2 f : ℝ) ^ 2 * (v 0 * v 0 + v 1 * v 1) := by positivity
    linarith
  refine le_of_mul_le_mul_left ?_ hn2
  have h1 := mul_le_mul_of_nonneg_right hcl' hv.le
  nlinarith

/-! ## The tables -/

/-- Some direction of the table is close to `v`. -/
theorem near3 (v : Fin 3 → ℝ) : ∃ d ∈ table3, 944 * ((dot3 d d : ℝ) * (v 0 * v 0 + v 1 * v 1 + v 2 * v 2)) ≤ 1000 * ev3 d v ^ 2 := by
  obtain ⟨k, hk, h⟩ := close_to v
  have hlen : table3.length = 46 := by decide +kernel
  unfold pt3 at h
  by_cases h46 : k < 46
  · rw [if_pos h46] at h
    refine ⟨_, ?_, h⟩
    rw [List.getD_eq_getElem?_getD, List.getElem?_eq_getElem (by omega), Option.getD_some]
    exact List.getElem_mem _
  · rw [if_neg h46] at h
    dsimp only at h
    refine ⟨table3.getD (k - 46) (0, 0, 0), ?_, ?_⟩
    · rw [List.getD_eq_getElem?_getD, List.getElem?_eq_getElem (by omega), Option.getD_some]
      exact List.getElem_mem _
    · convert h using 2
      · unfold dot3; push_cast; ring
      · unfold ev3; push_cast; ring

theorem near2 (v : Fin 2 → ℝ) : ∃ d ∈ table2, 961 * ((dot2 d d : ℝ) * (v 0 * v 0 + v 1 * v 1)) ≤ 1000 * ev2 d v ^ 2 := by
  obtain ⟨k, hk, h⟩ := close_to2 v
  have hlen : table2.length = 8 := by decide +kernel
  unfold pt2 at h
  by_cases h8 : k < 8
  · rw [if_pos h8] at h
    refine ⟨_, ?_, h⟩
    rw [List.getD_eq_getElem?_getD, List.getElem?_eq_getElem (by omega), Option.getD_some]
    exact List.getElem_mem _
  · rw [if_neg h8] at h
    dsimp only at h
    refine ⟨table2.getD (k - 8) (0, 0), ?_, ?_⟩
    · rw [List.getD_eq_getElem?_getD, List.getElem?_eq_getElem (by omega), Option.getD_some]
      exact List.getElem_mem _
    · convert h using 2
      · unfold dot2; push_cast; ring
      · unfold ev2; push_cast; ring

/-- Two directions of the tables are never closer than about 20 and 22.5 degrees, and none is zero. -/
theorem apart3 : table3.Pairwise fun d e => 10000 * dot3 d e ^ 2 ≤ 8823 * (dot3 d d * dot3 e e) := by decide +kernel

theorem apart2 : table2.Pairwise fun d e => 10000 * dot2 d e ^ 2 ≤ 8536 * (dot2 d d * dot2 e e) := by decide +kernel

theorem nonzero3 : ∀ d ∈ table3, 0 < dot3 d d := by decide +kernel

theorem nonzero2 : ∀ d ∈ table2, 0 < dot2 d d := by decide +kernel

end Verif.Variogram.Dir
