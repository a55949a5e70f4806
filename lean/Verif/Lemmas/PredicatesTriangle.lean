import Verif.Lemmas.Predicates
import Verif.Lemmas.MeshIntersect
import Mathlib.LinearAlgebra.Dimension.Constructions
import Mathlib.LinearAlgebra.FiniteDimensional.Lemmas
import Mathlib.Tactic.FinCases
import Mathlib.Tactic.Module

/-! # Triangles that meet -/

namespace Verif.Predicates

open Verif MeshDefects MeshDefects.Spec Geometry

theorem inTri_rot {x a b c : P3} (h : InTriangle x a b c) : InTriangle x b c a := by
  obtain ⟨r, s, t, hr, hs, ht, hsum, hx⟩ := h
  exact ⟨s, t, r, hs, ht, hr, by linarith, by rw [hx]; abel⟩

theorem inTri_swap {x a b c : P3} (h : InTriangle x a b c) : InTriangle x b a c := by
  obtain ⟨r, s, t, hr, hs, ht, hsum, hx⟩ := h
  exact ⟨s, r, t, hs, hr, ht, by linarith, by rw [hx]; abel⟩

theorem inSeg_symm {x a b : P3} (h : InSegment x a b) : InSegment x b a := by
  obtain ⟨s, t, hs, ht, hsum, hx⟩ := h
  exact ⟨t, s, ht, hs, by linarith, by rw [hx]; abel⟩

/-- Six numbers under five linear conditions. -/
theorem dependent (A P : Fin 3 → P3) : ∃ u v : Fin 3 → ℝ, (u ≠ 0 ∨ v ≠ 0) ∧ u 0 + u 1 + u 2 = 0 ∧ v 0 + v 1 + v 2 = 0 ∧
    u 0 • A 0 + u 1 • A 1 + u 2 • A 2 = v 0 • P 0 + v 1 • P 1 + v 2 • P 2 := by
  let f : (Fin 3 → ℝ) × (Fin 3 → ℝ) →ₗ[ℝ] ℝ × ℝ × P3 :=
    { toFun := fun w => (w.1 0 + w.1 1 + w.1 2, w.2 0 + w.2 1 + w.2 2,
        w.1 0 • A 0 + w.1 1 • A 1 + w.1 2 • A 2 - (w.2 0 • P 0 + w.2 1 • P 1 + w.2 2 • P 2))
      map_add' := by
        intro x y
        refine Prod.ext ?_ (Prod.ext ?_ ?_)
        · simp; ring
        · simp; ring
        · simp only [Prod.fst_add, Prod.snd_add, Pi.add_apply, Prod.mk_add_mk]
          module
      map_smul' := by
        intro m x
        refine Prod.ext ?_ (Prod.ext ?_ ?_)
        · simp; ring
        · simp; ring
        · simp only [Prod.smul_fst, Prod.smul_snd, Pi.smul_apply, smul_eq_mul, RingHom.id_apply]
          module }
  have hker := LinearMap.ker_ne_bot_of_finrank_lt (f := f) (by simp)
  obtain ⟨w, hw, hne⟩ := (Submodule.ne_bot_iff _).1 hker
  rw [LinearMap.mem_ker] at hw
  have e := Prod.ext_iff.1 hw
  have e' := Prod.ext_iff.1 e.2
  refine ⟨w.1, w.2, ?_, e.1, e'.1, sub_eq_zero.1 e'.2⟩
  by_contra h
  rw [not_or, not_not, not_not] at h
  exact hne (Prod.ext h.1 h.2)

theorem neg_of_sum_zero {u : Fin 3 → ℝ} (hu : u ≠ 0) (hs : u 0 + u 1 + u 2 = 0) : ∃ i, u i < 0 := by
  by_contra h
  rw [not_exists, fin3_forall] at h
  obtain ⟨h0, h1, h2⟩ := h
  rw [not_lt] at h0 h1 h2
  apply hu
  ext i
  match i with
  | 0 => show u 0 = 0; linarith
  | 1 => show u 1 = 0; linarith
  | 2 => show u 2 = 0; linarith

/-- Where a barycentric coordinate is zero, the point is on the opposite edge. -/
theorem on_edge {x : P3} {A : Fin 3 → P3} {w : Fin 3 → ℝ} (hw : ∀ i, 0 ≤ w i) (hsum : w 0 + w 1 + w 2 = 1)
    (hx : x = w 0 • A 0 + w 1 • A 1 + w 2 • A 2) {i : Fin 3} (hi : w i = 0) : InSegment x (A (i + 1)) (A (i + 2)) := by
  refine ⟨w (i + 1), w (i + 2), hw _, hw _, ?_⟩
  match i, hi with
  | 0, hi =>
      show w 1 + w 2 = 1 ∧ _ = w 1 • A 1 + w 2 • A 2
      rw [hi] at hsum hx
      exact ⟨by linarith, by rw [hx]; module⟩
  | 1, hi =>
      show w 2 + w 0 = 1 ∧ _ = w 2 • A 2 + w 0 • A 0
      rw [hi] at hsum hx
      exact ⟨by linarith, by rw [hx]; module⟩
  | 2, hi =>
      show w 0 + w 1 = 1 ∧ _ = w 0 • A 0 + w 1 • A 1
      rw [hi] at hsum hx
      exact ⟨by linarith, by rw [hx]; module⟩

/-- Of two triangles that meet, an edge of one meets the other. -/
theorem edge_meets {a b c p q r x : P3} (h1 : InTriangle x a b c) (h2 : InTriangle x p q r) :
    ∃ y, ((InSegment y a b ∨ InSegment y b c ∨ InSegment y c a) ∧ InTriangle y p q r) ∨
      ((InSegment y p q ∨ InSegment y q r ∨ InSegment y r p) ∧ InTriangle y a b c) := by
  obtain ⟨l0, l1, l2, p0, p1, p2, ls, hx⟩ := h1
  obtain ⟨m0, m1, m2, q0, q1, q2, ms, hx'⟩ := h2
  obtain ⟨u, v, hne, hu, hv, huv⟩ := dependent ![a, b, c] ![p, q, r]
  let cc : Fin 3 ⊕ Fin 3 → ℝ := Sum.elim ![l0, l1, l2] ![m0, m1, m2]
  let dd : Fin 3 ⊕ Fin 3 → ℝ := Sum.elim u v
  have hc : ∀ i, 0 ≤ cc i := by
    rintro (i | i)
    · exact (fin3_forall (P := fun i => 0 ≤ cc (.inl i))).2 ⟨p0, p1, p2⟩ i
    · exact (fin3_forall (P := fun i => 0 ≤ cc (.inr i))).2 ⟨q0, q1, q2⟩ i
  have hd : ∃ i, dd i < 0 := by
    rcases hne with h | h
    · obtain ⟨i, hi⟩ := neg_of_sum_zero h hu
      exact ⟨.inl i, hi⟩
    · obtain ⟨i, hi⟩ := neg_of_sum_zero h hv
      exact ⟨.inr i, hi⟩
  obtain ⟨τ, -, i, -, hi, hτ⟩ := exit cc dd hc hd
  let w : Fin 3 → ℝ := fun i => cc (.inl i) + τ * dd (.inl i)
  let z : Fin 3 → ℝ := fun i => cc (.inr i) + τ * dd (.inr i)
  have w0 : w 0 = l0 + τ * u 0 := rfl
  have w1 : w 1 = l1 + τ * u 1 := rfl
  have w2 : w 2 = l2 + τ * u 2 := rfl
  have z0 : z 0 = m0 + τ * v 0 := rfl
  have z1 : z 1 = m1 + τ * v 1 := rfl
  have z2 : z 2 = m2 + τ * v 2 := rfl
  have hw : ∀ i, 0 ≤ w i := fun i => hτ (.inl i)
  have hz : ∀ i, 0 ≤ z i := fun i => hτ (.inr i)
  have sw : w 0 + w 1 + w 2 = 1 := by rw [w0, w1, w2]; linear_combination ls + τ * hu
  have sz : z 0 + z 1 + z 2 = 1 := by rw [z0, z1, z2]; linear_combination ms + τ * hv
  have huv' : u 0 • a + u 1 • b + u 2 • c = v 0 • p + v 1 • q + v 2 • r := huv
  have hy : w 0 • a + w 1 • b + w 2 • c = z 0 • p + z 1 • q + z 2 • r := by
    have e1 : w 0 • a + w 1 • b + w 2 • c = x + τ • (u 0 • a + u 1 • b + u 2 • c) := by rw [hx, w0, w1, w2]; module
    have e2 : z 0 • p + z 1 • q + z 2 • r = x + τ • (v 0 • p + v 1 • q + v 2 • r) := by rw [hx', z0, z1, z2]; module
    rw [e1, e2, huv']
  have hA : InTriangle (w 0 • a + w 1 • b + w 2 • c) a b c := ⟨w 0, w 1, w 2, hw 0, hw 1, hw 2, sw, rfl⟩
  have hP : InTriangle (w 0 • a + w 1 • b + w 2 • c) p q r := ⟨z 0, z 1, z 2, hz 0, hz 1, hz 2, sz, hy⟩
  refine ⟨w 0 • a + w 1 • b + w 2 • c, ?_⟩
  rcases i with i | i
  · left
    refine ⟨?_, hP⟩
    have := on_edge (A := ![a, b, c]) (x := w 0 • a + w 1 • b + w 2 • c) hw sw rfl (i := i) hi
    match i, this with
    | 0, h => exact Or.inr (Or.inl h)
    | 1, h => exact Or.inr (Or.inr h)
    | 2, h => exact Or.inl h
  · right
    refine ⟨?_, hA⟩
    have := on_edge (A := ![p, q, r]) (x := w 0 • a + w 1 • b + w 2 • c) hz sz hy (i := i) hi
    match i, this with
    | 0, h => exact Or.inr (Or.inl h)
    | 1, h => exact Or.inr (Or.inr h)
    | 2, h => exact Or.inl h

/-- Two triangles with the corner `p` in common that meet elsewhere: the opposite edge of one meets the other. -/
theorem opposite_meets {p a b c d x : P3} (h1 : InTriangle x p a b) (h2 : InTriangle x p c d) (hx : x ≠ p) :
    ∃ y, (InSegment y a b ∧ InTriangle y p c d) ∨ (InSegment y c d ∧ InTriangle y p a b) := by
  obtain ⟨l0, l1, l2, p0, p1, p2, ls, ex⟩ := h1
  obtain ⟨m0, m1, m2, q0, q1, q2, ms, ex'⟩ := h2
  have hl : 0 < l1 + l2 := by
    rcases (add_nonneg p1 p2).lt_or_eq with h | h
    · exact h
    · exfalso
      have e1 : l1 = 0 := by linarith
      have e2 : l2 = 0 := by linarith
      have e0 : l0 = 1 := by linarith
      apply hx; rw [ex, e0, e1, e2]; module
  have hm : 0 < m1 + m2 := by
    rcases (add_nonneg q1 q2).lt_or_eq with h | h
    · exact h
    · exfalso
      have e1 : m1 = 0 := by linarith
      have e2 : m2 = 0 := by linarith
      have e0 : m0 = 1 := by linarith
      apply hx; rw [ex', e0, e1, e2]; module
  have f0 : l0 = 1 - l1 - l2 := by linarith
  have g0 : m0 = 1 - m1 - m2 := by linarith
  have key : l1 • (a - p) + l2 • (b - p) = m1 • (c - p) + m2 • (d - p) := by
    have e1 : l1 • (a - p) + l2 • (b - p) = x - p := by rw [ex, f0]; module
    have e2 : m1 • (c - p) + m2 • (d - p) = x - p := by rw [ex', g0]; module
    rw [e1, e2]
  rcases le_total (m1 + m2) (l1 + l2) with h | h
  · have hL : (l1 + l2) ≠ 0 := ne_of_gt hl
    refine ⟨(l1 / (l1 + l2)) • a + (l2 / (l1 + l2)) • b, Or.inl ⟨⟨_, _, by positivity, by positivity, by field_simp, rfl⟩, ?_⟩⟩
    refine ⟨1 - (m1 + m2) / (l1 + l2), m1 / (l1 + l2), m2 / (l1 + l2), ?_, by positivity, by positivity, by field_simp; ring, ?_⟩
    · rw [sub_nonneg, div_le_one hl]; exact h
    · have e1 : (l1 / (l1 + l2)) • a + (l2 / (l1 + l2)) • b = p + (1 / (l1 + l2)) • (l1 • (a - p) + l2 • (b - p)) := by
        have : (1 : ℝ) = l1 / (l1 + l2) + l2 / (l1 + l2) := by field_simp
        have e : p + (1 / (l1 + l2)) • (l1 • (a - p) + l2 • (b - p)) = (l1 / (l1 + l2)) • a + (l2 / (l1 + l2)) • b +
            (1 - (l1 / (l1 + l2) + l2 / (l1 + l2))) • p := by module
        rw [e, ← this]
        simp
      rw [e1, key]
      module
  · have hM : (m1 + m2) ≠ 0 := ne_of_gt hm
    refine ⟨(m1 / (m1 + m2)) • c + (m2 / (m1 + m2)) • d, Or.inr ⟨⟨_, _, by positivity, by positivity, by field_simp, rfl⟩, ?_⟩⟩
    refine ⟨1 - (l1 + l2) / (m1 + m2), l1 / (m1 + m2), l2 / (m1 + m2), ?_, by positivity, by positivity, by field_simp; ring, ?_⟩
    · rw [sub_nonneg, div_le_one hm]; exact h
    · have e1 : (m1 / (m1 + m2)) • c + (m2 / (m1 + m2)) • d = p + (1 / (m1 + m2)) • (m1 • (c - p) + m2 • (d - p)) := by
        have : (1 : ℝ) = m1 / (m1 + m2) + m2 / (m1 + m2) := by field_simp
        have e : p + (1 / (m1 + m2)) • (m1 • (c - p) + m2 • (d - p)) = (m1 / (m1 + m2)) • c + (m2 / (m1 + m2)) • d +
            (1 - (m1 / (m1 + m2) + m2 / (m1 + m2))) • p := by module
        rw [e, ← this]
        simp
      rw [e1, ← key]
      module

theorem inTriangle_of_hull {x a b c : P3} (h : x ∈ convexHull ℝ ({a, b, c} : Set P3)) : InTriangle x a b c := by
  have hconv : Convex ℝ {x | InTriangle x a b c} := by
    rintro x ⟨r, s, t, hr, hs, ht, hsum, rfl⟩ y ⟨r', s', t', hr', hs', ht', hsum', rfl⟩ m n hm hn hmn
    refine ⟨m * r + n * r', m * s + n * s', m * t + n * t', by positivity, by positivity, by positivity, ?_, by module⟩
    linear_combination m * hsum + n * hsum' + hmn
  refine convexHull_min ?_ hconv h
  rintro y (rfl | rfl | rfl)
  · exact ⟨1, 0, 0, by norm_num, by norm_num, by norm_num, by norm_num, by module⟩
  · exact ⟨0, 1, 0, by norm_num, by norm_num, by norm_num, by norm_num, by module⟩
  · exact ⟨0, 0, 1, by norm_num, by norm_num, by norm_num, by norm_num, by module⟩

theorem hull_of_inSegment {x a b : P3} {s : Set P3} (h : InSegment x a b) (ha : a ∈ s) (hb : b ∈ s) : x ∈ convexHull ℝ s := by
  obtain ⟨u, v, hu, hv, huv, rfl⟩ := h
  exact convex_convexHull ℝ s (subset_convexHull ℝ s ha) (subset_convexHull ℝ s hb) hu hv huv

theorem hull_of_inTriangle {x a b c : P3} (h : InTriangle x a b c) : x ∈ convexHull ℝ ({a, b, c} : Set P3) := by
  obtain ⟨r, s, t, hr, hs, ht, hsum, rfl⟩ := h
  have hc := convex_convexHull ℝ ({a, b, c} : Set P3)
  have ha := subset_convexHull ℝ ({a, b, c} : Set P3) (Set.mem_insert a _)
  have hb := subset_convexHull ℝ ({a, b, c} : Set P3) (Set.mem_insert_of_mem a (Set.mem_insert b _))
  have hcc := subset_convexHull ℝ ({a, b, c} : Set P3) (Set.mem_insert_of_mem a (Set.mem_insert_of_mem b rfl))
  rcases (add_nonneg hr hs).lt_or_eq with h | h
  · have h1 := hc ha hb (a := r / (r + s)) (b := s / (r + s)) (by positivity) (by positivity) (by field_simp)
    have h2 := hc h1 hcc (a := r + s) (b := t) (by positivity) ht hsum
    convert h2 using 1
    rw [smul_add, smul_smul, smul_smul, mul_div_cancel₀ _ (ne_of_gt h), mul_div_cancel₀ _ (ne_of_gt h)]
  · have e1 : r = 0 := by linarith
    have e2 : s = 0 := by linarith
    have e3 : t = 1 := by linarith
    rw [e1, e2, e3]
    convert hcc using 1
    module

theorem inSegment_le {x a b : P3} (h : InSegment x a b) : (x.1 ≤ (cmax a b).1 ∧ x.2.1 ≤ (cmax a b).2.1 ∧ x.2.2 ≤ (cmax a b).2.2) ∧
    ((cmin a b).1 ≤ x.1 ∧ (cmin a b).2.1 ≤ x.2.1 ∧ (cmin a b).2.2 ≤ x.2.2) := by
  obtain ⟨s, t, hs, ht, hst, rfl⟩ := h
  have key : ∀ u v : ℝ, s * u + t * v ≤ max u v ∧ min u v ≤ s * u + t * v := by
    intro u v
    constructor
    · have h1 := mul_le_mul_of_nonneg_left (le_max_left u v) hs
      have h2 := mul_le_mul_of_nonneg_left (le_max_right u v) ht
      have : max u v = s * max u v + t * max u v := by rw [← add_mul, hst, one_mul]
      linarith
    · have h1 := mul_le_mul_of_nonneg_left (min_le_left u v) hs
      have h2 := mul_le_mul_of_nonneg_left (min_le_right u v) ht
      have : min u v = s * min u v + t * min u v := by rw [← add_mul, hst, one_mul]
      linarith
  exact ⟨⟨(key _ _).1, (key _ _).1, (key _ _).1⟩, ⟨(key _ _).2, (key _ _).2, (key _ _).2⟩⟩

theorem inTriangle_le {x a b c : P3} (h : InTriangle x a b c) :
    (x.1 ≤ (cmax (cmax a b) c).1 ∧ x.2.1 ≤ (cmax (cmax a b) c).2.1 ∧ x.2.2 ≤ (cmax (cmax a b) c).2.2) ∧
    ((cmin (cmin a b) c).1 ≤ x.1 ∧ (cmin (cmin a b) c).2.1 ≤ x.2.1 ∧ (cmin (cmin a b) c).2.2 ≤ x.2.2) := by
  obtain ⟨r, s, t, hr, hs, ht, hst, rfl⟩ := h
  have key : ∀ u v w : ℝ, r * u + s * v + t * w ≤ max (max u v) w ∧ min (min u v) w ≤ r * u + s * v + t * w := by
    intro u v w
    constructor
    · have h1 := mul_le_mul_of_nonneg_left ((le_max_left u v).trans (le_max_left _ w)) hr
      have h2 := mul_le_mul_of_nonneg_left ((le_max_right u v).trans (le_max_left _ w)) hs
      have h3 := mul_le_mul_of_nonneg_left (le_max_right (max u v) w) ht
      have : max (max u v) w = r * max (max u v) w + s * max (max u v) w + t * max (max u v) w := by rw [← add_mul, ← add_mul, hst, one_mul]
      linarith
    · have h1 := mul_le_mul_of_nonneg_left ((min_le_left (min u v) w).trans (min_le_left _ _)) hr
      have h2 := mul_le_mul_of_nonneg_left ((min_le_left (min u v) w).trans (min_le_right _ _)) hs
      have h3 := mul_le_mul_of_nonneg_left (min_le_right (min u v) w) ht
      have : min (min u v) w = r * min (min u v) w + s * min (min u v) w + t * min (min u v) w := by rw [← add_mul, ← add_mul, hst, one_mul]
      linarith
  exact ⟨⟨(key _ _ _).1, (key _ _ _).1, (key _ _ _).1⟩, ⟨(key _ _ _).2, (key _ _ _).2, (key _ _ _).2⟩⟩

theorem anyLt_false {x u v : P3} (h1 : x.1 ≤ u.1 ∧ x.2.1 ≤ u.2.1 ∧ x.2.2 ≤ u.2.2) (h2 : v.1 ≤ x.1 ∧ v.2.1 ≤ x.2.1 ∧ v.2.2 ≤ x.2.2) :
    anyLt u v = false := by
  simp only [anyLt, Bool.or_eq_false_iff, decide_eq_false_iff_not, not_lt]
  exact ⟨⟨h2.1.trans h1.1, h2.2.1.trans h1.2.1⟩, h2.2.2.trans h1.2.2⟩

theorem segTriIntersect_true {tf : ℝ} (htf : 0 ≤ tf) {a b p q r x : P3} (h1 : InSegment x a b) (h2 : InTriangle x p q r) :
    segTriIntersect (narrow tf) a b p q r = true := by
  unfold segTriIntersect
  rw [anyLt_false (inSegment_le h1).1 (inTriangle_le h2).2, anyLt_false (inTriangle_le h2).1 (inSegment_le h1).2]
  exact segTri_true htf h1 h2

theorem triTriIntersect_true {tf : ℝ} (htf : 0 ≤ tf) {a b c p q r x : P3} (h1 : InTriangle x a b c) (h2 : InTriangle x p q r) :
    triTriIntersect (narrow tf) a b c p q r = true := by
  unfold triTriIntersect
  rw [anyLt_false (inTriangle_le h1).1 (inTriangle_le h2).2, anyLt_false (inTriangle_le h2).1 (inTriangle_le h1).2]
  obtain ⟨y, ⟨h, h'⟩ | ⟨h, h'⟩⟩ := edge_meets h1 h2
  · rcases h with h | h | h
    · have : (narrow tf).segTri a b p q r = true := segTri_true htf h h'
      simp [this]
    · have : (narrow tf).segTri b c p q r = true := segTri_true htf h h'
      simp [this]
    · have : (narrow tf).segTri c a p q r = true := segTri_true htf h h'
      simp [this]
  · rcases h with h | h | h
    · have : (narrow tf).segTri p q a b c = true := segTri_true htf h h'
      simp [this]
    · have : (narrow tf).segTri q r a b c = true := segTri_true htf h h'
      simp [this]
    · have : (narrow tf).segTri r p a b c = true := segTri_true htf h h'
      simp [this]

theorem orient2d_third {i j : Nat} {a b p x : P3} {l m n : ℝ} (hsum : l + m + n = 1) (hx : x = l • a + m • b + n • p) :
    orient2d (proj i j a) (proj i j b) (proj i j x) = n * orient2d (proj i j a) (proj i j b) (proj i j p) := by
  have hc : ∀ k, coord x k = l * coord a k + m * coord b k + n * coord p k := by
    intro k; rw [hx, ← coord_add3]
  have e : l = 1 - m - n := by linarith
  subst e
  unfold orient2d proj
  simp only [hc]
  ring

/-- Two triangles on the same edge that overlap. -/
theorem folded_true {tf : ℝ} (htf : 0 ≤ tf) {a b p q x : P3} (h1 : InTriangle x a b p) (h2 : InTriangle x a b q) (hx : ¬ InSegment x a b) :
    folded tf a b p q = true := by
  obtain ⟨l0, l1, l2, p0, p1, p2, ls, ex⟩ := h1
  obtain ⟨m0, m1, m2, q0, q1, q2, ms, ex'⟩ := h2
  have hl : 0 < l2 := by
    rcases p2.lt_or_eq with h | h
    · exact h
    · exact absurd ⟨l0, l1, p0, p1, by linarith, by rw [ex, ← h]; module⟩ hx
  have hm : 0 < m2 := by
    rcases q2.lt_or_eq with h | h
    · exact h
    · exact absurd ⟨m0, m1, q0, q1, by linarith, by rw [ex', ← h]; module⟩ hx
  have h3 : orient3d a b p q = 0 := by
    obtain ⟨x0, x1, x2⟩ := x
    have e0 := congrArg (fun y : P3 => y.1) ex
    have e1 := congrArg (fun y : P3 => y.2.1) ex
    have e2 := congrArg (fun y : P3 => y.2.2) ex
    have f0 := congrArg (fun y : P3 => y.1) ex'
    have f1 := congrArg (fun y : P3 => y.2.1) ex'
    have f2 := congrArg (fun y : P3 => y.2.2) ex'
    have g1 := orient3d_third (a := a) (b := b) (d := q) ls (x := (x0, x1, x2)) e0 e1 e2
    have g2 := orient3d_third (a := a) (b := b) (d := q) ms (x := (x0, x1, x2)) f0 f1 f2
    have z1 : orient3d a b a q = 0 := by unfold orient3d; ring
    have z2 : orient3d a b b q = 0 := by unfold orient3d; ring
    rw [z1, z2] at g1 g2
    rw [orient3d_same] at g2
    rw [g2] at g1
    have : l2 * orient3d a b p q = 0 := by linarith
    exact (mul_eq_zero.1 this).resolve_left (ne_of_gt hl)
  unfold folded
  dsimp only
  have h2d : ∀ i j : Nat, ∀ scale : ℝ, folded2d tf a b p q i j scale = true := by
    intro i j scale
    have hty : 0 ≤ tf * scale * scale := by rw [mul_assoc]; exact mul_nonneg htf (mul_self_nonneg _)
    have e1 := orient2d_third (i := i) (j := j) ls ex
    have e2 := orient2d_third (i := i) (j := j) ms ex'
    rw [e1] at e2
    unfold folded2d
    dsimp only
    rw [if_neg]
    rintro (⟨u, v⟩ | ⟨u, v⟩)
    · have h1 : l2 * orient2d (proj i j a) (proj i j b) (proj i j p) < 0 := mul_neg_of_pos_of_neg hl (by linarith)
      have h2 : 0 < m2 * orient2d (proj i j a) (proj i j b) (proj i j q) := mul_pos hm (by linarith)
      linarith
    · have h1 : 0 < l2 * orient2d (proj i j a) (proj i j b) (proj i j p) := mul_pos hl (by linarith)
      have h2 : m2 * orient2d (proj i j a) (proj i j b) (proj i j q) < 0 := mul_neg_of_pos_of_neg hm (by linarith)
      linarith
  rw [h2d, if_neg (by simp), h3, abs_zero, decide_eq_true_iff]
  exact tiny3_nonneg htf _ _

theorem rot_corners {t : P3 × P3 × P3} {x : P3} (h : InTriangle x t.1 t.2.1 t.2.2) {s : Nat} (hs : s < 3) :
    InTriangle x (corner t s) (corner t ((s + 1) % 3)) (corner t ((s + 2) % 3)) := by
  match s, hs with
  | 0, _ => exact h
  | 1, _ => exact inTri_rot h
  | 2, _ => exact inTri_rot (inTri_rot h)

theorem rot_corners' {t : P3 × P3 × P3} {x : P3} {s : Nat} (hs : s < 3)
    (h : InTriangle x (corner t s) (corner t ((s + 1) % 3)) (corner t ((s + 2) % 3))) : InTriangle x t.1 t.2.1 t.2.2 := by
  match s, hs, h with
  | 0, _, h => exact h
  | 1, _, h => exact inTri_rot (inTri_rot h)
  | 2, _, h => exact inTri_rot h

theorem apex_corners {t : P3 × P3 × P3} {x : P3} (h : InTriangle x t.1 t.2.1 t.2.2) {s s' : Nat} (hs : s < 3) (hs' : s' < 3) (hne : s ≠ s') :
    InTriangle x (corner t s) (corner t s') (corner t (3 - s - s')) := by
  match s, s', hs, hs', hne with
  | 0, 0, _, _, h => exact (h rfl).elim
  | 1, 1, _, _, h => exact (h rfl).elim
  | 2, 2, _, _, h => exact (h rfl).elim
  | 0, 1, _, _, _ => exact h
  | 1, 0, _, _, _ => exact inTri_swap h
  | 1, 2, _, _, _ => exact inTri_rot h
  | 2, 1, _, _, _ => exact inTri_swap (inTri_rot h)
  | 2, 0, _, _, _ => exact inTri_rot (inTri_rot h)
  | 0, 2, _, _, _ => exact inTri_swap (inTri_rot (inTri_rot h))

theorem corner_mem {t : P3 × P3 × P3} {s : Nat} : corner t s ∈ cornerSet t := by
  unfold corner cornerSet
  split
  · exact Set.mem_insert _ _
  · split
    · exact Set.mem_insert_of_mem _ (Set.mem_insert _ _)
    · exact Set.mem_insert_of_mem _ (Set.mem_insert_of_mem _ rfl)

/-- Triangles that cross are reported. -/
theorem trianglesIntersect_true {tf : ℝ} (htf : 0 ≤ tf) {a b : P3 × P3 × P3} (ha : DistinctCorners a) (hb : DistinctCorners b)
    (h : Cross a b) : trianglesIntersect (narrow tf) a b = .ok true := by
  obtain ⟨x, xa, xb, xn⟩ := h
  have xa := inTriangle_of_hull xa
  have xb := inTriangle_of_hull xb
  obtain ⟨hp, hm⟩ := shared_pairwise ha hb
  have hsh : ∀ st ∈ shared a b, corner a st.1 = corner b st.2 := by
    intro st hst
    unfold shared at hst
    rw [List.mem_filter] at hst
    simpa using hst.2
  have hin : ∀ st ∈ shared a b, corner a st.1 ∈ cornerSet a ∩ cornerSet b := by
    intro st hst
    refine ⟨corner_mem, ?_⟩
    rw [hsh st hst]
    exact corner_mem
  unfold trianglesIntersect
  match hs : shared a b with
  | [] => exact congrArg Outcome.ok (triTriIntersect_true htf xa xb)
  | [(s, t)] =>
    have h0 := hm (s, t) (by simp [hs])
    have e0 := hsh (s, t) (by simp [hs])
    have i0 := hin (s, t) (by simp [hs])
    simp only at h0 e0 i0 ⊢
    have hx : x ≠ corner a s := by
      rintro rfl
      exact xn (subset_convexHull ℝ _ i0)
    have ra := rot_corners xa h0.1
    have rb := rot_corners xb h0.2
    rw [← e0] at rb
    obtain ⟨y, ⟨y1, y2⟩ | ⟨y1, y2⟩⟩ := opposite_meets ra rb hx
    · rw [e0] at y2
      rw [segTriIntersect_true htf y1 (rot_corners' h0.2 y2)]
      simp
    · rw [segTriIntersect_true htf y1 (rot_corners' h0.1 y2)]
      simp
  | [(s0, t0), (s1, t1)] =>
    have h0 := hm (s0, t0) (by simp [hs])
    have h1 := hm (s1, t1) (by simp [hs])
    have e0 := hsh (s0, t0) (by simp [hs])
    have e1 := hsh (s1, t1) (by simp [hs])
    have i0 := hin (s0, t0) (by simp [hs])
    have i1 := hin (s1, t1) (by simp [hs])
    rw [hs] at hp
    simp only [List.pairwise_cons, List.mem_singleton, forall_eq] at hp
    obtain ⟨⟨n1, n2⟩, _⟩ := hp
    simp only at h0 h1 n1 n2 e0 e1 i0 i1 ⊢
    rw [if_pos (by omega), if_pos (by omega)]
    have ra := apex_corners xa h0.1 h1.1 n1
    have rb := apex_corners xb h0.2 h1.2 n2
    rw [← e0, ← e1] at rb
    refine congrArg Outcome.ok (folded_true htf ra rb fun hseg => xn ?_)
    exact hull_of_inSegment hseg i0 i1
  | [(s0, t0), (s1, t1), (s2, t2)] =>
    exfalso
    have h0 := hm (s0, t0) (by simp [hs])
    have h1 := hm (s1, t1) (by simp [hs])
    have h2 := hm (s2, t2) (by simp [hs])
    have i0 := hin (s0, t0) (by simp [hs])
    have i1 := hin (s1, t1) (by simp [hs])
    have i2 := hin (s2, t2) (by simp [hs])
    rw [hs] at hp
    simp only [List.pairwise_cons, List.mem_cons, List.not_mem_nil, or_false, forall_eq_or_imp, forall_eq] at hp
    simp only at h0 h1 h2 i0 i1 i2 hp
    apply xn
    have hsub : cornerSet a ⊆ cornerSet a ∩ cornerSet b := by
      have hall : ∀ k, k < 3 → corner a k ∈ cornerSet a ∩ cornerSet b := by
        intro k hk
        have : k = s0 ∨ k = s1 ∨ k = s2 := by omega
        rcases this with rfl | rfl | rfl <;> assumption
      rintro y (rfl | rfl | rfl)
      · exact hall 0 (by norm_num)
      · exact hall 1 (by norm_num)
      · exact hall 2 (by norm_num)
    exact convexHull_mono hsub (hull_of_inTriangle xa)
  | p0 :: p1 :: p2 :: p3 :: l =>
    exfalso
    have h0 := hm p0 (by simp [hs])
    have h1 := hm p1 (by simp [hs])
    have h2 := hm p2 (by simp [hs])
    have h3 := hm p3 (by simp [hs])
    rw [hs] at hp
    simp only [List.pairwise_cons, List.mem_cons, forall_eq_or_imp] at hp
    obtain ⟨⟨a1, a2, a3, _⟩, ⟨b1, b2, _⟩, ⟨c1, _⟩, _⟩ := hp
    omega

end Verif.Predicates
