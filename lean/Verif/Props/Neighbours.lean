import Verif.Spec.Neighbours
import Verif.Props.Predicates

/-!
# C55: faces side by side are not reported
-/

namespace Verif.Predicates

set_option linter.unusedSimpArgs false

open Verif MeshDefects MeshDefects.Spec SpatialGrid Geometry

/-- the triangle `t` has the corners `u`, `v`, `w`, in some order -/
theorem perm_of_set {t : P3 × P3 × P3} {u v w : P3} (huv : u ≠ v) (huw : u ≠ w) (hvw : v ≠ w) (h : cornerSet t = {u, v, w}) :
    t = (u, v, w) ∨ t = (u, w, v) ∨ t = (v, u, w) ∨ t = (v, w, u) ∨ t = (w, u, v) ∨ t = (w, v, u) := by
  obtain ⟨a, b, c⟩ := t
  have ha : a = u ∨ a = v ∨ a = w := by have : a ∈ cornerSet (a, b, c) := by simp [cornerSet]
                                        rw [h] at this; simpa using this
  have hb : b = u ∨ b = v ∨ b = w := by have : b ∈ cornerSet (a, b, c) := by simp [cornerSet]
                                        rw [h] at this; simpa using this
  have hc : c = u ∨ c = v ∨ c = w := by have : c ∈ cornerSet (a, b, c) := by simp [cornerSet]
                                        rw [h] at this; simpa using this
  have hu : u = a ∨ u = b ∨ u = c := by have : u ∈ ({u, v, w} : Set P3) := by simp
                                        rw [← h] at this; simpa [cornerSet] using this
  have hv : v = a ∨ v = b ∨ v = c := by have : v ∈ ({u, v, w} : Set P3) := by simp
                                        rw [← h] at this; simpa [cornerSet] using this
  have hw : w = a ∨ w = b ∨ w = c := by have : w ∈ ({u, v, w} : Set P3) := by simp
                                        rw [← h] at this; simpa [cornerSet] using this
  rcases ha with rfl | rfl | rfl <;> rcases hb with rfl | rfl | rfl <;> rcases hc with rfl | rfl | rfl <;> simp_all <;> (have hu' := @Eq.symm P3; tauto)

theorem segTri_apart (N : Narrow ℝ) {a b p q r : P3} (h : AxisApart {a, b} {p, q, r}) : segTriIntersect N a b p q r = false := by
  unfold segTriIntersect
  rw [if_pos]
  simp only [AxisApart, Set.mem_insert_iff, Set.mem_singleton_iff, forall_eq_or_imp, forall_eq] at h
  simp only [anyLt, cmin, cmax, Bool.or_eq_true, decide_eq_true_eq, max_lt_iff, lt_min_iff]
  rcases h with ⟨⟨h1, h2, h3⟩, h4, h5, h6⟩ | ⟨⟨h1, h2, h3⟩, h4, h5, h6⟩ | ⟨⟨h1, h2, h3⟩, h4, h5, h6⟩ | ⟨⟨h1, h2, h3⟩, h4, h5, h6⟩ | ⟨⟨h1, h2, h3⟩, h4, h5, h6⟩ | ⟨⟨h1, h2, h3⟩, h4, h5, h6⟩
  · exact Or.inl (Or.inl (Or.inl ⟨⟨⟨h1, h4⟩, h2, h5⟩, h3, h6⟩))
  · exact Or.inl (Or.inl (Or.inr ⟨⟨⟨h1, h4⟩, h2, h5⟩, h3, h6⟩))
  · exact Or.inl (Or.inr ⟨⟨⟨h1, h4⟩, h2, h5⟩, h3, h6⟩)
  · exact Or.inr (Or.inl (Or.inl ⟨⟨⟨h1, h2⟩, h3⟩, ⟨h4, h5⟩, h6⟩))
  · exact Or.inr (Or.inl (Or.inr ⟨⟨⟨h1, h2⟩, h3⟩, ⟨h4, h5⟩, h6⟩))
  · exact Or.inr (Or.inr ⟨⟨⟨h1, h2⟩, h3⟩, ⟨h4, h5⟩, h6⟩)

theorem folded_swap (tf : ℝ) (a b p q : P3) (h : tf * extent (cmin (cmin (cmin a b) p) q) (cmax (cmax (cmax a b) p) q) ^ 3 < |orient3d a b p q|) :
    folded tf a b p q = false ∧ folded tf b a p q = false := by
  have h1 : cmin b a = cmin a b := by simp only [cmin, min_comm]
  have h2 : cmax b a = cmax a b := by simp only [cmax, max_comm]
  have h3 : |orient3d b a p q| = |orient3d a b p q| := by
    rw [← abs_neg]
    congr 1
    simp only [orient3d]
    ring
  have key : ∀ x y : P3, cmin x y = cmin a b → cmax x y = cmax a b → |orient3d x y p q| = |orient3d a b p q| → folded tf x y p q = false := by
    intro x y e1 e2 e3
    unfold folded
    dsimp only
    rw [e1, e2, e3]
    split
    · rfl
    · rw [decide_eq_false_iff_not, not_le]
      calc _ = tf * extent (cmin (cmin (cmin a b) p) q) (cmax (cmax (cmax a b) p) q) ^ 3 := by ring
        _ < _ := h
  exact ⟨key a b rfl rfl rfl, key b a h1 h2 h3⟩

/-- **C55, no false alarm (same corners).** Two faces with the same three corners, in whatever order each lists them, are not reported. -/
theorem C55_same_corners_not_reported (tf : ℝ) (ta tb : P3 × P3 × P3) (ha : DistinctCorners ta) (h : cornerSet ta = cornerSet tb) : trianglesIntersect (narrow tf) ta tb = .ok false := by
  obtain ⟨u, v, w⟩ := ta
  obtain ⟨h1, h2, h3'⟩ := ha
  have h3 : u ≠ w := h3'.symm
  replace h1 : u ≠ v := h1
  replace h2 : v ≠ w := h2
  rcases perm_of_set h1 h3 h2 h.symm with rfl | rfl | rfl | rfl | rfl | rfl <;>
    simp [trianglesIntersect, shared, corner, h1, h2, h3, h1.symm, h2.symm, h3.symm]

/-- **C55, no false alarm (common edge).** Two faces with two common corners `u`, `v` that are not in one plane, up to the tolerance, are not reported, whichever corners of each they are. -/
theorem C55_common_edge_not_reported (tf : ℝ) (ta tb : P3 × P3 × P3) (u v p q : P3) (huv : u ≠ v) (hp : p ≠ u ∧ p ≠ v) (hq : q ≠ u ∧ q ≠ v) (hpq : p ≠ q) (ha : cornerSet ta = {u, v, p})
    (hb : cornerSet tb = {u, v, q}) (h : tf * extent (cmin (cmin (cmin u v) p) q) (cmax (cmax (cmax u v) p) q) ^ 3 < |orient3d u v p q|) : trianglesIntersect (narrow tf) ta tb = .ok false := by
  obtain ⟨f1, f2⟩ := folded_swap tf u v p q h
  have f1' : (narrow tf).folded u v p q = false := f1
  have f2' : (narrow tf).folded v u p q = false := f2
  rcases perm_of_set huv hp.1.symm hp.2.symm ha with rfl | rfl | rfl | rfl | rfl | rfl <;>
    rcases perm_of_set huv hq.1.symm hq.2.symm hb with rfl | rfl | rfl | rfl | rfl | rfl <;>
      simp [trianglesIntersect, shared, corner, huv, huv.symm, hp, hp.1.symm, hp.2.symm, hq, hq.1.symm, hq.2.symm, hpq, f1', f2']

/-- **C55, no false alarm (common corner).** Two faces with one common corner `w`, where planes perpendicular to axes run between each face and the edge of the other that is opposite of `w`, are not
reported, whichever corner of each it is. -/
theorem C55_common_corner_not_reported (tf : ℝ) (ta tb : P3 × P3 × P3) (w a b p q : P3) (hab : w ≠ a ∧ w ≠ b ∧ a ≠ b) (hpq : w ≠ p ∧ w ≠ q ∧ p ≠ q) (h : a ≠ p ∧ a ≠ q ∧ b ≠ p ∧ b ≠ q)
    (ha : cornerSet ta = {w, a, b}) (hb : cornerSet tb = {w, p, q}) (h1 : AxisApart {a, b} (cornerSet tb)) (h2 : AxisApart {p, q} (cornerSet ta)) :
    trianglesIntersect (narrow tf) ta tb = .ok false := by
  obtain ⟨x, y, z⟩ := ta
  obtain ⟨x', y', z'⟩ := tb
  have s1 := segTri_apart (narrow tf) (a := a) (b := b) (p := x') (q := y') (r := z') h1
  have s2 := segTri_apart (narrow tf) (a := b) (b := a) (p := x') (q := y') (r := z') (by rw [Set.pair_comm]; exact h1)
  have s3 := segTri_apart (narrow tf) (a := p) (b := q) (p := x) (q := y) (r := z) h2
  have s4 := segTri_apart (narrow tf) (a := q) (b := p) (p := x) (q := y) (r := z) (by rw [Set.pair_comm]; exact h2)
  obtain ⟨n1, n2, n3⟩ := hab
  obtain ⟨n4, n5, n6⟩ := hpq
  obtain ⟨n7, n8, n9, n10⟩ := h
  clear h1 h2
  rcases perm_of_set n1 n2 n3 ha with e | e | e | e | e | e <;>
    rcases perm_of_set n4 n5 n6 hb with e' | e' | e' | e' | e' | e' <;> cases e <;> cases e' <;>
      simp [trianglesIntersect, shared, corner, n1, n2, n3, n4, n5, n6, n7, n8, n9, n10, n1.symm, n2.symm, n3.symm, n4.symm, n5.symm, n6.symm, n7.symm, n8.symm, n9.symm, n10.symm, s1, s2, s3, s4]

/-- Two faces of a tetrahedron, and two faces that touch in a corner: the hypotheses can be met. -/
example : trianglesIntersect (narrow 0) ((0, 0, 0), (1, 0, 0), (0, 1, 0)) ((0, 0, 0), (0, 0, 1), (1, 0, 0)) = .ok false :=
  C55_common_edge_not_reported 0 _ _ (0, 0, 0) (1, 0, 0) (0, 1, 0) (0, 0, 1) (by simp) (by simp) (by simp) (by simp) rfl
    (by ext x; simp only [cornerSet, Set.mem_insert_iff, Set.mem_singleton_iff]; tauto) (by norm_num [orient3d])

example : trianglesIntersect (narrow 0) ((0, 0, 0), (1, 0, 0), (1, 1, 0)) ((0, 0, 0), (-1, 0, 0), (-1, 1, 0)) = .ok false :=
  C55_common_corner_not_reported 0 _ _ (0, 0, 0) (1, 0, 0) (1, 1, 0) (-1, 0, 0) (-1, 1, 0) (by norm_num) (by norm_num) (by norm_num) rfl rfl
    (by norm_num [AxisApart, cornerSet]) (by norm_num [AxisApart, cornerSet])

example : trianglesIntersect (narrow 0) ((0, 0, 0), (1, 0, 0), (1, 1, 0)) ((1, 1, 0), (1, 0, 0), (0, 0, 0)) = .ok false :=
  C55_same_corners_not_reported 0 _ _ (by simp [DistinctCorners]) (by ext x; simp only [cornerSet, Set.mem_insert_iff, Set.mem_singleton_iff]; tauto)

end Verif.Predicates
