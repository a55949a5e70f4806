import Verif.Lemmas.TriangulationFlip
import Mathlib.Tactic.FieldSimp
import Mathlib.Tactic.Ring
import Mathlib.Tactic.LinearCombination

/-! # Lemmas: triangles in the plane -/

namespace Verif.Triangulation

open Verif Verif.AbstractMesh Verif.Triangulation.Spec

theorem area2_anti (p q x : ℝ × ℝ) : area2 q p x = - area2 p q x := by unfold area2; ring

theorem area2_rot (p q r : ℝ × ℝ) : area2 q r p = area2 p q r := by unfold area2; ring

theorem crossing_anti (p q x : ℝ × ℝ) : crossing p q x = - crossing q p x := by
  unfold crossing
  rw [area2_anti p q]
  by_cases h1 : p.2 ≤ x.2 ∧ x.2 < q.2 ∧ 0 < area2 p q x
  · rw [if_pos h1, if_neg (fun h => by have := h.1; have := h1.2.1; linarith), if_pos ⟨h1.1, h1.2.1, by linarith [h1.2.2]⟩]
    norm_num
  · by_cases h2 : q.2 ≤ x.2 ∧ x.2 < p.2 ∧ area2 p q x < 0
    · rw [if_neg h1, if_pos h2, if_pos ⟨h2.1, h2.2.1, by linarith [h2.2.2]⟩]
    · rw [if_neg h1, if_neg h2, if_neg (fun h => h2 ⟨h.1, h.2.1, by linarith [h.2.2]⟩), if_neg (fun h => h1 ⟨h.1, h.2.1, by linarith [h.2.2]⟩)]
      norm_num

/-- On the line and between the ends. -/
theorem on_segment {p q x : ℝ × ℝ} (h0 : area2 p q x = 0) (h1 : p.2 ≤ x.2) (h2 : x.2 < q.2) : OnSegment p q x := by
  obtain ⟨p1, p2⟩ := p
  obtain ⟨q1, q2⟩ := q
  obtain ⟨x1, x2⟩ := x
  unfold area2 at h0
  dsimp only at *
  have hd : 0 < q2 - p2 := by linarith
  refine ⟨(x2 - p2) / (q2 - p2), div_nonneg (by linarith) hd.le, (div_le_one hd).2 (by linarith), ?_⟩
  dsimp only
  refine Prod.ext ?_ ?_ <;> dsimp only <;> field_simp
  · linarith
  · ring

theorem onSegment_symm {p q x : ℝ × ℝ} (h : OnSegment p q x) : OnSegment q p x := by
  obtain ⟨t, h0, h1, rfl⟩ := h
  exact ⟨1 - t, by linarith, by linarith, Prod.ext (by dsimp only; ring) (by dsimp only; ring)⟩

theorem identity (a b c x : ℝ × ℝ) : (a.2 - x.2) * area2 b c x + (b.2 - x.2) * area2 c a x + (c.2 - x.2) * area2 a b x = 0 := by
  unfold area2; ring

open Classical in
/-- 1 in a counterclockwise triangle, -1 in a clockwise one -/
noncomputable def inside (a b c x : ℝ × ℝ) : ℤ := (if InsideCcw a b c x then 1 else 0) - (if InsideCw a b c x then 1 else 0)

theorem inside_rot (a b c x : ℝ × ℝ) : inside b c a x = inside a b c x := by
  unfold inside InsideCcw InsideCw
  congr 2 <;> exact propext ⟨fun h => ⟨h.2.2, h.1, h.2.1⟩, fun h => ⟨h.2.1, h.2.2, h.1⟩⟩

theorem up_neg {p q x : ℝ × ℝ} (_ : p.2 ≤ x.2) (h2 : x.2 < q.2) (h : area2 p q x < 0) : crossing p q x = 0 := by
  unfold crossing
  rw [if_neg (fun hh => by linarith [hh.2.2]), if_neg (fun hh => by linarith [hh.1])]

theorem up_pos {p q x : ℝ × ℝ} (h1 : p.2 ≤ x.2) (h2 : x.2 < q.2) (h : 0 < area2 p q x) : crossing p q x = 1 := by
  unfold crossing
  rw [if_pos ⟨h1, h2, h⟩]

theorem down_pos {p q x : ℝ × ℝ} (h1 : q.2 ≤ x.2) (h2 : x.2 < p.2) (h : 0 < area2 p q x) : crossing p q x = 0 := by
  rw [crossing_anti, up_neg h1 h2 (by rw [area2_anti]; linarith), neg_zero]

theorem down_neg {p q x : ℝ × ℝ} (h1 : q.2 ≤ x.2) (h2 : x.2 < p.2) (h : area2 p q x < 0) : crossing p q x = -1 := by
  rw [crossing_anti, up_pos h1 h2 (by rw [area2_anti]; linarith)]

theorem same_low {p q x : ℝ × ℝ} (h1 : p.2 ≤ x.2) (h2 : q.2 ≤ x.2) : crossing p q x = 0 := by
  unfold crossing
  rw [if_neg (fun hh => by linarith [hh.2.1]), if_neg (fun hh => by linarith [hh.2.1])]

theorem same_high {p q x : ℝ × ℝ} (h1 : x.2 < p.2) (h2 : x.2 < q.2) : crossing p q x = 0 := by
  unfold crossing
  rw [if_neg (fun hh => by linarith [hh.1]), if_neg (fun hh => by linarith [hh.1])]

theorem inside_pos {a b c x : ℝ × ℝ} (h : InsideCcw a b c x) : inside a b c x = 1 := by
  unfold inside
  rw [if_pos h, if_neg (fun hh => by have := h.1; have := hh.1; linarith), sub_zero]

theorem inside_neg {a b c x : ℝ × ℝ} (h : InsideCw a b c x) : inside a b c x = -1 := by
  unfold inside
  rw [if_neg (fun hh => by have := h.1; have := hh.1; linarith), if_pos h, zero_sub]

theorem inside_none {a b c x : ℝ × ℝ} (h1 : ¬ InsideCcw a b c x) (h2 : ¬ InsideCw a b c x) : inside a b c x = 0 := by
  unfold inside
  rw [if_neg h1, if_neg h2, sub_zero]

/-- One corner below. -/
theorem one_low {a b c x : ℝ × ℝ} (ha : a.2 ≤ x.2) (hb : x.2 < b.2) (hc : x.2 < c.2) (s1 : ¬ OnSegment a b x) (s3 : ¬ OnSegment c a x) :
    crossing a b x + crossing b c x + crossing c a x = inside a b c x := by
  have hid := identity a b c x
  rw [same_high hb hc]
  rcases lt_trichotomy (area2 a b x) 0 with h1 | h1 | h1
  · rcases lt_trichotomy (area2 c a x) 0 with h2 | h2 | h2
    · rw [up_neg ha hb h1, down_neg ha hc h2, inside_neg ⟨h1, ?_, h2⟩]
      · norm_num
      · have e1 : (b.2 - x.2) * area2 c a x < 0 := mul_neg_of_pos_of_neg (by linarith) h2
        have e2 : (c.2 - x.2) * area2 a b x < 0 := mul_neg_of_pos_of_neg (by linarith) h1
        by_contra h3
        have : (a.2 - x.2) * area2 b c x ≤ 0 := mul_nonpos_of_nonpos_of_nonneg (by linarith) (not_lt.1 h3)
        linarith
    · refine absurd (onSegment_symm (on_segment ?_ ha hc)) s3
      rw [area2_anti]; linarith
    · rw [up_neg ha hb h1, down_pos ha hc h2, inside_none (fun h => by linarith [h.1]) (fun h => by linarith [h.2.2])]
      norm_num
  · exact absurd (on_segment h1 ha hb) s1
  · rcases lt_trichotomy (area2 c a x) 0 with h2 | h2 | h2
    · rw [up_pos ha hb h1, down_neg ha hc h2, inside_none (fun h => by linarith [h.2.2]) (fun h => by linarith [h.1])]
      norm_num
    · refine absurd (onSegment_symm (on_segment ?_ ha hc)) s3
      rw [area2_anti]; linarith
    · rw [up_pos ha hb h1, down_pos ha hc h2, inside_pos ⟨h1, ?_, h2⟩]
      · norm_num
      · have e1 : 0 < (b.2 - x.2) * area2 c a x := mul_pos (by linarith) h2
        have e2 : 0 < (c.2 - x.2) * area2 a b x := mul_pos (by linarith) h1
        by_contra h3
        have : 0 ≤ (a.2 - x.2) * area2 b c x := mul_nonneg_of_nonpos_of_nonpos (by linarith) (not_lt.1 h3)
        linarith

/-- On a horizontal side. -/
theorem flat_segment {a b c x : ℝ × ℝ} (ha : a.2 = x.2) (hb : b.2 = x.2) (hc : x.2 < c.2) (h : (0 < area2 b c x ∧ 0 < area2 c a x) ∨ (area2 b c x < 0 ∧ area2 c a x < 0)) :
    OnSegment a b x := by
  obtain ⟨a1, a2⟩ := a
  obtain ⟨b1, b2⟩ := b
  obtain ⟨c1, c2⟩ := c
  obtain ⟨x1, x2⟩ := x
  dsimp only at ha hb hc
  subst ha
  subst hb
  unfold area2 at h
  dsimp only at h
  have hh : 0 < c2 - b2 := by linarith
  have e1 : (c1 - b1) * (b2 - b2) - (c2 - b2) * (x1 - b1) = (c2 - b2) * (b1 - x1) := by ring
  have e2 : (a1 - c1) * (b2 - c2) - (b2 - c2) * (x1 - c1) = (c2 - b2) * (x1 - a1) := by ring
  rw [e1, e2] at h
  have h' : (0 < b1 - x1 ∧ 0 < x1 - a1) ∨ (b1 - x1 < 0 ∧ x1 - a1 < 0) := by
    rcases h with ⟨h1, h2⟩ | ⟨h1, h2⟩
    · exact Or.inl ⟨(mul_pos_iff_of_pos_left hh).1 h1, (mul_pos_iff_of_pos_left hh).1 h2⟩
    · refine Or.inr ⟨?_, ?_⟩
      · by_contra h3
        have := mul_nonneg hh.le (not_lt.1 h3); linarith
      · by_contra h3
        have := mul_nonneg hh.le (not_lt.1 h3); linarith
  have hd : b1 - a1 ≠ 0 := by rcases h' with ⟨h1, h2⟩ | ⟨h1, h2⟩ <;> intro e <;> linarith
  refine ⟨(x1 - a1) / (b1 - a1), ?_, ?_, Prod.ext ?_ ?_⟩
  · rcases h' with ⟨h1, h2⟩ | ⟨h1, h2⟩
    · exact div_nonneg h2.le (by linarith)
    · exact div_nonneg_of_nonpos h2.le (by linarith)
  · rcases h' with ⟨h1, h2⟩ | ⟨h1, h2⟩
    · exact (div_le_one (by linarith)).2 (by linarith)
    · exact (div_le_one_of_neg (by linarith)).2 (by linarith)
  · dsimp only; field_simp; ring
  · dsimp only; ring

/-- Two corners below. -/
theorem two_low {a b c x : ℝ × ℝ} (ha : a.2 ≤ x.2) (hb : b.2 ≤ x.2) (hc : x.2 < c.2) (s1 : ¬ OnSegment a b x) (s2 : ¬ OnSegment b c x)
    (s3 : ¬ OnSegment c a x) : crossing a b x + crossing b c x + crossing c a x = inside a b c x := by
  have hid := identity a b c x
  rw [same_low ha hb]
  rcases lt_trichotomy (area2 b c x) 0 with h1 | h1 | h1
  · rcases lt_trichotomy (area2 c a x) 0 with h2 | h2 | h2
    · rw [up_neg hb hc h1, down_neg ha hc h2, inside_neg ⟨?_, h1, h2⟩]
      · norm_num
      · have e1 : 0 ≤ (a.2 - x.2) * area2 b c x := mul_nonneg_of_nonpos_of_nonpos (by linarith) h1.le
        have e2 : 0 ≤ (b.2 - x.2) * area2 c a x := mul_nonneg_of_nonpos_of_nonpos (by linarith) h2.le
        by_contra h3
        have e3 : 0 ≤ (c.2 - x.2) * area2 a b x := mul_nonneg (by linarith) (not_lt.1 h3)
        have z1 : (a.2 - x.2) * area2 b c x = 0 := by linarith
        have z2 : (b.2 - x.2) * area2 c a x = 0 := by linarith
        have ea : a.2 = x.2 := by rcases mul_eq_zero.1 z1 with h | h <;> linarith
        have eb : b.2 = x.2 := by rcases mul_eq_zero.1 z2 with h | h <;> linarith
        exact s1 (flat_segment ea eb hc (Or.inr ⟨h1, h2⟩))
    · refine absurd (onSegment_symm (on_segment ?_ ha hc)) s3
      rw [area2_anti]; linarith
    · rw [up_neg hb hc h1, down_pos ha hc h2, inside_none (fun h => by linarith [h.2.1]) (fun h => by linarith [h.2.2])]
      norm_num
  · exact absurd (on_segment h1 hb hc) s2
  · rcases lt_trichotomy (area2 c a x) 0 with h2 | h2 | h2
    · rw [up_pos hb hc h1, down_neg ha hc h2, inside_none (fun h => by linarith [h.2.2]) (fun h => by linarith [h.2.1])]
      norm_num
    · refine absurd (onSegment_symm (on_segment ?_ ha hc)) s3
      rw [area2_anti]; linarith
    · rw [up_pos hb hc h1, down_pos ha hc h2, inside_pos ⟨?_, h1, h2⟩]
      · norm_num
      · have e1 : (a.2 - x.2) * area2 b c x ≤ 0 := mul_nonpos_of_nonpos_of_nonneg (by linarith) h1.le
        have e2 : (b.2 - x.2) * area2 c a x ≤ 0 := mul_nonpos_of_nonpos_of_nonneg (by linarith) h2.le
        by_contra h3
        have e3 : (c.2 - x.2) * area2 a b x ≤ 0 := mul_nonpos_of_nonneg_of_nonpos (by linarith) (not_lt.1 h3)
        have z1 : (a.2 - x.2) * area2 b c x = 0 := by linarith
        have z2 : (b.2 - x.2) * area2 c a x = 0 := by linarith
        have ea : a.2 = x.2 := by rcases mul_eq_zero.1 z1 with h | h <;> linarith
        have eb : b.2 = x.2 := by rcases mul_eq_zero.1 z2 with h | h <;> linarith
        exact s1 (flat_segment ea eb hc (Or.inl ⟨h1, h2⟩))

/-- No corner above, or none below. -/
theorem inside_flat {a b c x : ℝ × ℝ} (h : (a.2 ≤ x.2 ∧ b.2 ≤ x.2 ∧ c.2 ≤ x.2) ∨ (x.2 < a.2 ∧ x.2 < b.2 ∧ x.2 < c.2)) : inside a b c x = 0 := by
  have hid := identity a b c x
  have key : ∀ s : ℝ, ¬ (0 < s * area2 a b x ∧ 0 < s * area2 b c x ∧ 0 < s * area2 c a x) := by
    rintro s ⟨h1, h2, h3⟩
    have hid' : (a.2 - x.2) * (s * area2 b c x) + (b.2 - x.2) * (s * area2 c a x) + (c.2 - x.2) * (s * area2 a b x) = 0 := by
      linear_combination s * hid
    rcases h with ⟨ha, hb, hc⟩ | ⟨ha, hb, hc⟩
    · have e1 : (a.2 - x.2) * (s * area2 b c x) ≤ 0 := mul_nonpos_of_nonpos_of_nonneg (by linarith) h2.le
      have e2 : (b.2 - x.2) * (s * area2 c a x) ≤ 0 := mul_nonpos_of_nonpos_of_nonneg (by linarith) h3.le
      have e3 : (c.2 - x.2) * (s * area2 a b x) ≤ 0 := mul_nonpos_of_nonpos_of_nonneg (by linarith) h1.le
      have z1 : (a.2 - x.2) * (s * area2 b c x) = 0 := by linarith
      have z2 : (b.2 - x.2) * (s * area2 c a x) = 0 := by linarith
      have ea : a.2 = x.2 := by rcases mul_eq_zero.1 z1 with h | h <;> linarith
      have eb : b.2 = x.2 := by rcases mul_eq_zero.1 z2 with h | h <;> linarith
      have : area2 a b x = 0 := by unfold area2; rw [ea, eb]; ring
      rw [this, mul_zero] at h1
      exact lt_irrefl _ h1
    · have e1 : 0 < (a.2 - x.2) * (s * area2 b c x) := mul_pos (by linarith) h2
      have e2 : 0 < (b.2 - x.2) * (s * area2 c a x) := mul_pos (by linarith) h3
      have e3 : 0 < (c.2 - x.2) * (s * area2 a b x) := mul_pos (by linarith) h1
      linarith
  refine inside_none (fun hh => key 1 ?_) (fun hh => key (-1) ?_)
  · rw [one_mul, one_mul, one_mul]; exact hh
  · obtain ⟨h1, h2, h3⟩ := hh; exact ⟨by linarith, by linarith, by linarith⟩

/-- The crossings of the sides of a triangle count whether the point is inside. -/
theorem crossing_triangle {a b c x : ℝ × ℝ} (s1 : ¬ OnSegment a b x) (s2 : ¬ OnSegment b c x) (s3 : ¬ OnSegment c a x) :
    crossing a b x + crossing b c x + crossing c a x = inside a b c x := by
  rcases le_or_gt a.2 x.2 with ha | ha <;> rcases le_or_gt b.2 x.2 with hb | hb <;> rcases le_or_gt c.2 x.2 with hc | hc
  · rw [same_low ha hb, same_low hb hc, same_low hc ha, inside_flat (Or.inl ⟨ha, hb, hc⟩)]; norm_num
  · exact two_low ha hb hc s1 s2 s3
  · have := two_low hc ha hb s3 s1 s2
    rw [← inside_rot c a b] at this
    rw [← this]; ring
  · exact one_low ha hb hc s1 s3
  · have := two_low hb hc ha s2 s3 s1
    rw [inside_rot] at this
    rw [← this]; ring
  · have := one_low hb hc ha s2 s1
    rw [inside_rot] at this
    rw [← this]; ring
  · have := one_low hc ha hb s3 s2
    rw [← inside_rot c a b] at this
    rw [← this]; ring
  · rw [same_high ha hb, same_high hb hc, same_high hc ha, inside_flat (Or.inr ⟨ha, hb, hc⟩)]; norm_num

end Verif.Triangulation
