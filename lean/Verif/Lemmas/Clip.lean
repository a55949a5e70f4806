import Verif.Spec.Clip
import Mathlib.Tactic.Linarith
import Mathlib.Tactic.LinearCombination
import Mathlib.Tactic.FieldSimp
import Mathlib.Tactic.Ring
import Mathlib.Tactic.Module

/-! # Cutting one triangle -/

namespace Verif.Clip

open Verif Geometry

/-- What `clip` does with a triangle, up to a rotation of its corners. -/
inductive Cut (A : Arith) (th : ℝ) (tri : Tri) (out : List Tri) : Prop
  | keep (h1 : tri.1.1 ≤ th) (h2 : tri.2.1.1 ≤ th) (h3 : tri.2.2.1 ≤ th) (h : tri.1.1 < th ∨ tri.2.1.1 < th ∨ tri.2.2.1 < th)
      (e : out = append tri)
  | drop (h1 : th ≤ tri.1.1) (h2 : th ≤ tri.2.1.1) (h3 : th ≤ tri.2.2.1) (e : out = [])
  | corner (k : Nat) (a b c : P3) (hr : rot k tri = (a, b, c)) (ha : a.1 < th) (hb : th < b.1) (hc : th < c.1)
      (e : out = append (a, intersect A th a b, intersect A th a c))
  | left (k : Nat) (a b c : P3) (hr : rot k tri = (a, b, c)) (ha : a.1 = th) (hb : b.1 < th) (hc : th < c.1)
      (e : out = append (a, b, intersect A th b c))
  | right (k : Nat) (a b c : P3) (hr : rot k tri = (a, b, c)) (ha : a.1 = th) (hb : th < b.1) (hc : c.1 < th)
      (e : out = append (a, intersect A th b c, c))
  | quad1 (k : Nat) (a b c : P3) (hr : rot k tri = (a, b, c)) (ha : th < a.1) (hb : b.1 < th) (hc : c.1 < th)
      (e : out = append (b, c, intersect A th c a) ++ append (b, intersect A th c a, intersect A th b a))
  | quad2 (k : Nat) (a b c : P3) (hr : rot k tri = (a, b, c)) (ha : th < a.1) (hb : b.1 < th) (hc : c.1 < th)
      (e : out = append (b, c, intersect A th b a) ++ append (c, intersect A th c a, intersect A th b a))

open Classical in
theorem sgn (x th : ℝ) :
    (x < th ∧ decide (x < th) = true ∧ decide (x = th) = false ∧ decide (x > th) = false) ∨
    (x = th ∧ decide (x < th) = false ∧ decide (x = th) = true ∧ decide (x > th) = false) ∨
    (th < x ∧ decide (x < th) = false ∧ decide (x = th) = false ∧ decide (x > th) = true) := by
  simp only [decide_eq_true_eq, decide_eq_false_iff_not]
  rcases lt_trichotomy x th with h | h | h
  · exact Or.inl ⟨h, h, h.ne, not_lt.2 h.le⟩
  · exact Or.inr (Or.inl ⟨h, not_lt.2 h.ge, h, not_lt.2 h.le⟩)
  · exact Or.inr (Or.inr ⟨h, not_lt.2 h.le, h.ne', h⟩)

theorem cut (A : Arith) (th : ℝ) (tri : Tri) : Cut A th tri (clipTri A th tri) := by
  obtain ⟨p, q, r⟩ := tri
  rcases sgn p.1 th with ⟨p0, p1, p2, p3⟩ | ⟨p0, p1, p2, p3⟩ | ⟨p0, p1, p2, p3⟩ <;>
  rcases sgn q.1 th with ⟨q0, q1, q2, q3⟩ | ⟨q0, q1, q2, q3⟩ | ⟨q0, q1, q2, q3⟩ <;>
  rcases sgn r.1 th with ⟨r0, r1, r2, r3⟩ | ⟨r0, r1, r2, r3⟩ | ⟨r0, r1, r2, r3⟩ <;>
  (unfold clipTri
   simp only [rows, List.countP_cons, List.countP_nil, List.findIdx_cons, p1, q1, r1, p2, q2, r2, p3, q3, r3,
     Bool.not_true, Bool.not_false, Bool.and_true, Bool.and_false, Bool.false_eq_true, if_true, if_false, Nat.add_zero, Nat.zero_add, Nat.reduceAdd,
     cond_true, cond_false, rot]
   first
     | exact .keep (by linarith) (by linarith) (by linarith) (by first | exact Or.inl p0 | exact Or.inr (Or.inl q0) | exact Or.inr (Or.inr r0)) rfl
     | exact .drop (by linarith) (by linarith) (by linarith) rfl
     | exact .corner 0 p q r rfl p0 q0 r0 rfl
     | exact .corner 1 q r p rfl q0 r0 p0 rfl
     | exact .corner 2 r p q rfl r0 p0 q0 rfl
     | exact .left 0 p q r rfl p0 q0 r0 (if_pos (lt_trans q0 r0))
     | exact .left 1 q r p rfl q0 r0 p0 (if_pos (lt_trans r0 p0))
     | exact .left 2 r p q rfl r0 p0 q0 (if_pos (lt_trans p0 q0))
     | exact .right 0 p q r rfl p0 q0 r0 (if_neg (not_lt.2 (le_of_lt (lt_trans r0 q0))))
     | exact .right 1 q r p rfl q0 r0 p0 (if_neg (not_lt.2 (le_of_lt (lt_trans p0 r0))))
     | exact .right 2 r p q rfl r0 p0 q0 (if_neg (not_lt.2 (le_of_lt (lt_trans q0 p0))))
     | (split
        · first
            | exact .quad1 0 p q r rfl p0 q0 r0 rfl
            | exact .quad1 1 q r p rfl q0 r0 p0 rfl
            | exact .quad1 2 r p q rfl r0 p0 q0 rfl
        · first
            | exact .quad2 0 p q r rfl p0 q0 r0 rfl
            | exact .quad2 1 q r p rfl q0 r0 p0 rfl
            | exact .quad2 2 r p q rfl r0 p0 q0 rfl))


/-! ## The cut of an edge -/

theorem lexLess_asymm {a b : P3} (h : lexLess a b = true) : lexLess b a = false := by
  unfold lexLess at h ⊢
  rcases lt_trichotomy a.1 b.1 with h1 | h1 | h1
  · simp [h1, not_lt.2 h1.le]
  · rcases lt_trichotomy a.2.1 b.2.1 with h2 | h2 | h2
    · simp [h1, h2, not_lt.2 h2.le]
    · simp only [h1, h2, lt_irrefl, if_false, decide_eq_true_eq, decide_eq_false_iff_not] at h ⊢
      exact not_lt.2 h.le
    · simp [h1, h2, not_lt.2 h2.le] at h
  · simp [h1, not_lt.2 h1.le] at h

theorem lexLess_total {a b : P3} (h : lexLess a b = false) (h' : lexLess b a = false) : a = b := by
  unfold lexLess at h h'
  rcases lt_trichotomy a.1 b.1 with h1 | h1 | h1
  · simp [h1] at h
  · rcases lt_trichotomy a.2.1 b.2.1 with h2 | h2 | h2
    · simp [h1, h2] at h
    · simp only [h1, h2, lt_irrefl, if_false, decide_eq_false_iff_not, not_lt] at h h'
      exact Prod.ext h1 (Prod.ext h2 (le_antisymm h' h))
    · simp [h1, h2] at h'
  · simp [h1] at h'

/-- Both triangles that share an edge compute the same point, whatever the arithmetic. -/
theorem intersect_comm (A : Arith) (th : ℝ) (a b : P3) : intersect A th a b = intersect A th b a := by
  unfold intersect
  cases h : lexLess a b with
  | true => rw [lexLess_asymm h]; rfl
  | false =>
    cases h' : lexLess b a with
    | true => rfl
    | false => rw [lexLess_total h h']

theorem intersect_fst (A : Arith) (th : ℝ) (a b : P3) : (intersect A th a b).1 = th := rfl

theorem intersect_btw {A : Arith} (hA : A.Between) {th : ℝ} {a b : P3} (h : (a.1 < th ∧ th < b.1) ∨ (b.1 < th ∧ th < a.1)) :
    Btw (intersect A th a b) a b := by
  have h1 : min a.1 b.1 ≤ th ∧ th ≤ max a.1 b.1 := by
    rcases h with h | h
    · exact ⟨(min_le_left _ _).trans h.1.le, h.2.le.trans (le_max_right _ _)⟩
    · exact ⟨(min_le_right _ _).trans h.1.le, h.2.le.trans (le_max_left _ _)⟩
  unfold intersect
  cases lexLess b a with
  | true =>
    obtain ⟨p, q⟩ := hA th b a h.symm
    rw [min_comm b.2.1, max_comm b.2.1, min_comm b.2.2, max_comm b.2.2] at *
    exact ⟨h1, p, q⟩
  | false => exact ⟨h1, hA th a b h⟩

/-! ## The boundary of the pieces, for any arithmetic -/

/-- the sum of `d` along the edges of a triangle -/
def cyc (d : P3 → P3 → ℤ) (t : Tri) : ℤ := d t.1 t.2.1 + d t.2.1 t.2.2 + d t.2.2 t.1

def tot (d : P3 → P3 → ℤ) (ts : List Tri) : ℤ := (ts.map (cyc d)).sum

theorem tot_append (d : P3 → P3 → ℤ) (l l' : List Tri) : tot d (l ++ l') = tot d l + tot d l' := by
  unfold tot; rw [List.map_append, List.sum_append]

theorem cyc_rot (d : P3 → P3 → ℤ) (k : Nat) (t : Tri) : cyc d (rot k t) = cyc d t := by
  unfold rot cyc
  split
  · rfl
  · simp only; ring
  · simp only; ring

theorem tot_app {d : P3 → P3 → ℤ} (hd : ∀ u v, d v u = -d u v) (t : Tri) : tot d (append t) = cyc d t := by
  have h0 : ∀ u, d u u = 0 := fun u => by have := hd u u; omega
  unfold append
  split
  · rename_i h
    unfold degenerate at h
    simp only [Bool.or_eq_true, decide_eq_true_eq] at h
    show (0 : ℤ) = _
    unfold cyc
    rcases h with (h | h) | h
    · rw [h, h0, hd t.2.1 t.2.2]; omega
    · rw [h, h0, hd t.2.2 t.1]; omega
    · rw [h, h0, hd t.1 t.2.1]; omega
  · simp [tot]

/-- the part of an edge inside, as `d` sees it -/
noncomputable def cutEdge (A : Arith) (th : ℝ) (d : P3 → P3 → ℤ) (a b : P3) : ℤ :=
  if a.1 < th then (if b.1 ≤ th then d a b else d a (intersect A th a b))
  else if b.1 < th then (if a.1 ≤ th then d a b else d (intersect A th a b) b) else 0

theorem cutEdge_antisymm {A : Arith} {th : ℝ} {d : P3 → P3 → ℤ} (hd : ∀ u v, d v u = -d u v) (a b : P3) :
    cutEdge A th d b a = - cutEdge A th d a b := by
  unfold cutEdge
  rw [intersect_comm A th b a]
  rcases lt_trichotomy a.1 th with ha | ha | ha <;> rcases lt_trichotomy b.1 th with hb | hb | hb
  · rw [if_pos hb, if_pos ha.le, if_pos ha, if_pos hb.le, hd]
  · rw [if_neg hb.not_lt, if_pos ha, if_pos hb.le, if_pos ha, if_pos hb.le, hd]
  · rw [if_neg (not_lt.2 hb.le), if_pos ha, if_neg (not_le.2 hb), if_pos ha, if_neg (not_le.2 hb), hd]
  · rw [if_pos hb, if_pos ha.le, if_neg ha.not_lt, if_pos hb, if_pos ha.le, hd]
  · rw [if_neg hb.not_lt, if_neg ha.not_lt, if_neg ha.not_lt, if_neg hb.not_lt, neg_zero]
  · rw [if_neg (not_lt.2 hb.le), if_neg ha.not_lt, if_neg ha.not_lt, if_neg (not_lt.2 hb.le), neg_zero]
  · rw [if_pos hb, if_neg (not_le.2 ha), if_neg (not_lt.2 ha.le), if_pos hb, if_neg (not_le.2 ha), hd]
  · rw [if_neg hb.not_lt, if_neg (not_lt.2 ha.le), if_neg (not_lt.2 ha.le), if_neg hb.not_lt, neg_zero]
  · rw [if_neg (not_lt.2 hb.le), if_neg (not_lt.2 ha.le), if_neg (not_lt.2 ha.le), if_neg (not_lt.2 hb.le), neg_zero]

theorem cutEdge_ge {A : Arith} {th : ℝ} {d : P3 → P3 → ℤ} {a b : P3} (ha : th ≤ a.1) (hb : th ≤ b.1) : cutEdge A th d a b = 0 := by
  unfold cutEdge
  rw [if_neg (not_lt.2 ha), if_neg (not_lt.2 hb)]

theorem cutEdge_le {A : Arith} {th : ℝ} {d : P3 → P3 → ℤ} (h0 : ∀ u v, th ≤ u.1 → th ≤ v.1 → d u v = 0) {a b : P3} (ha : a.1 ≤ th) (hb : b.1 ≤ th) :
    cutEdge A th d a b = d a b := by
  unfold cutEdge
  split
  · rfl
  · rename_i h1
    split
    · rfl
    · rename_i h2
      exact (h0 a b (not_lt.1 h1) (not_lt.1 h2)).symm

theorem cutEdge_lt_gt {A : Arith} {th : ℝ} {d : P3 → P3 → ℤ} {a b : P3} (ha : a.1 < th) (hb : th < b.1) :
    cutEdge A th d a b = d a (intersect A th a b) := by
  unfold cutEdge
  rw [if_pos ha, if_neg (not_le.2 hb)]

theorem cutEdge_gt_lt {A : Arith} {th : ℝ} {d : P3 → P3 → ℤ} {a b : P3} (ha : th < a.1) (hb : b.1 < th) :
    cutEdge A th d a b = d (intersect A th a b) b := by
  unfold cutEdge
  rw [if_neg (not_lt.2 ha.le), if_pos hb, if_neg (not_le.2 ha)]

/-- Cutting the triangle and cutting its edges agree. -/
theorem chain {A : Arith} {th : ℝ} {d : P3 → P3 → ℤ} (hd : ∀ u v, d v u = -d u v) (h0 : ∀ u v, th ≤ u.1 → th ≤ v.1 → d u v = 0) (t : Tri) :
    tot d (clipTri A th t) = cyc (cutEdge A th d) t := by
  have hI : ∀ a b c e : P3, d (intersect A th a b) (intersect A th c e) = 0 := fun a b c e =>
    h0 _ _ (intersect_fst A th a b).ge (intersect_fst A th c e).ge
  have hr : ∀ {k : Nat} {a b c : P3}, rot k t = (a, b, c) → cyc (cutEdge A th d) t = cutEdge A th d a b + cutEdge A th d b c + cutEdge A th d c a := by
    intro k a b c h
    rw [← cyc_rot _ k t, h]; rfl
  cases cut A th t with
  | keep h1 h2 h3 _ e =>
    rw [e, tot_app hd]
    unfold cyc
    rw [cutEdge_le h0 h1 h2, cutEdge_le h0 h2 h3, cutEdge_le h0 h3 h1]
  | drop h1 h2 h3 e =>
    rw [e]
    unfold cyc
    rw [cutEdge_ge h1 h2, cutEdge_ge h2 h3, cutEdge_ge h3 h1]
    rfl
  | corner k a b c h ha hb hc e =>
    rw [e, tot_app hd, hr h, cutEdge_lt_gt ha hb, cutEdge_ge hb.le hc.le, cutEdge_gt_lt hc ha, intersect_comm A th c a]
    unfold cyc
    rw [hI]
  | left k a b c h ha hb hc e =>
    rw [e, tot_app hd, hr h, cutEdge_le h0 ha.le hb.le, cutEdge_lt_gt hb hc, cutEdge_ge hc.le ha.ge]
    unfold cyc
    rw [h0 (intersect A th b c) a (intersect_fst A th b c).ge ha.ge]
  | right k a b c h ha hb hc e =>
    rw [e, tot_app hd, hr h, cutEdge_ge ha.ge hb.le, cutEdge_gt_lt hb hc, cutEdge_le h0 hc.le ha.le]
    unfold cyc
    rw [h0 a (intersect A th b c) ha.ge (intersect_fst A th b c).ge]
  | quad1 k a b c h ha hb hc e =>
    rw [e, tot_append, tot_app hd, tot_app hd, hr h, cutEdge_gt_lt ha hb, cutEdge_le h0 hb.le hc.le, cutEdge_lt_gt hc ha, intersect_comm A th a b]
    unfold cyc
    simp only
    rw [hI, hd b (intersect A th c a)]
    ring
  | quad2 k a b c h ha hb hc e =>
    rw [e, tot_append, tot_app hd, tot_app hd, hr h, cutEdge_gt_lt ha hb, cutEdge_le h0 hb.le hc.le, cutEdge_lt_gt hc ha, intersect_comm A th a b]
    unfold cyc
    simp only
    rw [hI, hd c (intersect A th b a)]
    ring

/-! ## The corners of the pieces -/

theorem rows_rot {k : Nat} {t : Tri} {a b c : P3} (h : rot k t = (a, b, c)) : a ∈ rows t ∧ b ∈ rows t ∧ c ∈ rows t := by
  unfold rot at h
  split at h
  · rw [h]; simp [rows]
  · simp only [Prod.mk.injEq] at h
    obtain ⟨rfl, rfl, rfl⟩ := h
    simp [rows]
  · simp only [Prod.mk.injEq] at h
    obtain ⟨rfl, rfl, rfl⟩ := h
    simp [rows]

theorem mem_append {t t' : Tri} (h : t' ∈ append t) : t' = t ∧ degenerate t = false := by
  unfold append at h
  split at h
  · cases h
  · rename_i hd
    exact ⟨by simpa using h, by simpa using hd⟩

/-- every corner of a piece is a corner inside or the cut of an edge -/
theorem piece_corner {A : Arith} {th : ℝ} {t t' : Tri} (h : t' ∈ clipTri A th t) {v : P3} (hv : v ∈ rows t') :
    (v ∈ rows t ∧ v.1 ≤ th) ∨ ∃ p ∈ rows t, ∃ q ∈ rows t, p.1 < th ∧ th < q.1 ∧ v = intersect A th p q := by
  have hc := cut A th t
  generalize clipTri A th t = out at h hc
  cases hc with
  | keep h1 h2 h3 _ e =>
    rw [e] at h
    rw [(mem_append h).1] at hv
    left
    refine ⟨hv, ?_⟩
    simp only [rows, List.mem_cons, List.not_mem_nil, or_false] at hv
    rcases hv with rfl | rfl | rfl <;> assumption
  | drop h1 h2 h3 e => rw [e] at h; cases h
  | corner k a b c hr ha hb hc e =>
    rw [e] at h
    rw [(mem_append h).1] at hv
    obtain ⟨ra, rb, rc⟩ := rows_rot hr
    simp only [rows, List.mem_cons, List.not_mem_nil, or_false] at hv
    rcases hv with rfl | rfl | rfl
    · exact Or.inl ⟨ra, ha.le⟩
    · exact Or.inr ⟨a, ra, b, rb, ha, hb, rfl⟩
    · exact Or.inr ⟨a, ra, c, rc, ha, hc, rfl⟩
  | left k a b c hr ha hb hc e =>
    rw [e] at h
    rw [(mem_append h).1] at hv
    obtain ⟨ra, rb, rc⟩ := rows_rot hr
    simp only [rows, List.mem_cons, List.not_mem_nil, or_false] at hv
    rcases hv with rfl | rfl | rfl
    · exact Or.inl ⟨ra, ha.le⟩
    · exact Or.inl ⟨rb, hb.le⟩
    · exact Or.inr ⟨b, rb, c, rc, hb, hc, rfl⟩
  | right k a b c hr ha hb hc e =>
    rw [e] at h
    rw [(mem_append h).1] at hv
    obtain ⟨ra, rb, rc⟩ := rows_rot hr
    simp only [rows, List.mem_cons, List.not_mem_nil, or_false] at hv
    rcases hv with rfl | rfl | rfl
    · exact Or.inl ⟨ra, ha.le⟩
    · exact Or.inr ⟨c, rc, b, rb, hc, hb, intersect_comm _ _ _ _⟩
    · exact Or.inl ⟨rc, hc.le⟩
  | quad1 k a b c hr ha hb hc e =>
    rw [e, List.mem_append] at h
    obtain ⟨ra, rb, rc⟩ := rows_rot hr
    rcases h with h | h <;> rw [(mem_append h).1] at hv <;> simp only [rows, List.mem_cons, List.not_mem_nil, or_false] at hv <;>
      rcases hv with rfl | rfl | rfl
    · exact Or.inl ⟨rb, hb.le⟩
    · exact Or.inl ⟨rc, hc.le⟩
    · exact Or.inr ⟨c, rc, a, ra, hc, ha, rfl⟩
    · exact Or.inl ⟨rb, hb.le⟩
    · exact Or.inr ⟨c, rc, a, ra, hc, ha, rfl⟩
    · exact Or.inr ⟨b, rb, a, ra, hb, ha, rfl⟩
  | quad2 k a b c hr ha hb hc e =>
    rw [e, List.mem_append] at h
    obtain ⟨ra, rb, rc⟩ := rows_rot hr
    rcases h with h | h <;> rw [(mem_append h).1] at hv <;> simp only [rows, List.mem_cons, List.not_mem_nil, or_false] at hv <;>
      rcases hv with rfl | rfl | rfl
    · exact Or.inl ⟨rb, hb.le⟩
    · exact Or.inl ⟨rc, hc.le⟩
    · exact Or.inr ⟨b, rb, a, ra, hb, ha, rfl⟩
    · exact Or.inl ⟨rc, hc.le⟩
    · exact Or.inr ⟨c, rc, a, ra, hc, ha, rfl⟩
    · exact Or.inr ⟨b, rb, a, ra, hb, ha, rfl⟩

/-! ## Exact arithmetic -/

theorem exact_between {A : Arith} (h : A.interp = exactInterp) : A.Between := by
  have key : ∀ t x y : ℝ, 0 ≤ t → t ≤ 1 → min x y ≤ x + t * (y - x) ∧ x + t * (y - x) ≤ max x y := by
    intro t x y h0 h1
    rcases le_total x y with hxy | hxy
    · rw [min_eq_left hxy, max_eq_right hxy]
      constructor <;> nlinarith
    · rw [min_eq_right hxy, max_eq_left hxy]
      constructor <;> nlinarith
  intro th a b hab
  rw [h]
  have ht : 0 ≤ (th - a.1) / (b.1 - a.1) ∧ (th - a.1) / (b.1 - a.1) ≤ 1 := by
    rcases hab with ⟨h1, h2⟩ | ⟨h1, h2⟩
    · constructor
      · exact div_nonneg (by linarith) (by linarith)
      · rw [div_le_one (by linarith)]; linarith
    · constructor
      · exact div_nonneg_of_nonpos (by linarith) (by linarith)
      · rw [div_le_one_of_neg (by linarith)]; linarith
  exact ⟨key _ _ _ ht.1 ht.2, key _ _ _ ht.1 ht.2⟩

/-- the cut point as a convex combination -/
theorem intersect_exact {A : Arith} (h : A.interp = exactInterp) {th : ℝ} {a b : P3} (ha : a.1 < th) (hb : th < b.1) :
    ∃ t : ℝ, 0 < t ∧ t < 1 ∧ t * (b.1 - a.1) = th - a.1 ∧ intersect A th a b = a + t • (b - a) := by
  have hlex : lexLess b a = false := by
    unfold lexLess
    rw [if_neg (not_lt.2 (by linarith)), if_pos (by linarith)]
  have hne : b.1 - a.1 ≠ 0 := by linarith
  refine ⟨(th - a.1) / (b.1 - a.1), div_pos (by linarith) (by linarith), by rw [div_lt_one (by linarith)]; linarith,
    div_mul_cancel₀ _ hne, ?_⟩
  unfold intersect
  rw [hlex, h]
  refine Prod.ext ?_ (Prod.ext rfl rfl)
  show th = a.1 + (th - a.1) / (b.1 - a.1) * (b.1 - a.1)
  rw [div_mul_cancel₀ _ hne]
  ring

end Verif.Clip
