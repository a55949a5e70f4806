import Verif.Lemmas.Clip
import Mathlib.Tactic.Positivity

/-! # Cutting one triangle in exact arithmetic -/

namespace Verif.Clip

open Verif Geometry

theorem normal_rot (k : Nat) (t : Tri) : normal (rot k t) = normal t := by
  unfold rot
  split
  · rfl
  · simp only [normal, Prod.mk.injEq]; refine ⟨by ring, by ring, by ring⟩
  · simp only [normal, Prod.mk.injEq]; refine ⟨by ring, by ring, by ring⟩

theorem in_rot {k : Nat} {t : Tri} {x : P3} : In x (rot k t) ↔ In x t := by
  unfold rot
  split
  · rfl
  · constructor
    · rintro ⟨r, s, u, hr, hs, hu, h1, hx⟩
      exact ⟨u, r, s, hu, hr, hs, by linarith, by rw [hx]; module⟩
    · rintro ⟨r, s, u, hr, hs, hu, h1, hx⟩
      exact ⟨s, u, r, hs, hu, hr, by linarith, by rw [hx]; module⟩
  · constructor
    · rintro ⟨r, s, u, hr, hs, hu, h1, hx⟩
      exact ⟨s, u, r, hs, hu, hr, by linarith, by rw [hx]; module⟩
    · rintro ⟨r, s, u, hr, hs, hu, h1, hx⟩
      exact ⟨u, r, s, hu, hr, hs, by linarith, by rw [hx]; module⟩

theorem in_swap {a b c x : P3} (h : In x (a, b, c)) : In x (a, c, b) := by
  obtain ⟨r, s, u, hr, hs, hu, h1, hx⟩ := h
  exact ⟨r, u, s, hr, hu, hs, by linarith, by rw [hx]; module⟩

theorem degenerate_normal {t : Tri} (h : degenerate t = true) : normal t = 0 := by
  unfold degenerate at h
  simp only [Bool.or_eq_true, decide_eq_true_eq] at h
  obtain ⟨a, b, c⟩ := t
  simp only at h
  refine Prod.ext ?_ (Prod.ext ?_ ?_) <;> rcases h with (rfl | rfl) | rfl <;> simp [normal] <;> ring

theorem append_of_normal {t : Tri} (h : normal t ≠ 0) : append t = [t] := by
  unfold append
  rw [if_neg]
  exact fun hd => h (degenerate_normal hd)

/-- A triangle is convex. -/
theorem in_convex {t : Tri} {a b c x : P3} (ha : In a t) (hb : In b t) (hc : In c t) (h : In x (a, b, c)) : In x t := by
  obtain ⟨r, s, u, hr, hs, hu, h1, hx⟩ := h
  obtain ⟨r1, s1, u1, hr1, hs1, hu1, h11, hx1⟩ := ha
  obtain ⟨r2, s2, u2, hr2, hs2, hu2, h12, hx2⟩ := hb
  obtain ⟨r3, s3, u3, hr3, hs3, hu3, h13, hx3⟩ := hc
  refine ⟨r * r1 + s * r2 + u * r3, r * s1 + s * s2 + u * s3, r * u1 + s * u2 + u * u3, by positivity, by positivity, by positivity, ?_, ?_⟩
  · linear_combination r * h11 + s * h12 + u * h13 + h1
  · rw [hx]
    simp only [hx1, hx2, hx3]
    module

theorem in_le {a b c x : P3} {th : ℝ} (ha : a.1 ≤ th) (hb : b.1 ≤ th) (hc : c.1 ≤ th) (h : In x (a, b, c)) : x.1 ≤ th := by
  obtain ⟨r, s, u, hr, hs, hu, h1, hx⟩ := h
  rw [hx]
  show r * a.1 + s * b.1 + u * c.1 ≤ th
  have e : r * th + s * th + u * th = th := by linear_combination th * h1
  linarith [mul_le_mul_of_nonneg_left ha hr, mul_le_mul_of_nonneg_left hb hs, mul_le_mul_of_nonneg_left hc hu]

theorem in1 (a b c : P3) : In a (a, b, c) := ⟨1, 0, 0, by norm_num, le_rfl, le_rfl, by norm_num, by simp⟩
theorem in2 (a b c : P3) : In b (a, b, c) := ⟨0, 1, 0, le_rfl, by norm_num, le_rfl, by norm_num, by simp⟩
theorem in3 (a b c : P3) : In c (a, b, c) := ⟨0, 0, 1, le_rfl, le_rfl, by norm_num, by norm_num, by simp⟩

theorem in_seg {T : Tri} {p q : P3} {t : ℝ} (h0 : 0 ≤ t) (h1 : t ≤ 1) (hp : In p T) (hq : In q T) : In (p + t • (q - p)) T :=
  in_convex hp hq hq ⟨1 - t, t, 0, by linarith, h0, le_rfl, by ring, by module⟩

/-- What one cut does in exact arithmetic. -/
structure Good (th : ℝ) (t : Tri) (out : List Tri) : Prop where
  inner : ∀ t' ∈ out, (∃ c : ℝ, 0 < c ∧ normal t' = c • normal t) ∧ ∀ x, In x t' → In x t ∧ x.1 ≤ th
  cover : ∀ x, In x t → x.1 < th → ∃ t' ∈ out, In x t'

theorem Good.rot {th : ℝ} {k : Nat} {t : Tri} {out : List Tri} (h : Good th (rot k t) out) : Good th t out :=
  ⟨fun t' ht => by
      obtain ⟨⟨c, hc, e⟩, h2⟩ := h.inner t' ht
      rw [normal_rot] at e
      exact ⟨⟨c, hc, e⟩, fun x hx => ⟨in_rot.1 (h2 x hx).1, (h2 x hx).2⟩⟩,
    fun x hx hl => h.cover x (in_rot.2 hx) hl⟩

theorem smul_normal_ne {T T' : Tri} (hT : normal T ≠ 0) {c : ℝ} (hc : 0 < c) (e : normal T' = c • normal T) : normal T' ≠ 0 := by
  rw [e]
  exact smul_ne_zero hc.ne' hT

theorem in_fst {a b c x : P3} (h : In x (a, b, c)) :
    ∃ r s u : ℝ, 0 ≤ r ∧ 0 ≤ s ∧ 0 ≤ u ∧ r + s + u = 1 ∧ x = r • a + s • b + u • c ∧ x.1 = r * a.1 + s * b.1 + u * c.1 := by
  obtain ⟨r, s, u, hr, hs, hu, h1, hx⟩ := h
  exact ⟨r, s, u, hr, hs, hu, h1, hx, by rw [hx]; rfl⟩

theorem cover_left {a b c p x : P3} {th t : ℝ} (ha : a.1 = th) (hb : b.1 < th) (h0 : 0 < t)
    (ht : t * (c.1 - b.1) = th - b.1) (hp : p = b + t • (c - b)) (hx : In x (a, b, c)) (hl : x.1 < th) : In x (a, b, p) := by
  obtain ⟨r, s, u, hr, hs, hu, hsum, hx, hx1⟩ := in_fst hx
  obtain ⟨w, hw⟩ : ∃ w, u = w * t := ⟨u / t, (div_mul_cancel₀ _ h0.ne').symm⟩
  have hw0 : 0 ≤ w := by
    by_contra h
    have : w * t < 0 := mul_neg_of_neg_of_pos (not_le.1 h) h0
    linarith
  have hE : 0 < th - b.1 := by linarith
  have key : w * (1 - t) ≤ s := by
    have e1 : (w * (1 - t) - s) * (th - b.1) = x.1 - th := by
      rw [hx1, ha, hw]
      have hr' : r = 1 - s - w * t := by linarith
      rw [hr']
      linear_combination -w * ht
    by_contra h
    have : 0 < (w * (1 - t) - s) * (th - b.1) := mul_pos (by linarith) hE
    linarith
  refine ⟨r, s - w * (1 - t), w, hr, by linarith, hw0, by rw [hw] at hsum; linarith, ?_⟩
  show x = r • a + (s - w * (1 - t)) • b + w • p
  rw [hx, hp, hw]
  module

theorem cover_corner {a b c p q x : P3} {th t s : ℝ} (ha : a.1 < th) (h0 : 0 < t) (h0' : 0 < s)
    (ht : t * (b.1 - a.1) = th - a.1) (hs : s * (c.1 - a.1) = th - a.1) (hp : p = a + t • (b - a)) (hq : q = a + s • (c - a))
    (hx : In x (a, b, c)) (hl : x.1 < th) : In x (a, p, q) := by
  obtain ⟨r, v, u, hr, hv, hu, hsum, hx, hx1⟩ := in_fst hx
  obtain ⟨w, hw⟩ : ∃ w, v = w * t := ⟨v / t, (div_mul_cancel₀ _ h0.ne').symm⟩
  obtain ⟨z, hz⟩ : ∃ z, u = z * s := ⟨u / s, (div_mul_cancel₀ _ h0'.ne').symm⟩
  have hw0 : 0 ≤ w := by
    by_contra h
    have : w * t < 0 := mul_neg_of_neg_of_pos (not_le.1 h) h0
    linarith
  have hz0 : 0 ≤ z := by
    by_contra h
    have : z * s < 0 := mul_neg_of_neg_of_pos (not_le.1 h) h0'
    linarith
  have hE : 0 < th - a.1 := by linarith
  have key : w + z ≤ 1 := by
    have e1 : (w + z - 1) * (th - a.1) = x.1 - th := by
      have hr' : r = 1 - w * t - z * s := by rw [hw, hz] at hsum; linarith
      rw [hx1, hw, hz, hr']
      linear_combination -w * ht - z * hs
    by_contra h
    have : 0 < (w + z - 1) * (th - a.1) := mul_pos (by linarith) hE
    linarith
  refine ⟨1 - w - z, w, z, by linarith, hw0, hz0, by ring, ?_⟩
  show x = (1 - w - z) • a + w • p + z • q
  have hr' : r = 1 - w * t - z * s := by rw [hw, hz] at hsum; linarith
  rw [hx, hp, hq, hw, hz, hr']
  module

/-- the quadrilateral, cut along the diagonal from `b` to the point on the edge `c a` -/
theorem cover_quad {a b c p q x : P3} {th t s : ℝ} (hb : b.1 < th) (h0 : 0 < t) (h0' : 0 < s) (h1' : s < 1)
    (ht : t * (a.1 - b.1) = th - b.1) (hs : s * (a.1 - c.1) = th - c.1) (hp : p = b + t • (a - b)) (hq : q = c + s • (a - c))
    (hx : In x (a, b, c)) (hl : x.1 < th) : In x (b, c, q) ∨ In x (b, q, p) := by
  obtain ⟨α, β, γ, hα, hβ, hγ, hsum, hx, hx1⟩ := in_fst hx
  by_cases h : α * (1 - s) ≤ γ * s
  · left
    obtain ⟨w, hw⟩ : ∃ w, α = w * s := ⟨α / s, (div_mul_cancel₀ _ h0'.ne').symm⟩
    have hw0 : 0 ≤ w := by
      by_contra h
      have : w * s < 0 := mul_neg_of_neg_of_pos (not_le.1 h) h0'
      linarith
    have hg : w * (1 - s) ≤ γ := by
      rw [hw] at h
      have : (w * (1 - s)) * s ≤ γ * s := by linarith
      exact le_of_mul_le_mul_right this h0'
    refine ⟨β, γ - w * (1 - s), w, hβ, by linarith, hw0, by rw [hw] at hsum; linarith, ?_⟩
    show x = β • b + (γ - w * (1 - s)) • c + w • q
    rw [hx, hq, hw]
    module
  · right
    have h1s : (0 : ℝ) < 1 - s := by linarith
    obtain ⟨w, hw⟩ : ∃ w, γ = w * (1 - s) := ⟨γ / (1 - s), (div_mul_cancel₀ _ h1s.ne').symm⟩
    obtain ⟨v, hv⟩ : ∃ v, α - w * s = v * t := ⟨(α - w * s) / t, (div_mul_cancel₀ _ h0.ne').symm⟩
    have hw0 : 0 ≤ w := by
      by_contra h
      have : w * (1 - s) < 0 := mul_neg_of_neg_of_pos (not_le.1 h) h1s
      linarith
    have hv0 : 0 ≤ v := by
      have : w * s ≤ α := by
        rw [hw] at h
        have : (w * s) * (1 - s) ≤ α * (1 - s) := by linarith
        exact le_of_mul_le_mul_right this h1s
      by_contra h
      have : v * t < 0 := mul_neg_of_neg_of_pos (not_le.1 h) h0
      linarith
    have hE : 0 < th - b.1 := by linarith
    have key : v * (1 - t) ≤ β := by
      have e1 : (v * (1 - t) - β) * (th - b.1) = x.1 - th := by
        have hβ' : β = 1 - (v * t + w * s) - w * (1 - s) := by rw [← hv, ← hw]; linarith
        have hα' : α = v * t + w * s := by linarith
        rw [hx1, hβ', hα', hw]
        linear_combination -v * ht - w * hs
      by_contra h
      have : 0 < (v * (1 - t) - β) * (th - b.1) := mul_pos (by linarith) hE
      linarith
    have hα' : α = v * t + w * s := by linarith
    refine ⟨β - v * (1 - t), w, v, by linarith, hw0, hv0, ?_, ?_⟩
    · rw [hα', hw] at hsum; linarith
    · show x = (β - v * (1 - t)) • b + w • q + v • p
      rw [hx, hp, hq, hα', hw]
      module

theorem normal_corner (a b c : P3) (t s : ℝ) : normal (a, a + t • (b - a), a + s • (c - a)) = (t * s) • normal (a, b, c) := by
  refine Prod.ext ?_ (Prod.ext ?_ ?_) <;> simp [normal] <;> ring

theorem normal_left (a b c : P3) (t : ℝ) : normal (a, b, b + t • (c - b)) = t • normal (a, b, c) := by
  refine Prod.ext ?_ (Prod.ext ?_ ?_) <;> simp [normal] <;> ring

theorem normal_right (a b c : P3) (t : ℝ) : normal (a, c + t • (b - c), c) = t • normal (a, b, c) := by
  refine Prod.ext ?_ (Prod.ext ?_ ?_) <;> simp [normal] <;> ring

theorem normal_q1 (a b c : P3) (s : ℝ) : normal (b, c, c + s • (a - c)) = s • normal (a, b, c) := by
  refine Prod.ext ?_ (Prod.ext ?_ ?_) <;> simp [normal] <;> ring

theorem normal_q2 (a b c : P3) (t s : ℝ) : normal (b, c + s • (a - c), b + t • (a - b)) = (t * (1 - s)) • normal (a, b, c) := by
  refine Prod.ext ?_ (Prod.ext ?_ ?_) <;> simp [normal] <;> ring

theorem normal_q3 (a b c : P3) (t : ℝ) : normal (b, c, b + t • (a - b)) = t • normal (a, b, c) := by
  refine Prod.ext ?_ (Prod.ext ?_ ?_) <;> simp [normal] <;> ring

theorem normal_q4 (a b c : P3) (t s : ℝ) : normal (c, c + s • (a - c), b + t • (a - b)) = (s * (1 - t)) • normal (a, b, c) := by
  refine Prod.ext ?_ (Prod.ext ?_ ?_) <;> simp [normal] <;> ring

theorem good {A : Arith} (hA : A.interp = exactInterp) (th : ℝ) {t : Tri} (hn : normal t ≠ 0) : Good th t (clipTri A th t) := by
  have hc := cut A th t
  generalize clipTri A th t = out at hc
  cases hc with
  | keep h1 h2 h3 _ e =>
    rw [append_of_normal hn] at e
    subst e
    refine ⟨fun t' ht => ?_, fun x hx _ => ⟨t, by simp, hx⟩⟩
    simp only [List.mem_cons, List.not_mem_nil, or_false] at ht
    subst ht
    exact ⟨⟨1, one_pos, (one_smul _ _).symm⟩, fun x hx => ⟨hx, in_le h1 h2 h3 hx⟩⟩
  | drop h1 h2 h3 e =>
    subst e
    refine ⟨fun t' ht => (by cases ht), fun x hx hl => ?_⟩
    exfalso
    obtain ⟨r, s, u, hr, hs, hu, hsum, -, hx1⟩ := in_fst (a := t.1) (b := t.2.1) (c := t.2.2) hx
    have e : r * th + s * th + u * th = th := by linear_combination th * hsum
    linarith [mul_le_mul_of_nonneg_left h1 hr, mul_le_mul_of_nonneg_left h2 hs, mul_le_mul_of_nonneg_left h3 hu]
  | corner k a b c hr ha hb hc e =>
    apply Good.rot (k := k)
    rw [← normal_rot k, hr] at hn
    rw [hr]
    obtain ⟨s, s0, s1, hs, es⟩ := intersect_exact hA ha hb
    obtain ⟨v, v0, v1, hv, ev⟩ := intersect_exact hA ha hc
    have en : normal (a, intersect A th a b, intersect A th a c) = (s * v) • normal (a, b, c) := by rw [es, ev, normal_corner]
    rw [append_of_normal (smul_normal_ne hn (mul_pos s0 v0) en)] at e
    subst e
    refine ⟨fun t' ht => ?_, fun x hx hl => ⟨_, List.mem_singleton_self _, cover_corner ha s0 v0 hs hv es ev hx hl⟩⟩
    rw [List.mem_singleton] at ht
    subst ht
    refine ⟨⟨_, mul_pos s0 v0, en⟩, fun x hx => ⟨in_convex (in1 a b c) ?_ ?_ hx, in_le ha.le le_rfl le_rfl hx⟩⟩
    · rw [es]; exact in_seg s0.le s1.le (in1 a b c) (in2 a b c)
    · rw [ev]; exact in_seg v0.le v1.le (in1 a b c) (in3 a b c)
  | left k a b c hr ha hb hc e =>
    apply Good.rot (k := k)
    rw [← normal_rot k, hr] at hn
    rw [hr]
    obtain ⟨s, s0, s1, hs, es⟩ := intersect_exact hA hb hc
    have en : normal (a, b, intersect A th b c) = s • normal (a, b, c) := by rw [es, normal_left]
    rw [append_of_normal (smul_normal_ne hn s0 en)] at e
    subst e
    refine ⟨fun t' ht => ?_, fun x hx hl => ⟨_, List.mem_singleton_self _, cover_left ha hb s0 hs es hx hl⟩⟩
    rw [List.mem_singleton] at ht
    subst ht
    refine ⟨⟨_, s0, en⟩, fun x hx => ⟨in_convex (in1 a b c) (in2 a b c) ?_ hx, in_le ha.le hb.le le_rfl hx⟩⟩
    rw [es]; exact in_seg s0.le s1.le (in2 a b c) (in3 a b c)
  | right k a b c hr ha hb hc e =>
    apply Good.rot (k := k)
    rw [← normal_rot k, hr] at hn
    rw [hr]
    obtain ⟨s, s0, s1, hs, es⟩ := intersect_exact hA hc hb
    rw [intersect_comm A th b c] at e
    have en : normal (a, intersect A th c b, c) = s • normal (a, b, c) := by rw [es, normal_right]
    rw [append_of_normal (smul_normal_ne hn s0 en)] at e
    subst e
    refine ⟨fun t' ht => ?_, fun x hx hl => ⟨_, List.mem_singleton_self _, in_swap (cover_left ha hc s0 hs es (in_swap hx) hl)⟩⟩
    rw [List.mem_singleton] at ht
    subst ht
    refine ⟨⟨_, s0, en⟩, fun x hx => ⟨in_convex (in1 a b c) ?_ (in3 a b c) hx, in_le ha.le le_rfl hc.le hx⟩⟩
    rw [es]; exact in_seg s0.le s1.le (in3 a b c) (in2 a b c)
  | quad1 k a b c hr ha hb hc e =>
    apply Good.rot (k := k)
    rw [← normal_rot k, hr] at hn
    rw [hr]
    obtain ⟨t1, t10, t11, ht1, et⟩ := intersect_exact hA hb ha
    obtain ⟨s, s0, s1, hs, es⟩ := intersect_exact hA hc ha
    have en1 : normal (b, c, intersect A th c a) = s • normal (a, b, c) := by rw [es, normal_q1]
    have en2 : normal (b, intersect A th c a, intersect A th b a) = (t1 * (1 - s)) • normal (a, b, c) := by rw [es, et, normal_q2]
    have hpos : 0 < t1 * (1 - s) := mul_pos t10 (by linarith)
    rw [append_of_normal (smul_normal_ne hn s0 en1), append_of_normal (smul_normal_ne hn hpos en2)] at e
    subst e
    have iq : In (intersect A th c a) (a, b, c) := by rw [es]; exact in_seg s0.le s1.le (in3 a b c) (in1 a b c)
    have ip : In (intersect A th b a) (a, b, c) := by rw [et]; exact in_seg t10.le t11.le (in2 a b c) (in1 a b c)
    refine ⟨fun t' ht => ?_, fun x hx hl => ?_⟩
    · simp only [List.singleton_append, List.mem_cons, List.not_mem_nil, or_false] at ht
      rcases ht with rfl | rfl
      · exact ⟨⟨_, s0, en1⟩, fun x hx => ⟨in_convex (in2 a b c) (in3 a b c) iq hx, in_le hb.le hc.le le_rfl hx⟩⟩
      · exact ⟨⟨_, hpos, en2⟩, fun x hx => ⟨in_convex (in2 a b c) iq ip hx, in_le hb.le le_rfl le_rfl hx⟩⟩
    · rcases cover_quad hb t10 s0 s1 ht1 hs et es hx hl with h | h
      · exact ⟨_, by simp, h⟩
      · exact ⟨(b, intersect A th c a, intersect A th b a), by simp, h⟩
  | quad2 k a b c hr ha hb hc e =>
    apply Good.rot (k := k)
    rw [← normal_rot k, hr] at hn
    rw [hr]
    obtain ⟨t1, t10, t11, ht1, et⟩ := intersect_exact hA hb ha
    obtain ⟨s, s0, s1, hs, es⟩ := intersect_exact hA hc ha
    have en1 : normal (b, c, intersect A th b a) = t1 • normal (a, b, c) := by rw [et, normal_q3]
    have en2 : normal (c, intersect A th c a, intersect A th b a) = (s * (1 - t1)) • normal (a, b, c) := by rw [es, et, normal_q4]
    have hpos : 0 < s * (1 - t1) := mul_pos s0 (by linarith)
    rw [append_of_normal (smul_normal_ne hn t10 en1), append_of_normal (smul_normal_ne hn hpos en2)] at e
    subst e
    have iq : In (intersect A th c a) (a, b, c) := by rw [es]; exact in_seg s0.le s1.le (in3 a b c) (in1 a b c)
    have ip : In (intersect A th b a) (a, b, c) := by rw [et]; exact in_seg t10.le t11.le (in2 a b c) (in1 a b c)
    refine ⟨fun t' ht => ?_, fun x hx hl => ?_⟩
    · simp only [List.singleton_append, List.mem_cons, List.not_mem_nil, or_false] at ht
      rcases ht with rfl | rfl
      · exact ⟨⟨_, t10, en1⟩, fun x hx => ⟨in_convex (in2 a b c) (in3 a b c) ip hx, in_le hb.le hc.le le_rfl hx⟩⟩
      · exact ⟨⟨_, hpos, en2⟩, fun x hx => ⟨in_convex (in3 a b c) iq ip hx, in_le hc.le le_rfl le_rfl hx⟩⟩
    · rcases cover_quad hc s0 t10 t11 hs ht1 es et (in_swap hx) hl with h | h
      · obtain ⟨r, v, u, hr, hv, hu, hsum, hx⟩ := h
        refine ⟨(b, c, intersect A th b a), by simp, v, r, u, hv, hr, hu, by linarith, ?_⟩
        rw [hx]
        show r • c + v • b + u • intersect A th b a = v • b + r • c + u • intersect A th b a
        rw [add_comm (r • c)]
      · exact ⟨(c, intersect A th c a, intersect A th b a), by simp, in_swap h⟩

/-! ## No overlap -/

theorem bary_unique {a b c : P3} (hn : normal (a, b, c) ≠ 0) {r s u r' s' u' : ℝ} (hsum : r + s + u = r' + s' + u')
    (h : r • a + s • b + u • c = r' • a + s' • b + u' • c) : r = r' ∧ s = s' ∧ u = u' := by
  have e1 : r * a.1 + s * b.1 + u * c.1 = r' * a.1 + s' * b.1 + u' * c.1 := congrArg Prod.fst h
  have e2 : r * a.2.1 + s * b.2.1 + u * c.2.1 = r' * a.2.1 + s' * b.2.1 + u' * c.2.1 := congrArg (fun p => p.2.1) h
  have e3 : r * a.2.2 + s * b.2.2 + u * c.2.2 = r' * a.2.2 + s' * b.2.2 + u' * c.2.2 := congrArg (fun p => p.2.2) h
  have hr : r = r' + s' + u' - s - u := by linarith
  subst hr
  have g1 : (s - s') • normal (a, b, c) = 0 := by
    refine Prod.ext ?_ (Prod.ext ?_ ?_) <;> simp only [normal, Prod.smul_fst, Prod.smul_snd, Prod.fst_zero, Prod.snd_zero, smul_eq_mul]
    · linear_combination (c.2.2 - a.2.2) * e2 - (c.2.1 - a.2.1) * e3
    · linear_combination (c.1 - a.1) * e3 - (c.2.2 - a.2.2) * e1
    · linear_combination (c.2.1 - a.2.1) * e1 - (c.1 - a.1) * e2
  have g2 : (u - u') • normal (a, b, c) = 0 := by
    refine Prod.ext ?_ (Prod.ext ?_ ?_) <;> simp only [normal, Prod.smul_fst, Prod.smul_snd, Prod.fst_zero, Prod.snd_zero, smul_eq_mul]
    · linear_combination (b.2.1 - a.2.1) * e3 - (b.2.2 - a.2.2) * e2
    · linear_combination (b.2.2 - a.2.2) * e1 - (b.1 - a.1) * e3
    · linear_combination (b.1 - a.1) * e2 - (b.2.1 - a.2.1) * e1
  have h1 := (smul_eq_zero.1 g1).resolve_right hn
  have h2 := (smul_eq_zero.1 g2).resolve_right hn
  exact ⟨by linarith, by linarith, by linarith⟩

/-- three points on one line have no normal -/
theorem normal_line {p q : P3} {x y z : ℝ} {a b c : P3} (ha : a = (1 - x) • p + x • q) (hb : b = (1 - y) • p + y • q) (hc : c = (1 - z) • p + z • q) :
    normal (a, b, c) = 0 := by
  subst ha hb hc
  refine Prod.ext ?_ (Prod.ext ?_ ?_) <;> simp [normal] <;> ring

/-- What is strictly inside a part is strictly inside the whole. -/
theorem strict_part {t' t : Tri} (h : Part t' t) (hn : normal t ≠ 0) {x : P3} (hx : StrictIn x t') : StrictIn x t := by
  obtain ⟨⟨k, hk, e⟩, hin⟩ := h
  have hn' := smul_normal_ne hn hk e
  obtain ⟨a, b, c⟩ := t'
  obtain ⟨p, q, w⟩ := t
  obtain ⟨r, s, u, hr, hs, hu, h1, hx⟩ := hx
  obtain ⟨r1, s1, u1, hr1, hs1, hu1, h11, hx1⟩ := hin a (in1 a b c)
  obtain ⟨r2, s2, u2, hr2, hs2, hu2, h12, hx2⟩ := hin b (in2 a b c)
  obtain ⟨r3, s3, u3, hr3, hs3, hu3, h13, hx3⟩ := hin c (in3 a b c)
  simp only at hx hx1 hx2 hx3
  have pos : ∀ {x1 x2 x3 : ℝ}, 0 ≤ x1 → 0 ≤ x2 → 0 ≤ x3 → ¬(x1 = 0 ∧ x2 = 0 ∧ x3 = 0) → 0 < r * x1 + s * x2 + u * x3 := by
    intro x1 x2 x3 g1 g2 g3 hne
    have p1 := mul_nonneg hr.le g1
    have p2 := mul_nonneg hs.le g2
    have p3 := mul_nonneg hu.le g3
    by_contra hle
    apply hne
    have z1 : r * x1 = 0 := by linarith
    have z2 : s * x2 = 0 := by linarith
    have z3 : u * x3 = 0 := by linarith
    exact ⟨(mul_eq_zero.1 z1).resolve_left hr.ne', (mul_eq_zero.1 z2).resolve_left hs.ne', (mul_eq_zero.1 z3).resolve_left hu.ne'⟩
  refine ⟨r * r1 + s * r2 + u * r3, r * s1 + s * s2 + u * s3, r * u1 + s * u2 + u * u3,
    pos hr1 hr2 hr3 ?_, pos hs1 hs2 hs3 ?_, pos hu1 hu2 hu3 ?_, ?_, ?_⟩
  · rintro ⟨z1, z2, z3⟩
    apply hn'
    subst z1 z2 z3
    refine normal_line (p := q) (q := w) (x := u1) (y := u2) (z := u3) ?_ ?_ ?_
    · rw [hx1, show s1 = 1 - u1 by linarith]; module
    · rw [hx2, show s2 = 1 - u2 by linarith]; module
    · rw [hx3, show s3 = 1 - u3 by linarith]; module
  · rintro ⟨z1, z2, z3⟩
    apply hn'
    subst z1 z2 z3
    refine normal_line (p := p) (q := w) (x := u1) (y := u2) (z := u3) ?_ ?_ ?_
    · rw [hx1, show r1 = 1 - u1 by linarith]; module
    · rw [hx2, show r2 = 1 - u2 by linarith]; module
    · rw [hx3, show r3 = 1 - u3 by linarith]; module
  · rintro ⟨z1, z2, z3⟩
    apply hn'
    subst z1 z2 z3
    refine normal_line (p := p) (q := q) (x := s1) (y := s2) (z := s3) ?_ ?_ ?_
    · rw [hx1, show r1 = 1 - s1 by linarith]; module
    · rw [hx2, show r2 = 1 - s2 by linarith]; module
    · rw [hx3, show r3 = 1 - s3 by linarith]; module
  · linear_combination r * h11 + s * h12 + u * h13 + h1
  · rw [hx]
    simp only [hx1, hx2, hx3]
    module

theorem apart_quad {a b c p q : P3} {t s : ℝ} (hn : normal (a, b, c) ≠ 0) (t0 : 0 < t) (s0 : 0 < s) (s1 : s < 1)
    (hp : p = b + t • (a - b)) (hq : q = c + s • (a - c)) : ¬∃ x, StrictIn x (b, c, q) ∧ StrictIn x (b, q, p) := by
  rintro ⟨x, ⟨r1, r2, r3, h1, h2, h3, hs, e⟩, r1', r2', r3', h1', h2', h3', hs', e'⟩
  simp only at e e'
  have := bary_unique hn (r := r3 * s) (s := r1) (u := r2 + r3 * (1 - s)) (r' := r2' * s + r3' * t) (s' := r1' + r3' * (1 - t)) (u' := r2' * (1 - s))
    (by linarith) (by
      have e2 := e.symm.trans e'
      rw [hp, hq] at e2
      refine Eq.trans ?_ (e2.trans ?_)
      · module
      · module)
  obtain ⟨g1, -, g3⟩ := this
  have k1 : 0 < r2 * s := mul_pos h2 s0
  have k2 : 0 < r3' * t * (1 - s) := mul_pos (mul_pos h3' t0) (by linarith)
  have : r2 * s + r3' * t * (1 - s) = 0 := by linear_combination s * g3 - (1 - s) * g1
  linarith

theorem apart {A : Arith} (hA : A.interp = exactInterp) (th : ℝ) {t : Tri} (hn : normal t ≠ 0) : (clipTri A th t).Pairwise Apart := by
  have one : ∀ u : Tri, (append u).Pairwise Apart := by
    intro u; unfold append; split
    · exact List.Pairwise.nil
    · exact List.pairwise_singleton _ _
  have two : ∀ u v : Tri, Apart u v → (append u ++ append v).Pairwise Apart := by
    intro u v h
    rw [List.pairwise_append]
    refine ⟨one u, one v, fun x hx y hy => ?_⟩
    rw [(mem_append hx).1, (mem_append hy).1]
    exact h
  have hc := cut A th t
  generalize clipTri A th t = out at hc
  cases hc with
  | keep h1 h2 h3 _ e => rw [e]; exact one _
  | drop h1 h2 h3 e => rw [e]; exact List.Pairwise.nil
  | corner k a b c hr ha hb hc e => rw [e]; exact one _
  | left k a b c hr ha hb hc e => rw [e]; exact one _
  | right k a b c hr ha hb hc e => rw [e]; exact one _
  | quad1 k a b c hr ha hb hc e =>
    rw [e]
    rw [← normal_rot k, hr] at hn
    obtain ⟨t1, t10, t11, ht1, et⟩ := intersect_exact hA hb ha
    obtain ⟨s, s0, s1, hs, es⟩ := intersect_exact hA hc ha
    exact two _ _ (apart_quad hn t10 s0 s1 et es)
  | quad2 k a b c hr ha hb hc e =>
    rw [e]
    rw [← normal_rot k, hr] at hn
    obtain ⟨t1, t10, t11, ht1, et⟩ := intersect_exact hA hb ha
    obtain ⟨s, s0, s1, hs, es⟩ := intersect_exact hA hc ha
    refine two _ _ ?_
    have hn' : normal (a, c, b) ≠ 0 := by
      have : normal (a, c, b) = (-1 : ℝ) • normal (a, b, c) := by
        refine Prod.ext ?_ (Prod.ext ?_ ?_) <;> simp [normal] <;> ring
      rw [this]
      exact smul_ne_zero (by norm_num) hn
    rintro ⟨x, ⟨r1, r2, r3, h1, h2, h3, hs', e1⟩, r1', r2', r3', h1', h2', h3', hs'', e2⟩
    refine apart_quad hn' s0 t10 t11 es et ⟨x, ⟨r2, r1, r3, h2, h1, h3, by linarith, ?_⟩, r1', r3', r2', h1', h3', h2', by linarith, ?_⟩
    · rw [e1]; exact add_right_cancel_iff.2 (add_comm _ _)
    · rw [e2]; exact add_right_comm _ _ _

end Verif.Clip
