import Verif.Lemmas.PredicatesTriangle
import Verif.Props.MeshDefects
import Mathlib.Tactic.NormNum

/-!
# C55: the geometric tests of `intersecting_faces()` (exact arithmetic)
-/

namespace Verif.Predicates

open Verif MeshDefects MeshDefects.Spec SpatialGrid Geometry

theorem kTinyFactor_nonneg : 0 ≤ kTinyFactor := by unfold kTinyFactor; positivity

/-- **C55, nothing is missed (segment and triangle).** For every tolerance, a segment and a triangle (any of them may be degenerate)
that have a common point are reported. -/
theorem C55_segment_triangle {tf : ℝ} (htf : 0 ≤ tf) (a b p q r x : P3) (h1 : x ∈ convexHull ℝ {a, b}) (h2 : x ∈ convexHull ℝ {p, q, r}) :
    segTriIntersect (narrow tf) a b p q r = true := by
  refine segTriIntersect_true htf ?_ (inTriangle_of_hull h2)
  rw [convexHull_pair] at h1
  obtain ⟨s, t, hs, ht, hst, h⟩ := h1
  exact ⟨s, t, hs, ht, hst, h.symm⟩

/-- **C55, nothing is missed (two triangles).** -/
theorem C55_triangle_triangle {tf : ℝ} (htf : 0 ≤ tf) (a b c p q r x : P3) (h1 : x ∈ convexHull ℝ {a, b, c}) (h2 : x ∈ convexHull ℝ {p, q, r}) :
    triTriIntersect (narrow tf) a b c p q r = true :=
  triTriIntersect_true htf (inTriangle_of_hull h1) (inTriangle_of_hull h2)

/-- **C55, nothing is missed (two faces).** Two faces that have a common point other than those due to their shared corners are reported,
however many corners they share. -/
theorem C55_faces {tf : ℝ} (htf : 0 ≤ tf) (ta tb : P3 × P3 × P3) (ha : DistinctCorners ta) (hb : DistinctCorners tb) (h : Cross ta tb) :
    trianglesIntersect (narrow tf) ta tb = .ok true :=
  trianglesIntersect_true htf ha hb h

/-- **C55, `intersecting_faces()`.** For every mesh whose faces have corners at three different positions, every grid and every schedule,
every face that crosses another face is returned. -/
theorem C55_intersecting_faces (cellOf : ℝ → Int) (hcell : Monotone cellOf) (dflt : Box ℝ) (vertices : List P3) (faces : List Face)
    (M : Finder ℝ) (h : mk vertices faces = .ok M) (hd : ∀ fi t, IsTriangle vertices faces fi t → DistinctCorners t)
    (sched : Nat → List (List Nat)) (hs : ∀ n, IsSchedule n (sched n)) :
    ∃ l, intersectingFaces cellOf dflt (narrow kTinyFactor) M sched = .ok l ∧ l.Pairwise (· < ·) ∧
      ∀ fi fj ta tb, fi ≠ fj → IsTriangle vertices faces fi ta → IsTriangle vertices faces fj tb → Cross ta tb → fi ∈ l ∧ fj ∈ l := by
  obtain ⟨l, e1, e2, e3⟩ := C11_intersecting_faces cellOf dflt (narrow kTinyFactor) hcell vertices faces M h hd sched hs
  refine ⟨l, e1, e2, ?_⟩
  have key : ∀ fi fj ta tb, fi < fj → IsTriangle vertices faces fi ta → IsTriangle vertices faces fj tb → Cross ta tb → fi ∈ l ∧ fj ∈ l := by
    intro fi fj ta tb hij hta htb hc
    have ht := C55_faces kTinyFactor_nonneg ta tb (hd _ _ hta) (hd _ _ htb) hc
    exact ⟨(e3 fi).2 ⟨fi, fj, ta, tb, hij, hta, htb, ht, Or.inl rfl⟩, (e3 fj).2 ⟨fi, fj, ta, tb, hij, hta, htb, ht, Or.inr rfl⟩⟩
  intro fi fj ta tb hne hta htb hc
  rcases Nat.lt_or_gt_of_ne hne with hlt | hlt
  · exact key fi fj ta tb hlt hta htb hc
  · have hc' : Cross tb ta := by
      obtain ⟨x, x1, x2, x3⟩ := hc
      exact ⟨x, x2, x1, by rwa [Set.inter_comm]⟩
    exact (key fj fi tb ta hlt htb hta hc').symm

/-- A segment through a triangle, and two triangles that share a corner and cross: the hypotheses can be met. -/
example : ∃ x : P3, x ∈ convexHull ℝ {((1 : ℝ), (1 : ℝ), (-1 : ℝ)), (1, 1, 1)} ∧ x ∈ convexHull ℝ {((0 : ℝ), (0 : ℝ), (0 : ℝ)), (3, 0, 0), (0, 3, 0)} := by
  refine ⟨(1, 1, 0), ?_, ?_⟩
  · rw [convexHull_pair]
    refine ⟨1 / 2, 1 / 2, by norm_num, by norm_num, by norm_num, ?_⟩
    ext <;> simp <;> norm_num
  · apply hull_of_inTriangle
    refine ⟨1 / 3, 1 / 3, 1 / 3, by norm_num, by norm_num, by norm_num, by norm_num, ?_⟩
    ext <;> simp

theorem crossing_example : Cross (((0, 0, 0), (4, 0, 0), (0, 4, 0)) : P3 × P3 × P3) ((0, 0, 0), (2, 2, 1), (2, 2, -1)) := by
  refine ⟨(1, 1, 0), ?_, ?_, ?_⟩
  · apply hull_of_inTriangle
    refine ⟨1 / 2, 1 / 4, 1 / 4, by norm_num, by norm_num, by norm_num, by norm_num, ?_⟩
    ext <;> simp
  · apply hull_of_inTriangle
    refine ⟨1 / 2, 1 / 4, 1 / 4, by norm_num, by norm_num, by norm_num, by norm_num, ?_⟩
    ext <;> simp <;> norm_num
  · have : cornerSet (((0, 0, 0), (4, 0, 0), (0, 4, 0)) : P3 × P3 × P3) ∩ cornerSet ((0, 0, 0), (2, 2, 1), (2, 2, -1)) = {(0, 0, 0)} := by
      ext x
      simp only [cornerSet, Set.mem_inter_iff, Set.mem_insert_iff, Set.mem_singleton_iff]
      constructor
      · rintro ⟨rfl | rfl | rfl, h⟩
        · rfl
        · simp at h
        · simp at h
      · rintro rfl
        simp
    rw [this, convexHull_singleton]
    simp

/-- **C55, nothing far away is reported.** A segment that is reported although it is not (almost) parallel to the plane of the triangle
meets the triangle up to the tolerance: there is a common point of the line and the plane whose coordinates with respect to the ends of
the segment and to the corners of the triangle are all at least `-ε`, where `ε` is the tolerance relative to the difference of the signed
volumes of the ends. -/
theorem C55_reported_is_near {tf : ℝ} (htf : 0 ≤ tf) (a b p q r : P3) (tiny D : ℝ)
    (htiny : tiny = tf * extent (cmin (cmin (cmin (cmin a b) p) q) r) (cmax (cmax (cmax (cmax a b) p) q) r) ^ 3)
    (hD : D = orient3d a p q r - orient3d b p q r) (hpar : 3 * tiny < |D|)
    (h : segTriIntersect (narrow tf) a b p q r = true) :
    ∃ s t α β γ : ℝ, s + t = 1 ∧ α + β + γ = 1 ∧ s • a + t • b = α • p + β • q + γ • r ∧
      -(tiny / |D|) ≤ s ∧ -(tiny / |D|) ≤ t ∧ -(tiny / |D|) ≤ α ∧ -(tiny / |D|) ≤ β ∧ -(tiny / |D|) ≤ γ := by
  have hty := tiny3_nonneg htf (cmin (cmin (cmin (cmin a b) p) q) r) (cmax (cmax (cmax (cmax a b) p) q) r)
  have htiny' : tf * extent (cmin (cmin (cmin (cmin a b) p) q) r) (cmax (cmax (cmax (cmax a b) p) q) r) *
      extent (cmin (cmin (cmin (cmin a b) p) q) r) (cmax (cmax (cmax (cmax a b) p) q) r) *
      extent (cmin (cmin (cmin (cmin a b) p) q) r) (cmax (cmax (cmax (cmax a b) p) q) r) = tiny := by rw [htiny]; ring
  rw [htiny'] at hty
  have hN : segTri tf a b p q r (orient3d a p q r) (orient3d b p q r) = true := by
    unfold segTriIntersect at h
    split at h
    · cases h
    · exact h
  unfold segTri at hN
  dsimp only at hN
  rw [htiny'] at hN
  split at hN
  · cases hN
  · rename_i hside
    split at hN
    · cases hN
    · rw [decide_eq_true_iff] at hN
      clear h htiny htiny'
      have hS : orient3d a b p q + orient3d a b q r + orient3d a b r p = D := by
        rw [hD]; unfold orient3d; ring
      have hV : (-orient3d b p q r) • a + orient3d a p q r • b = orient3d a b q r • p + orient3d a b r p • q + orient3d a b p q • r := by
        refine Prod.ext ?_ (Prod.ext ?_ ?_)
        · show -orient3d b p q r * a.1 + orient3d a p q r * b.1 = orient3d a b q r * p.1 + orient3d a b r p * q.1 + orient3d a b p q * r.1
          unfold orient3d; ring
        · show -orient3d b p q r * a.2.1 + orient3d a p q r * b.2.1 = orient3d a b q r * p.2.1 + orient3d a b r p * q.2.1 + orient3d a b p q * r.2.1
          unfold orient3d; ring
        · show -orient3d b p q r * a.2.2 + orient3d a p q r * b.2.2 = orient3d a b q r * p.2.2 + orient3d a b r p * q.2.2 + orient3d a b p q * r.2.2
          unfold orient3d; ring
      have hD0 : D ≠ 0 := by
        rintro rfl
        rw [abs_zero] at hpar
        linarith
      generalize orient3d a p q r = A at *
      generalize orient3d b p q r = B at *
      generalize orient3d a b p q = U at *
      generalize orient3d a b q r = V at *
      generalize orient3d a b r p = W at *
      refine ⟨-B / D, A / D, V / D, W / D, U / D, ?_, ?_, ?_, ?_⟩
      · field_simp; linarith
      · field_simp; linarith
      · have e1 : (-B / D) • a + (A / D) • b = (1 / D) • ((-B) • a + A • b) := by module
        rw [e1, hV]
        module
      · have hle : ∀ {X : ℝ}, (0 < D → -tiny ≤ X) → (D < 0 → X ≤ tiny) → -(tiny / |D|) ≤ X / D := by
          intro X h1 h2
          rcases lt_or_gt_of_ne hD0 with hlt | hgt
          · rw [abs_of_neg hlt, div_neg, neg_neg]
            exact div_le_div_of_nonpos_of_le (le_of_lt hlt) (h2 hlt)
          · rw [abs_of_pos hgt, ← neg_div]
            exact div_le_div_of_nonneg_right (h1 hgt) (le_of_lt hgt)
        have habs1 : 0 < D → 3 * tiny < D := fun hgt => by rwa [abs_of_pos hgt] at hpar
        have habs2 : D < 0 → 3 * tiny < -D := fun hlt => by rwa [abs_of_neg hlt] at hpar
        rw [not_or, not_and_or, not_and_or, not_lt, not_lt, not_lt, not_lt] at hside
        obtain ⟨s1, s2⟩ := hside
        refine ⟨hle ?_ ?_, hle ?_ ?_, hle ?_ ?_, hle ?_ ?_, hle ?_ ?_⟩
        · intro hgt
          rcases s2 with s2 | s2 <;> linarith
        · intro hlt
          rcases s1 with s1 | s1 <;> linarith
        · intro hgt
          rcases s1 with s1 | s1 <;> linarith
        · intro hlt
          rcases s2 with s2 | s2 <;> linarith
        all_goals intro hsgn
        all_goals first
          | (have := habs1 hsgn; rcases hN with ⟨n1, n2, n3⟩ | ⟨n1, n2, n3⟩ <;> linarith)
          | (have := habs2 hsgn; rcases hN with ⟨n1, n2, n3⟩ | ⟨n1, n2, n3⟩ <;> linarith)

/-- **C55, exactness.** With a zero tolerance the test of a segment whose ends are not at the same signed distance from the plane of the
triangle is exact. -/
theorem C55_exact (a b p q r : P3) (h : orient3d a p q r ≠ orient3d b p q r) :
    segTriIntersect (narrow 0) a b p q r = true ↔ ∃ x, x ∈ convexHull ℝ {a, b} ∧ x ∈ convexHull ℝ {p, q, r} := by
  constructor
  · intro ht
    obtain ⟨s, t, α, β, γ, hst, hsum, e, h1, h2, h3, h4, h5⟩ := C55_reported_is_near (le_refl 0) a b p q r 0 _ (by simp) rfl
      (by simpa using sub_ne_zero.2 h) ht
    rw [zero_div, neg_zero] at h1 h2 h3 h4 h5
    refine ⟨s • a + t • b, ?_, ?_⟩
    · rw [convexHull_pair]
      exact ⟨s, t, h1, h2, hst, rfl⟩
    · exact hull_of_inTriangle ⟨α, β, γ, h3, h4, h5, hsum, e⟩
  · rintro ⟨x, h1, h2⟩
    exact C55_segment_triangle (le_refl 0) a b p q r x h1 h2

/-- A segment that passes beside a triangle, through its plane: the two sides of `C55_exact` are false. -/
example : segTriIntersect (narrow 0) (3, 3, -1) (2, 2, 1) (0, 0, 0) (4, 0, 0) (0, 4, 0) = false ∧
    orient3d (3, 3, -1) (0, 0, 0) (4, 0, 0) (0, 4, 0) ≠ orient3d (2, 2, 1) (0, 0, 0) (4, 0, 0) (0, 4, 0) := by
  have hne : orient3d (3, 3, -1) (0, 0, 0) (4, 0, 0) (0, 4, 0) ≠ orient3d (2, 2, 1) (0, 0, 0) (4, 0, 0) (0, 4, 0) := by
    norm_num [orient3d]
  refine ⟨?_, hne⟩
  by_contra hc
  rw [Bool.not_eq_false, C55_exact _ _ _ _ _ hne] at hc
  obtain ⟨x, h1, h2⟩ := hc
  rw [convexHull_pair] at h1
  obtain ⟨s, t, hs, ht, hst, hx⟩ := h1
  obtain ⟨α, β, γ, hα, hβ, hγ, hsum, hx'⟩ := inTriangle_of_hull h2
  rw [← hx] at hx'
  have e0 := congrArg (fun y : P3 => y.1) hx'
  have e1 := congrArg (fun y : P3 => y.2.1) hx'
  have e2 := congrArg (fun y : P3 => y.2.2) hx'
  simp at e0 e1 e2
  linarith

/-- Vectors of a plane, in coordinates. -/
theorem coplanar_coords {a b p q : P3} (h : orient3d a b p q = 0) {k : Nat} (hk : k < 3) :
    orient2d (proj ((k + 1) % 3) ((k + 2) % 3) a) (proj ((k + 1) % 3) ((k + 2) % 3) b) (proj ((k + 1) % 3) ((k + 2) % 3) p) • (q - a) =
      orient2d (proj ((k + 1) % 3) ((k + 2) % 3) a) (proj ((k + 1) % 3) ((k + 2) % 3) q) (proj ((k + 1) % 3) ((k + 2) % 3) p) • (b - a) +
      orient2d (proj ((k + 1) % 3) ((k + 2) % 3) a) (proj ((k + 1) % 3) ((k + 2) % 3) b) (proj ((k + 1) % 3) ((k + 2) % 3) q) • (p - a) := by
  obtain ⟨a0, a1, a2⟩ := a
  obtain ⟨b0, b1, b2⟩ := b
  obtain ⟨p0, p1, p2⟩ := p
  obtain ⟨q0, q1, q2⟩ := q
  unfold orient3d at h
  match k, hk with
  | 0, _ =>
    refine Prod.ext ?_ (Prod.ext ?_ ?_) <;> simp [orient2d, proj, coord] <;> first | ring1 | linear_combination (exp := 1) h | linear_combination (exp := 1) -h
  | 1, _ =>
    refine Prod.ext ?_ (Prod.ext ?_ ?_) <;> simp [orient2d, proj, coord] <;> first | ring1 | linear_combination (exp := 1) h | linear_combination (exp := 1) -h
  | 2, _ =>
    refine Prod.ext ?_ (Prod.ext ?_ ?_) <;> simp [orient2d, proj, coord] <;> first | ring1 | linear_combination (exp := 1) h | linear_combination (exp := 1) -h

/-- **C55, exactness for faces on a common edge.** With a zero tolerance, and provided that neither triangle degenerates to a line when the
coordinate in which the four points extend least is dropped (see `C55_flat_wall_is_reported` for what happens otherwise), two triangles
on the edge `ab` are reported exactly if they overlap beyond this edge. -/
theorem C55_folded_exact (a b p q : P3) (k : Nat) (hk : k = argmin (cmin (cmin (cmin a b) p) q) (cmax (cmax (cmax a b) p) q))
    (hP : orient2d (proj ((k + 1) % 3) ((k + 2) % 3) a) (proj ((k + 1) % 3) ((k + 2) % 3) b) (proj ((k + 1) % 3) ((k + 2) % 3) p) ≠ 0)
    (hQ : orient2d (proj ((k + 1) % 3) ((k + 2) % 3) a) (proj ((k + 1) % 3) ((k + 2) % 3) b) (proj ((k + 1) % 3) ((k + 2) % 3) q) ≠ 0) :
    folded 0 a b p q = true ↔ ∃ x, x ∈ convexHull ℝ {a, b, p} ∧ x ∈ convexHull ℝ {a, b, q} ∧ x ∉ convexHull ℝ {a, b} := by
  constructor
  · intro h
    unfold folded at h
    dsimp only at h
    rw [← hk] at h
    split at h
    · cases h
    · rename_i h2
      rw [Bool.not_eq_false] at h2
      have h3 : orient3d a b p q = 0 := by simpa using h
      have hco := coplanar_coords h3 (hk ▸ argmin_lt (cmin (cmin (cmin a b) p) q) (cmax (cmax (cmax a b) p) q))
      have hlin := fun {x : P3} {l m n : ℝ} => orient2d_third (i := (k + 1) % 3) (j := (k + 2) % 3) (a := a) (b := b) (p := q) (x := x) (l := l) (m := m) (n := n)
      unfold folded2d at h2
      dsimp only at h2
      generalize orient2d (proj ((k + 1) % 3) ((k + 2) % 3) a) (proj ((k + 1) % 3) ((k + 2) % 3) b) (proj ((k + 1) % 3) ((k + 2) % 3) p) = P at *
      generalize orient2d (proj ((k + 1) % 3) ((k + 2) % 3) a) (proj ((k + 1) % 3) ((k + 2) % 3) b) (proj ((k + 1) % 3) ((k + 2) % 3) q) = Q at *
      generalize orient2d (proj ((k + 1) % 3) ((k + 2) % 3) a) (proj ((k + 1) % 3) ((k + 2) % 3) q) (proj ((k + 1) % 3) ((k + 2) % 3) p) = R at *
      split at h2
      · cases h2
      · rename_i hs
        simp only [zero_mul, neg_zero] at hs
        have hν : 0 < Q / P := by
          rw [div_pos_iff]
          rcases lt_or_gt_of_ne hP with h1 | h1 <;> rcases lt_or_gt_of_ne hQ with h2 | h2
          · exact Or.inr ⟨h2, h1⟩
          · exact absurd (Or.inl ⟨h1, h2⟩) hs
          · exact absurd (Or.inr ⟨h1, h2⟩) hs
          · exact Or.inl ⟨h2, h1⟩
        have hq : q = (1 - R / P - Q / P) • a + (R / P) • b + (Q / P) • p := by
          have e1 : q - a = (1 / P) • (P • (q - a)) := by rw [smul_smul, one_div, inv_mul_cancel₀ hP, one_smul]
          rw [hco] at e1
          have e2 : q = a + (q - a) := by abel
          rw [e2, e1]
          module
        generalize Q / P = ν at hν hq
        generalize R / P = μ at hq
        obtain ⟨ε, hε, hε1, hεa, hεb⟩ : ∃ ε : ℝ, 0 < ε ∧ ε ≤ 1 ∧ 0 ≤ (1 - ε) / 2 + ε * (1 - μ - ν) ∧ 0 ≤ (1 - ε) / 2 + ε * μ := by
          have p1 := abs_nonneg (1 - μ - ν)
          have p2 := abs_nonneg μ
          have hpos : 0 < 1 + 2 * |1 - μ - ν| + 2 * |μ| := by positivity
          have h1 := neg_abs_le (1 - μ - ν)
          have h2 := neg_abs_le μ
          have hε : 0 < 1 / (1 + 2 * |1 - μ - ν| + 2 * |μ|) := by positivity
          have hmul : 1 / (1 + 2 * |1 - μ - ν| + 2 * |μ|) * (1 + 2 * |1 - μ - ν| + 2 * |μ|) = 1 := by field_simp
          refine ⟨1 / (1 + 2 * |1 - μ - ν| + 2 * |μ|), hε, ?_, ?_, ?_⟩
          · rw [div_le_one hpos]; linarith
          · generalize 1 / (1 + 2 * |1 - μ - ν| + 2 * |μ|) = ε at hε hmul
            have := mul_le_mul_of_nonneg_left h1 (le_of_lt hε)
            have := mul_nonneg (le_of_lt hε) p2
            nlinarith
          · generalize 1 / (1 + 2 * |1 - μ - ν| + 2 * |μ|) = ε at hε hmul
            have := mul_le_mul_of_nonneg_left h2 (le_of_lt hε)
            have := mul_nonneg (le_of_lt hε) p1
            nlinarith
        refine ⟨((1 - ε) / 2) • a + ((1 - ε) / 2) • b + ε • q, ?_, ?_, ?_⟩
        · apply hull_of_inTriangle
          refine ⟨(1 - ε) / 2 + ε * (1 - μ - ν), (1 - ε) / 2 + ε * μ, ε * ν, hεa, hεb, by positivity, by ring, ?_⟩
          conv_lhs => rw [hq]
          module
        · apply hull_of_inTriangle
          exact ⟨(1 - ε) / 2, (1 - ε) / 2, ε, by linarith, by linarith, by linarith, by ring, rfl⟩
        · intro hx
          rw [convexHull_pair] at hx
          obtain ⟨s, t, hs, ht, hst, hx⟩ := hx
          have e1 := hlin (x := s • a + t • b) (l := s) (m := t) (n := 0) (by linarith) (by module)
          have e2 := hlin (x := s • a + t • b) (l := (1 - ε) / 2) (m := (1 - ε) / 2) (n := ε) (by ring) hx
          rw [e1, zero_mul] at e2
          exact (mul_ne_zero (ne_of_gt hε) hQ) e2.symm
  · rintro ⟨x, h1, h2, h3⟩
    refine folded_true (le_refl 0) (inTriangle_of_hull h1) (inTriangle_of_hull h2) fun hs => h3 ?_
    exact hull_of_inSegment hs (by simp) (by simp)

/-- Two triangles on an edge that lie side by side: not reported. -/
example : folded 0 (0, 0, 0) (4, 0, 0) (1, 2, 0) (1, -2, 0) = false := by
  have hk : argmin (cmin (cmin (cmin (0, 0, 0) (4, 0, 0)) (1, 2, 0)) (1, -2, 0)) (cmax (cmax (cmax (0, 0, 0) (4, 0, 0)) (1, 2, 0)) (1, -2, 0)) = 2 := by
    norm_num [argmin, cmin, cmax]
  unfold folded
  dsimp only
  rw [hk, if_pos]
  norm_num [folded2d, orient2d, proj, coord]

/-- **C55 does not hold the other way for coplanar faces.** A plane rectangle on a wall at 45 degrees, wider than high: its two triangles
have only their common edge in common, but they are reported as intersecting, whatever the tolerance.  The test drops the coordinate
in which the bounding box is shortest (here the height), and the wall seen from above is a line. -/
theorem C55_flat_wall_is_reported {tf : ℝ} (htf : 0 ≤ tf) : ∃ ta tb : P3 × P3 × P3, DistinctCorners ta ∧ DistinctCorners tb ∧ ¬ Cross ta tb ∧
    trianglesIntersect (narrow tf) ta tb = .ok true := by
  refine ⟨((0, 0, 0), (4, 4, 0), (4, 4, 1)), ((0, 0, 0), (4, 4, 1), (0, 0, 1)), by simp [DistinctCorners], by simp [DistinctCorners], ?_, ?_⟩
  · rintro ⟨x, h1, h2, h3⟩
    obtain ⟨α, β, γ, hα, hβ, hγ, hsum, e⟩ := inTriangle_of_hull h1
    obtain ⟨α', β', γ', hα', hβ', hγ', hsum', e'⟩ := inTriangle_of_hull h2
    apply h3
    have e0 := congrArg (fun y : P3 => y.1) (e.symm.trans e')
    have e2 := congrArg (fun y : P3 => y.2.2) (e.symm.trans e')
    simp at e0 e2
    have hβ0 : β = 0 := by linarith
    refine hull_of_inSegment (a := (0, 0, 0)) (b := (4, 4, 1)) ⟨α, γ, hα, hγ, by linarith, ?_⟩ ⟨by simp [cornerSet], by simp [cornerSet]⟩
      ⟨by simp [cornerSet], by simp [cornerSet]⟩
    rw [e, hβ0]
    module
  · have hsh : shared (((0, 0, 0), (4, 4, 0), (4, 4, 1)) : P3 × P3 × P3) ((0, 0, 0), (4, 4, 1), (0, 0, 1)) = [(0, 0), (2, 1)] := by
      simp [shared, corner]
    unfold trianglesIntersect
    rw [hsh]
    simp only
    rw [if_pos (by norm_num), if_pos (by norm_num)]
    refine congrArg Outcome.ok ?_
    show folded tf (0, 0, 0) (4, 4, 1) (4, 4, 0) (0, 0, 1) = true
    have hty := tiny3_nonneg htf (cmin (cmin (cmin (0, 0, 0) (4, 4, 1)) (4, 4, 0)) (0, 0, 1)) (cmax (cmax (cmax (0, 0, 0) (4, 4, 1)) (4, 4, 0)) (0, 0, 1))
    have hty2 := tiny_nonneg htf (cmin (cmin (cmin (0, 0, 0) (4, 4, 1)) (4, 4, 0)) (0, 0, 1)) (cmax (cmax (cmax (0, 0, 0) (4, 4, 1)) (4, 4, 0)) (0, 0, 1))
    have hk : argmin (cmin (cmin (cmin (0, 0, 0) (4, 4, 1)) (4, 4, 0)) (0, 0, 1)) (cmax (cmax (cmax (0, 0, 0) (4, 4, 1)) (4, 4, 0)) (0, 0, 1)) = 2 := by
      norm_num [argmin, cmin, cmax]
    have h3 : orient3d (0, 0, 0) (4, 4, 1) (4, 4, 0) (0, 0, 1) = 0 := by norm_num [orient3d]
    unfold folded
    dsimp only
    rw [hk, h3, abs_zero, if_neg, decide_eq_true_iff]
    · exact hty
    · unfold folded2d
      dsimp only
      have e1 : orient2d (proj ((2 + 1) % 3) ((2 + 2) % 3) (0, 0, 0)) (proj ((2 + 1) % 3) ((2 + 2) % 3) (4, 4, 1)) (proj ((2 + 1) % 3) ((2 + 2) % 3) (4, 4, 0)) = 0 := by
        norm_num [orient2d, proj, coord]
      have e2 : orient2d (proj ((2 + 1) % 3) ((2 + 2) % 3) (0, 0, 0)) (proj ((2 + 1) % 3) ((2 + 2) % 3) (4, 4, 1)) (proj ((2 + 1) % 3) ((2 + 2) % 3) (0, 0, 1)) = 0 := by
        norm_num [orient2d, proj, coord]
      rw [e1, e2, if_neg]
      · simp
      · rintro (⟨u, v⟩ | ⟨u, v⟩) <;> linarith

end Verif.Predicates
