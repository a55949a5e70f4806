import Verif.Spec.OffsetSurface
import Verif.Props.SdfData
import Verif.Props.InequalityFitter
import Mathlib.Tactic.FinCases
import Mathlib.Tactic.LinearCombination

/-!
# C88: the offset surface example
-/

namespace Verif.OffsetSurface

open Verif Verif.Normals Verif.Sdf

/-! ## The border -/

theorem mem_halfedges {faces : List (Nat × Nat × Nat)} {u v : Nat} : (u, v) ∈ faces.flatMap halfedges ↔ IsSide faces u v := by
  simp only [List.mem_flatMap, halfedges, IsSide, List.mem_cons, Prod.mk.injEq, List.not_mem_nil, or_false]
  constructor
  · rintro ⟨f, hf, h⟩
    refine ⟨f, hf, ?_⟩
    rcases h with ⟨rfl, rfl⟩ | ⟨rfl, rfl⟩ | ⟨rfl, rfl⟩ <;> simp
  · rintro ⟨f, hf, h⟩
    refine ⟨f, hf, ?_⟩
    rcases h with ⟨rfl, rfl⟩ | ⟨rfl, rfl⟩ | ⟨rfl, rfl⟩ <;> simp

theorem foldl_toggle : ∀ (es done : List Halfedge) (b : List Halfedge), (done ++ es).Nodup → (∀ e ∈ done ++ es, e.1 ≠ e.2) → b.Nodup →
    (∀ e, e ∈ b ↔ e ∈ done ∧ e.swap ∉ done) →
    (es.foldl toggle b).Nodup ∧ ∀ e, e ∈ es.foldl toggle b ↔ e ∈ done ++ es ∧ e.swap ∉ done ++ es
  | [], done, b, _, _, hb, h => by rw [List.append_nil, List.foldl_nil]; exact ⟨hb, h⟩
  | x :: es, done, b, hn, hd, hb, h => by
      have hx : x.1 ≠ x.2 := hd x (by simp)
      have hxs : x ≠ x.swap := fun he => hx (by rw [Prod.ext_iff] at he; exact he.1)
      have hxd : x ∉ done := by
        intro hm
        rw [List.nodup_append] at hn
        exact hn.2.2 x hm x (by simp) rfl
      have e1 : done ++ x :: es = (done ++ [x]) ++ es := by simp
      rw [List.foldl_cons, e1]
      have hb' : (toggle b x).Nodup := by
        unfold toggle
        split
        · exact hb.erase _
        · split
          · exact hb
          · rename_i h2; exact List.nodup_cons.2 ⟨h2, hb⟩
      refine foldl_toggle es (done ++ [x]) _ (by rw [← e1]; exact hn) (by rw [← e1]; exact hd) hb' ?_
      intro e
      have hsw : e.swap = x ↔ e = x.swap := by
        constructor
        · rintro rfl; simp
        · rintro rfl; simp
      simp only [List.mem_append, List.mem_singleton, not_or]
      unfold toggle
      split
      · rename_i hs
        have hs' := (h _).1 hs
        rw [hb.mem_erase_iff, h]
        constructor
        · rintro ⟨h1, h2, h3⟩
          exact ⟨.inl h2, h3, fun hh => h1 (hsw.1 hh)⟩
        · rintro ⟨h1, h2, h3⟩
          rcases h1 with h1 | rfl
          · exact ⟨fun hh => h3 (hsw.2 hh), h1, h2⟩
          · exact absurd hs'.1 h2
      · rename_i hs
        rw [h, Prod.swap_swap] at hs
        have hsd : x.swap ∉ done := fun hh => hs ⟨hh, hxd⟩
        have hxb : x ∉ b := fun hh => hxd ((h _).1 hh).1
        rw [if_neg hxb, List.mem_cons, h]
        constructor
        · rintro (rfl | ⟨h1, h2⟩)
          · exact ⟨.inr rfl, hsd, fun hh => hxs hh.symm⟩
          · refine ⟨.inl h1, h2, fun hh => ?_⟩
            rw [hsw] at hh
            exact hsd (hh ▸ h1)
        · rintro ⟨h1 | rfl, h2, h3⟩
          · exact .inr ⟨h1, h2⟩
          · exact .inl rfl

/-- **C88**: for an oriented manifold the edges taken for the border are exactly those that belong to one face only, whatever the order of the faces. -/
theorem C88_border {faces : List (Nat × Nat × Nat)} (h : Oriented faces) :
    (∀ u v, (u, v) ∈ boundary faces ↔ BorderEdge faces u v) ∧
    (∀ u, u ∈ boundaryVertices faces ↔ ∃ v, BorderEdge faces u v ∨ BorderEdge faces v u) := by
  have hd : ∀ e ∈ [] ++ faces.flatMap halfedges, e.1 ≠ e.2 := by
    rintro ⟨u, v⟩ he huv
    rw [List.nil_append, mem_halfedges] at he
    obtain ⟨f, hf, hc⟩ := he
    obtain ⟨d1, d2, d3⟩ := h.2 f hf
    dsimp only at huv
    subst huv
    rcases hc with ⟨h1, h2⟩ | ⟨h1, h2⟩ | ⟨h1, h2⟩
    · exact d1 (h1.trans h2.symm)
    · exact d2 (h1.trans h2.symm)
    · exact d3 (h1.trans h2.symm)
  have key := (foldl_toggle (faces.flatMap halfedges) [] [] (by simpa using h.1) hd List.nodup_nil (by simp)).2
  have h1 : ∀ u v, (u, v) ∈ boundary faces ↔ BorderEdge faces u v := by
    intro u v
    unfold boundary
    rw [key, List.nil_append, mem_halfedges, Prod.swap_prod_mk, mem_halfedges]
    rfl
  refine ⟨h1, fun u => ?_⟩
  unfold boundaryVertices
  rw [List.mem_flatMap]
  constructor
  · rintro ⟨⟨a, b⟩, hm, hu⟩
    rw [h1] at hm
    simp only [List.mem_cons, List.not_mem_nil, or_false] at hu
    rcases hu with rfl | rfl
    · exact ⟨b, .inl hm⟩
    · exact ⟨a, .inr hm⟩
  · rintro ⟨v, hv | hv⟩
    · exact ⟨(u, v), (h1 _ _).2 hv, by simp⟩
    · exact ⟨(v, u), (h1 _ _).2 hv, by simp⟩

/-- Without that, the border depends on the order of the faces: three faces on one edge. -/
theorem C88_border_order : ∃ faces faces' : List (Nat × Nat × Nat), faces.Perm faces' ∧ (0, 1) ∈ boundary faces ∧ (0, 1) ∉ boundary faces' :=
  ⟨[(0, 1, 2), (1, 0, 3), (0, 1, 4)], [(0, 1, 2), (0, 1, 4), (1, 0, 3)], by decide, by decide, by decide⟩

/-! ## Distances -/

theorem dot_cross_self (u v : V3) : dot (crossProduct u v) u = 0 ∧ dot (crossProduct u v) v = 0 := by
  constructor <;> (rw [dot_eq, cross_apply]; simp; ring)

theorem normal_dot {m : Mesh} {fi : Nat} (ha : HasArea m fi) (w : V3) :
    dot (m.normal fi) w = (Sdf.norm (crossProduct (m.at (m.face fi).2.1 - m.at (m.face fi).1) (m.at (m.face fi).2.2 - m.at (m.face fi).1)))⁻¹ *
      dot (crossProduct (m.at (m.face fi).2.1 - m.at (m.face fi).1) (m.at (m.face fi).2.2 - m.at (m.face fi).1)) w := by
  unfold Mesh.normal
  dsimp only
  rw [normalized_pos ha, dot_eq, dot_eq]
  simp only [Pi.smul_apply, smul_eq_mul]
  ring

theorem norm_normal {m : Mesh} {fi : Nat} (ha : HasArea m fi) : dot (m.normal fi) (m.normal fi) = 1 := by
  rw [← Sdf.norm_sq]
  unfold Mesh.normal
  dsimp only
  rw [norm_normalized ha, one_mul]

theorem dot_sq_le (u v : V3) : dot u v ^ 2 ≤ dot u u * dot v v := by
  rw [dot_eq, dot_eq, dot_eq]
  nlinarith [sq_nonneg (u 0 * v 1 - u 1 * v 0), sq_nonneg (u 0 * v 2 - u 2 * v 0), sq_nonneg (u 1 * v 2 - u 2 * v 1)]

/-- The product with the normal does not depend on the point of the face it is taken from. -/
theorem dot_from {m : Mesh} {p : V3} {h : Hit} (hn : Nearest m p h) (ha : HasArea m h.fi) :
    dot (m.normal h.fi) (p - m.at (m.face h.fi).1) = dot (m.normal h.fi) (p - h.closest) := by
  rw [normal_dot ha, normal_dot ha]
  congr 1
  generalize hA : m.at (m.face h.fi).1 = A
  generalize hB : m.at (m.face h.fi).2.1 = B
  generalize hC : m.at (m.face h.fi).2.2 = C
  obtain ⟨c1, c2⟩ := dot_cross_self (B - A) (C - A)
  have hp := hn.point
  rw [hA, hB, hC] at hp
  have hs : h.l 0 = 1 - h.l 1 - h.l 2 := by linarith [hn.sum]
  rw [hp, hs]
  simp only [dot_eq, Pi.sub_apply, Pi.add_apply, Pi.smul_apply, smul_eq_mul] at c1 c2 ⊢
  linear_combination h.l 1 * c1 + h.l 2 * c2

theorem face_mem {m : Mesh} {fi : Nat} (h : fi < m.faces.length) : m.face fi ∈ m.faces := by
  unfold Mesh.face
  rw [List.getD_eq_getElem?_getD, List.getElem?_eq_getElem h, Option.getD_some]
  exact List.getElem_mem _

theorem onBoundary_iff {m : Mesh} (ho : Oriented m.faces) (h : Hit) : onBoundary m h = true ↔ NearBorder m h := by
  unfold onBoundary NearBorder
  rw [decide_eq_true_iff]
  simp only [(C88_border ho).1, (C88_border ho).2]

/-- **C88**: the distance.  On the border of an oriented manifold the value is the distance from the plane of the face, elsewhere it is the distance from the mesh;
the sign is that of the product with the normal of the face.  It never exceeds the distance from the mesh. -/
theorem C88_distance {m : Mesh} (ho : Oriented m.faces) {p : V3} {h : Hit} (hn : Nearest m p h) (ha : HasArea m h.fi) :
    |signedDistance m p h| ≤ Sdf.norm (p - h.closest) ∧
    (NearBorder m h → signedDistance m p h = dot (m.normal h.fi) (p - h.closest)) ∧
    (¬ NearBorder m h → |signedDistance m p h| = Sdf.norm (p - h.closest) ∧
      (signedDistance m p h < 0 ↔ dot (m.normal h.fi) (p - h.closest) < 0)) := by
  have hle : |dot (m.normal h.fi) (p - h.closest)| ≤ Sdf.norm (p - h.closest) := by
    rw [← Real.sqrt_sq_eq_abs]
    unfold Sdf.norm
    apply Real.sqrt_le_sqrt
    have := dot_sq_le (m.normal h.fi) (p - h.closest)
    rwa [norm_normal ha, one_mul] at this
  have hsq : Real.sqrt h.d2 = Sdf.norm (p - h.closest) := by rw [hn.d2]; rfl
  have hpos := Sdf.norm_nonneg (p - h.closest)
  unfold signedDistance
  dsimp only
  rw [dot_from hn ha]
  by_cases hb : NearBorder m h
  · have hb' := (onBoundary_iff ho h).2 hb
    rw [if_pos hb']
    exact ⟨hle, fun _ => rfl, fun h' => absurd hb h'⟩
  · have hb' := fun hh => hb ((onBoundary_iff ho h).1 hh)
    rw [if_neg hb', hsq]
    unfold copysign
    by_cases hd : dot (m.normal h.fi) (p - h.closest) < 0
    · rw [if_pos hd, abs_neg, abs_of_nonneg hpos]
      refine ⟨le_refl _, fun h' => absurd h' hb, fun _ => ⟨rfl, ?_⟩⟩
      simp only [hd, iff_true]
      have : dot (m.normal h.fi) (p - h.closest) ≠ 0 := hd.ne
      have h2 : 0 < |dot (m.normal h.fi) (p - h.closest)| := abs_pos.2 this
      linarith
    · rw [if_neg hd, abs_of_nonneg hpos]
      refine ⟨le_refl _, fun h' => absurd h' hb, fun _ => ⟨rfl, ?_⟩⟩
      simp only [hd, iff_false, not_lt]
      exact hpos

/-- **C88**, closed meshes: the value is plus or minus the distance from the mesh, and zero exactly on the mesh. -/
theorem C88_closed {m : Mesh} (ho : Oriented m.faces) (hc : ∀ u v, IsSide m.faces u v → IsSide m.faces v u) {p : V3} {h : Hit} (hn : Nearest m p h)
    (ha : HasArea m h.fi) :
    |signedDistance m p h| = Sdf.norm (p - h.closest) ∧ OnMesh m h.closest ∧ (∀ x, OnMesh m x → |signedDistance m p h| ≤ Sdf.norm (p - x)) ∧
    (signedDistance m p h = 0 ↔ OnMesh m p) := by
  have hb : ¬ NearBorder m h := by
    rintro ⟨i, ⟨-, h1, h2⟩ | ⟨-, v, ⟨h1, h2⟩ | ⟨h1, h2⟩⟩⟩ <;> exact h2 (hc _ _ h1)
  have e := ((C88_distance ho hn ha).2.2 hb).1
  have hon : OnMesh m h.closest := by
    exact ⟨m.face h.fi, face_mem hn.fi, h.l, hn.nonneg, hn.sum, hn.point⟩
  have hall : ∀ x, OnMesh m x → |signedDistance m p h| ≤ Sdf.norm (p - x) := by
    intro x hx
    rw [e, norm_le_iff]
    exact hn.least x hx
  refine ⟨e, hon, hall, ?_, ?_⟩
  · intro h0
    rw [h0, abs_zero] at e
    have := Sdf.norm_eq_zero.1 e.symm
    rw [sub_eq_zero] at this
    rw [this]
    exact hon
  · intro hp
    have := hall p hp
    rw [sub_self, Sdf.norm_eq_zero.2 rfl] at this
    exact abs_eq_zero.1 (le_antisymm this (abs_nonneg _))

/-! ## The side -/

theorem corners_eq {m : Mesh} {p : V3} {h : Hit} (hn : Nearest m p h) (i : Fin 3) :
    h.l i + h.l (i + 1) + h.l (i + 2) = 1 ∧
    h.closest = h.l i • m.at (corner (m.face h.fi) i) + h.l (i + 1) • m.at (corner (m.face h.fi) (i + 1)) +
      h.l (i + 2) • m.at (corner (m.face h.fi) (i + 2)) := by
  have h1 := hn.sum
  have h2 := hn.point
  rw [h2]
  fin_cases i
  · exact ⟨h1, rfl⟩
  · refine ⟨?_, ?_⟩
    · show h.l 1 + h.l 2 + h.l 0 = 1
      linarith
    · show _ = h.l 1 • m.at (m.face h.fi).2.1 + h.l 2 • m.at (m.face h.fi).2.2 + h.l 0 • m.at (m.face h.fi).1
      abel
  · refine ⟨?_, ?_⟩
    · show h.l 2 + h.l 0 + h.l 1 = 1
      linarith
    · show _ = h.l 2 • m.at (m.face h.fi).2.2 + h.l 0 • m.at (m.face h.fi).1 + h.l 1 • m.at (m.face h.fi).2.1
      abel

/-- Every corner of the face is a point of the mesh; and so is every point between the reported point and a corner. -/
theorem corner_on {m : Mesh} {p : V3} {h : Hit} (hn : Nearest m p h) (i : Fin 3) (t : ℝ) (h0 : 0 ≤ t) (h1 : t ≤ 1) :
    OnMesh m (h.closest + t • (m.at (corner (m.face h.fi) i) - h.closest)) := by
  have hf := face_mem hn.fi
  refine ⟨_, hf, fun k => (1 - t) * h.l k + if k = i then t else 0, fun k => ?_, ?_, ?_⟩
  · have := mul_nonneg (sub_nonneg.2 h1) (hn.nonneg k)
    dsimp only
    split <;> linarith
  · have hs := hn.sum
    have : h.l 0 = 1 - h.l 1 - h.l 2 := by linarith
    fin_cases i <;> simp [this] <;> ring
  · have hp := hn.point
    nth_rw 1 [hp]
    nth_rw 1 [hp]
    funext j
    fin_cases i <;> simp [corner] <;> ring

/-- The reported point is nearest: the way to any corner does not get closer to `p`. -/
theorem towards {m : Mesh} {p : V3} {h : Hit} (hn : Nearest m p h) (i : Fin 3) :
    dot (p - h.closest) (m.at (corner (m.face h.fi) i) - h.closest) ≤ 0 := by
  by_contra hc
  push Not at hc
  set w := p - h.closest with hw
  set v := m.at (corner (m.face h.fi) i) - h.closest with hv
  have hvv := dot_self_nonneg v
  have key : ∀ t : ℝ, 0 ≤ t → t ≤ 1 → 0 ≤ t * (t * dot v v - 2 * dot w v) := by
    intro t h0 h1
    have h2 := hn.least _ (corner_on hn i t h0 h1)
    have e : p - (h.closest + t • v) = w - t • v := by rw [hw]; abel
    rw [← hv, e, ← hw] at h2
    simp only [dot_eq, Pi.sub_apply, Pi.smul_apply, smul_eq_mul] at h2 ⊢
    nlinarith
  have hpos : 0 < dot v v + dot w v := by linarith
  have := key (dot w v / (dot v v + dot w v)) (by positivity) (by rw [div_le_one hpos]; linarith)
  have h3 : 0 < dot w v / (dot v v + dot w v) := by positivity
  have h4 := nonneg_of_mul_nonneg_right this h3
  have h5 : dot w v / (dot v v + dot w v) * dot v v ≤ dot w v := by
    rw [div_mul_eq_mul_div, div_le_iff₀ hpos]
    nlinarith
  linarith

theorem parallel {u v w : V3} (hu : dot w u = 0) (hv : dot w v = 0) :
    dot (crossProduct u v) (crossProduct u v) • w = dot (crossProduct u v) w • crossProduct u v := by
  rw [dot_eq] at hu hv
  funext j
  rw [Pi.smul_apply, Pi.smul_apply, smul_eq_mul, smul_eq_mul, dot_eq, dot_eq, cross_apply]
  fin_cases j
  · simp
    linear_combination ((u 2 * v 0 - u 0 * v 2) * u 2 - (u 0 * v 1 - u 1 * v 0) * u 1) * hv -
      ((u 2 * v 0 - u 0 * v 2) * v 2 - (u 0 * v 1 - u 1 * v 0) * v 1) * hu
  · simp
    linear_combination ((u 0 * v 1 - u 1 * v 0) * u 0 - (u 1 * v 2 - u 2 * v 1) * u 2) * hv -
      ((u 0 * v 1 - u 1 * v 0) * v 0 - (u 1 * v 2 - u 2 * v 1) * v 2) * hu
  · simp
    linear_combination ((u 1 * v 2 - u 2 * v 1) * u 1 - (u 2 * v 0 - u 0 * v 2) * u 0) * hv -
      ((u 1 * v 2 - u 2 * v 1) * v 1 - (u 2 * v 0 - u 0 * v 2) * v 0) * hu

/-- A vector that is perpendicular to the face is its normal times the product with the normal. -/
theorem along_normal {m : Mesh} {fi : Nat} (ha : HasArea m fi) {w : V3} (hu : dot w (m.at (m.face fi).2.1 - m.at (m.face fi).1) = 0)
    (hv : dot w (m.at (m.face fi).2.2 - m.at (m.face fi).1) = 0) : w = dot (m.normal fi) w • m.normal fi := by
  have hp := parallel hu hv
  rw [normal_dot ha]
  unfold Mesh.normal
  dsimp only
  rw [normalized_pos ha]
  have hn := norm_pos ha
  have hs := Sdf.norm_sq (crossProduct (m.at (m.face fi).2.1 - m.at (m.face fi).1) (m.at (m.face fi).2.2 - m.at (m.face fi).1))
  unfold HasArea at ha
  generalize crossProduct (m.at (m.face fi).2.1 - m.at (m.face fi).1) (m.at (m.face fi).2.2 - m.at (m.face fi).1) = N at *
  funext j
  have hj := congrFun hp j
  simp only [Pi.smul_apply, smul_eq_mul] at hj ⊢
  rw [← hs] at hj
  field_simp
  rw [pow_two]
  linarith

/-- **C88**, the side: where the nearest point is in the inside of a face, `p` is that point moved along the normal of the face by exactly the value. -/
theorem C88_inside {m : Mesh} (ho : Oriented m.faces) {p : V3} {h : Hit} (hn : Nearest m p h) (ha : HasArea m h.fi) (hi : ∀ i, 0 < h.l i) :
    p = h.closest + signedDistance m p h • m.normal h.fi := by
  have ht := towards hn
  have h0 := ht 0
  have h1 := ht 1
  have h2 := ht 2
  have hsum : h.l 0 * dot (p - h.closest) (m.at (m.face h.fi).1 - h.closest) + h.l 1 * dot (p - h.closest) (m.at (m.face h.fi).2.1 - h.closest) +
      h.l 2 * dot (p - h.closest) (m.at (m.face h.fi).2.2 - h.closest) = 0 := by
    have hp := hn.point
    have hs : h.l 0 = 1 - h.l 1 - h.l 2 := by linarith [hn.sum]
    have hj : ∀ j, h.closest j = h.l 0 * m.at (m.face h.fi).1 j + h.l 1 * m.at (m.face h.fi).2.1 j + h.l 2 * m.at (m.face h.fi).2.2 j := by
      intro j
      have := congrFun hp j
      simpa using this
    have e0 := hj 0
    have e1 := hj 1
    have e2 := hj 2
    rw [hs] at e0 e1 e2 ⊢
    simp only [dot_eq, Pi.sub_apply]
    linear_combination -(p 0 - h.closest 0) * e0 - (p 1 - h.closest 1) * e1 - (p 2 - h.closest 2) * e2
  change dot (p - h.closest) (m.at (m.face h.fi).1 - h.closest) ≤ 0 at h0
  change dot (p - h.closest) (m.at (m.face h.fi).2.1 - h.closest) ≤ 0 at h1
  change dot (p - h.closest) (m.at (m.face h.fi).2.2 - h.closest) ≤ 0 at h2
  have z0 : dot (p - h.closest) (m.at (m.face h.fi).1 - h.closest) = 0 := by
    nlinarith [mul_nonneg (hi 0).le (neg_nonneg.2 h0), mul_nonneg (hi 1).le (neg_nonneg.2 h1), mul_nonneg (hi 2).le (neg_nonneg.2 h2), hi 0]
  have z1 : dot (p - h.closest) (m.at (m.face h.fi).2.1 - h.closest) = 0 := by
    nlinarith [mul_nonneg (hi 0).le (neg_nonneg.2 h0), mul_nonneg (hi 1).le (neg_nonneg.2 h1), mul_nonneg (hi 2).le (neg_nonneg.2 h2), hi 1]
  have z2 : dot (p - h.closest) (m.at (m.face h.fi).2.2 - h.closest) = 0 := by
    nlinarith [mul_nonneg (hi 0).le (neg_nonneg.2 h0), mul_nonneg (hi 1).le (neg_nonneg.2 h1), mul_nonneg (hi 2).le (neg_nonneg.2 h2), hi 2]
  have hw := along_normal ha (w := p - h.closest)
    (by simp only [dot_eq, Pi.sub_apply] at z0 z1 ⊢; linarith) (by simp only [dot_eq, Pi.sub_apply] at z0 z2 ⊢; linarith)
  obtain ⟨-, d2, d3⟩ := C88_distance ho hn ha
  have hD : signedDistance m p h = dot (m.normal h.fi) (p - h.closest) := by
    by_cases hb : NearBorder m h
    · exact d2 hb
    · obtain ⟨e1, e2⟩ := d3 hb
      have hnorm : Sdf.norm (p - h.closest) = |dot (m.normal h.fi) (p - h.closest)| := by
        rw [hw, Sdf.norm_smul, ← hw]
        have : Sdf.norm (m.normal h.fi) = 1 := by
          unfold Mesh.normal
          exact norm_normalized ha
        rw [this, mul_one]
      rw [hnorm] at e1
      rcases lt_or_ge (dot (m.normal h.fi) (p - h.closest)) 0 with hneg | hneg
      · rw [abs_of_neg hneg, abs_of_neg (e2.2 hneg)] at e1
        linarith
      · have : ¬ signedDistance m p h < 0 := fun hh => absurd (e2.1 hh) (not_lt.2 hneg)
        rw [abs_of_nonneg hneg, abs_of_nonneg (not_lt.1 this)] at e1
        exact e1
  rw [hD, ← hw]
  abel

theorem gram (w e c d : V3) : dot w (crossProduct e c) * dot w (crossProduct e d) =
    dot w w * dot (crossProduct e c) (crossProduct e d) - dot w e * (dot w e * dot c d - dot e d * dot c w) +
      dot w d * (dot w e * dot c e - dot e e * dot c w) := by
  simp only [dot_eq, cross_apply]
  simp
  ring

theorem cross_rot (m : Mesh) (fi : Nat) (i : Fin 3) :
    crossProduct (m.at (corner (m.face fi) (i + 1)) - m.at (corner (m.face fi) i)) (m.at (corner (m.face fi) (i + 2)) - m.at (corner (m.face fi) i)) =
    crossProduct (m.at (m.face fi).2.1 - m.at (m.face fi).1) (m.at (m.face fi).2.2 - m.at (m.face fi).1) := by
  fin_cases i
  · rfl
  · show crossProduct (m.at (m.face fi).2.2 - m.at (m.face fi).2.1) (m.at (m.face fi).1 - m.at (m.face fi).2.1) = _
    funext j
    rw [cross_apply, cross_apply]
    fin_cases j <;> simp <;> ring
  · show crossProduct (m.at (m.face fi).1 - m.at (m.face fi).2.2) (m.at (m.face fi).2.1 - m.at (m.face fi).2.2) = _
    funext j
    rw [cross_apply, cross_apply]
    fin_cases j <;> simp <;> ring

theorem sign_iff {k l x y : ℝ} (hk : 0 < k) (hl : 0 < l) (h : x * y < 0) : k * x < 0 ↔ l * -y < 0 := by
  rw [mul_neg, neg_lt_zero, mul_pos_iff_of_pos_left hl, mul_neg_iff]
  rw [mul_neg_iff] at h
  constructor
  · rintro (⟨-, h1⟩ | ⟨h1, -⟩)
    · rcases h with ⟨h2, -⟩ | ⟨-, h2⟩
      · exact absurd h1 (not_lt.2 h2.le)
      · exact h2
    · exact absurd h1 (not_lt.2 hk.le)
  · intro h1
    rcases h with ⟨-, h2⟩ | ⟨h2, -⟩
    · exact absurd h1 (not_lt.2 h2.le)
    · exact .inl ⟨hk, h2⟩

/-- **C88**, edges: where the nearest point is on an edge between two faces that meet at more than a right angle (their normals have a positive product), it does not
matter which of the two faces the tree reports. -/
theorem C88_edge {m : Mesh} (ho : Oriented m.faces) {p : V3} {h h' : Hit} (hn : Nearest m p h) (hn' : Nearest m p h') (hc : h.closest = h'.closest)
    (ha : HasArea m h.fi) (ha' : HasArea m h'.fi) (hb : ¬ NearBorder m h) (hb' : ¬ NearBorder m h') (i j : Fin 3)
    (hij : corner (m.face h.fi) i = corner (m.face h'.fi) (j + 1)) (hji : corner (m.face h.fi) (i + 1) = corner (m.face h'.fi) j)
    (hl : h.l (i + 2) = 0) (hi : 0 < h.l i) (hi1 : 0 < h.l (i + 1)) (hd : 0 < dot (m.normal h.fi) (m.normal h'.fi)) :
    signedDistance m p h = signedDistance m p h' := by
  obtain ⟨e1, e2⟩ := (C88_distance ho hn ha).2.2 hb
  obtain ⟨f1, f2⟩ := (C88_distance ho hn' ha').2.2 hb'
  rw [← hc] at f1 f2
  have t0 := towards hn i
  have t1 := towards hn (i + 1)
  have t2 := towards hn (i + 2)
  have t3 := towards hn' (j + 2)
  rw [← hc] at t3
  obtain ⟨s1, s2⟩ := corners_eq hn i
  rw [hl, add_zero] at s1
  rw [hl, zero_smul, add_zero] at s2
  have n1 := normal_dot ha (p - h.closest)
  have n2 := normal_dot ha' (p - h.closest)
  have n3 := normal_dot ha (m.normal h'.fi)
  have n4 := normal_dot ha' (crossProduct (m.at (m.face h.fi).2.1 - m.at (m.face h.fi).1) (m.at (m.face h.fi).2.2 - m.at (m.face h.fi).1))
  have k1 := inv_pos.2 (norm_pos ha)
  have k2 := inv_pos.2 (norm_pos ha')
  rw [← cross_rot m h.fi i] at n1 n3 n4 k1
  rw [← cross_rot m h'.fi j] at n2 n4 k2
  rw [← hij, ← hji] at n2 n4 k2
  rw [n3] at hd
  generalize m.at (corner (m.face h.fi) i) = A at *
  generalize m.at (corner (m.face h.fi) (i + 1)) = B at *
  generalize m.at (corner (m.face h.fi) (i + 2)) = C at *
  generalize m.at (corner (m.face h'.fi) (j + 2)) = D at *
  generalize hw : p - h.closest = w at *
  have hz : h.l i * dot w (A - h.closest) + h.l (i + 1) * dot w (B - h.closest) = 0 := by
    have hs : h.l i = 1 - h.l (i + 1) := by linarith
    have q : ∀ k, h.closest k = h.l i * A k + h.l (i + 1) * B k := by
      intro k
      have := congrFun s2 k
      simpa using this
    have q0 := q 0
    have q1 := q 1
    have q2 := q 2
    rw [hs] at q0 q1 q2 ⊢
    simp only [dot_eq, Pi.sub_apply]
    linear_combination -(w 0) * q0 - (w 1) * q1 - (w 2) * q2
  have z0 : dot w (A - h.closest) = 0 := by
    nlinarith [mul_nonneg hi.le (neg_nonneg.2 t0), mul_nonneg hi1.le (neg_nonneg.2 t1)]
  have z1 : dot w (B - h.closest) = 0 := by
    nlinarith [mul_nonneg hi.le (neg_nonneg.2 t0), mul_nonneg hi1.le (neg_nonneg.2 t1)]
  have we : dot w (B - A) = 0 := by simp only [dot_eq, Pi.sub_apply] at z0 z1 ⊢; linarith
  have wc : dot w (C - A) ≤ 0 := by simp only [dot_eq, Pi.sub_apply] at z0 t2 ⊢; linarith
  have wd : dot w (D - A) ≤ 0 := by simp only [dot_eq, Pi.sub_apply] at z0 t3 ⊢; linarith
  have hN' : crossProduct (A - B) (D - B) = -crossProduct (B - A) (D - A) := by
    funext k
    rw [Pi.neg_apply, cross_apply, cross_apply]
    fin_cases k <;> simp <;> ring
  rw [hN'] at n2 n4 k2
  have g := gram w (B - A) (C - A) (D - A)
  rw [we] at g
  generalize crossProduct (B - A) (C - A) = N at *
  generalize crossProduct (B - A) (D - A) = M at *
  have dc : ∀ u v : V3, dot u v = dot v u := fun u v => by simp only [dot_eq]; ring
  have dn : ∀ u v : V3, dot (-u) v = -dot u v := fun u v => by simp only [dot_eq, Pi.neg_apply]; ring
  rw [dn] at n2 n4
  rw [dc N (m.normal h'.fi), n4] at hd
  have hNM : dot N M < 0 := by
    rw [dc M N] at hd
    by_contra hge
    push Not at hge
    have := mul_nonneg k1.le (mul_nonneg k2.le hge)
    linarith
  have ee := dot_self_nonneg (B - A)
  have ww := dot_self_nonneg w
  have hprod : dot w N * dot w M ≤ dot w w * dot N M := by
    rw [dc (C - A) w] at g
    nlinarith [mul_nonneg ee (mul_nonneg (neg_nonneg.2 wc) (neg_nonneg.2 wd))]
  rw [dc N w] at n1
  rw [dc M w] at n2
  by_cases hw0 : Sdf.norm w = 0
  · rw [hw0, abs_eq_zero] at e1 f1
    rw [e1, f1]
  · have hww : 0 < dot w w := by
      rw [← Sdf.norm_sq]
      exact mul_self_pos.2 hw0
    have hneg : dot w N * dot w M < 0 := lt_of_le_of_lt hprod (by nlinarith)
    have hsame : signedDistance m p h < 0 ↔ signedDistance m p h' < 0 := by
      rw [e2, f2, n1, n2]
      exact sign_iff k1 k2 hneg
    rw [← f1] at e1
    rcases lt_or_ge (signedDistance m p h) 0 with h1 | h1
    · have h2 := hsame.1 h1
      rw [abs_of_neg h1, abs_of_neg h2] at e1
      linarith
    · have h2 : 0 ≤ signedDistance m p h' := not_lt.1 fun hh => absurd (hsame.2 hh) (not_lt.2 h1)
      rw [abs_of_nonneg h1, abs_of_nonneg h2] at e1
      exact e1

/-! ## A sharp edge -/

/-- A tetrahedron with an edge of about 28 degrees; the normals point outwards. -/
noncomputable def wedge : Mesh := ⟨[![0, 0, -1], ![0, 0, 1], ![-4, 1, 0], ![-4, -1, 0]], [(1, 0, 2), (0, 1, 3), (2, 0, 3), (1, 2, 3)]⟩

/-- The middle of the sharp edge, found in face `fi`. -/
noncomputable def onEdge (fi : Nat) : Hit := ⟨fi, 0, 10, ![1 / 2, 1 / 2, 0]⟩

theorem wedge_oriented : Oriented wedge.faces := by
  unfold Oriented wedge
  decide

theorem wedge_closed : ∀ u v, IsSide wedge.faces u v → IsSide wedge.faces v u := by
  intro u v h
  rw [← mem_halfedges] at h ⊢
  have hall : ∀ e ∈ wedge.faces.flatMap halfedges, e.swap ∈ wedge.faces.flatMap halfedges := by
    unfold wedge
    decide
  exact hall (u, v) h

theorem wedge_half {x : V3} (h : OnMesh wedge x) : dot ![1, -3, 0] x ≤ 0 := by
  obtain ⟨f, hf, w, hw, hs, rfl⟩ := h
  have w0 := hw 0
  have w1 := hw 1
  have w2 := hw 2
  simp only [wedge, List.mem_cons, List.not_mem_nil, or_false] at hf
  rcases hf with rfl | rfl | rfl | rfl <;> simp [dot_eq, Mesh.at, wedge] <;> linarith

theorem wedge_nearest {fi : Nat} (hfi : fi < 2) : Nearest wedge ![1, -3, 0] (onEdge fi) where
  fi := by show fi < 4; omega
  nonneg := by intro i; fin_cases i <;> simp [onEdge]
  sum := by simp [onEdge]; norm_num
  point := by
    have : fi = 0 ∨ fi = 1 := by omega
    funext k
    rcases this with rfl | rfl <;> fin_cases k <;> simp [onEdge, Mesh.at, Mesh.face, wedge]
  d2 := by simp [onEdge, dot_eq]; norm_num
  least := by
    intro x hx
    have := wedge_half hx
    simp only [dot_eq, onEdge, Pi.sub_apply] at this ⊢
    simp at this ⊢
    nlinarith [sq_nonneg (x 0), sq_nonneg (x 1), sq_nonneg (x 2)]

theorem wedge_cross {fi : Nat} (hfi : fi < 4) :
    crossProduct (wedge.at (wedge.face fi).2.1 - wedge.at (wedge.face fi).1) (wedge.at (wedge.face fi).2.2 - wedge.at (wedge.face fi).1) =
      ![![2, 8, 0], ![2, -8, 0], ![-2, 0, -8], ![-2, 0, 8]] ⟨fi, hfi⟩ := by
  have : fi = 0 ∨ fi = 1 ∨ fi = 2 ∨ fi = 3 := by omega
  rcases this with rfl | rfl | rfl | rfl <;>
    (rw [cross_apply]; funext k; fin_cases k <;> simp [Mesh.at, Mesh.face, wedge] <;> norm_num)

theorem wedge_area {fi : Nat} (hfi : fi < 4) : HasArea wedge fi := by
  unfold HasArea
  rw [wedge_cross hfi]
  intro h
  have := congrFun h 0
  have hc : fi = 0 ∨ fi = 1 ∨ fi = 2 ∨ fi = 3 := by omega
  rcases hc with rfl | rfl | rfl | rfl <;> simp at this

/-- **C88**, a defect: at a sharper edge it does matter.  On a closed mesh with outward normals, for a point outside of the mesh the value is negative or positive
depending on which of the two faces at the nearest edge the tree reports. -/
theorem C88_sharp_edge : ∃ (m : Mesh) (p : V3) (h h' : Hit), Oriented m.faces ∧ (∀ u v, IsSide m.faces u v → IsSide m.faces v u) ∧
    (∀ fi < m.faces.length, HasArea m fi ∧ ∀ v ∈ m.vertices, dot (m.normal fi) (v - m.at (m.face fi).1) ≤ 0) ∧
    (∃ (d : V3) (b : ℝ), (∀ x, OnMesh m x → dot d x ≤ b) ∧ b < dot d p) ∧
    Nearest m p h ∧ Nearest m p h' ∧ signedDistance m p h < 0 ∧ 0 < signedDistance m p h' := by
  refine ⟨wedge, ![1, -3, 0], onEdge 0, onEdge 1, wedge_oriented, wedge_closed, ?_, ⟨![1, -3, 0], 0, fun x hx => wedge_half hx, ?_⟩,
    wedge_nearest (by omega), wedge_nearest (by omega), ?_, ?_⟩
  · intro fi hfi
    change fi < 4 at hfi
    refine ⟨wedge_area hfi, fun v hv => ?_⟩
    rw [normal_dot (wedge_area hfi)]
    refine mul_nonpos_of_nonneg_of_nonpos (inv_nonneg.2 (Sdf.norm_nonneg _)) ?_
    rw [wedge_cross hfi]
    simp only [wedge, List.mem_cons, List.not_mem_nil, or_false] at hv
    have hc : fi = 0 ∨ fi = 1 ∨ fi = 2 ∨ fi = 3 := by omega
    rcases hc with rfl | rfl | rfl | rfl <;> rcases hv with rfl | rfl | rfl | rfl <;> simp [dot_eq, Mesh.at, Mesh.face, wedge] <;> norm_num
  · simp [dot_eq]; norm_num
  · have hb : ¬ NearBorder wedge (onEdge 0) := by
      rintro ⟨i, ⟨-, h1, h2⟩ | ⟨-, v, ⟨h1, h2⟩ | ⟨h1, h2⟩⟩⟩ <;> exact h2 (wedge_closed _ _ h1)
    have ha : HasArea wedge (onEdge 0).fi := wedge_area (fi := 0) (by omega)
    rw [((C88_distance wedge_oriented (wedge_nearest (by omega)) ha).2.2 hb).2, normal_dot ha]
    refine mul_neg_of_pos_of_neg (inv_pos.2 (norm_pos ha)) ?_
    show dot (crossProduct (wedge.at (wedge.face 0).2.1 - wedge.at (wedge.face 0).1) (wedge.at (wedge.face 0).2.2 - wedge.at (wedge.face 0).1)) _ < 0
    rw [wedge_cross (by omega)]
    simp [dot_eq, onEdge]; norm_num
  · have hb : ¬ NearBorder wedge (onEdge 1) := by
      rintro ⟨i, ⟨-, h1, h2⟩ | ⟨-, v, ⟨h1, h2⟩ | ⟨h1, h2⟩⟩⟩ <;> exact h2 (wedge_closed _ _ h1)
    have ha : HasArea wedge (onEdge 1).fi := wedge_area (fi := 1) (by omega)
    obtain ⟨e1, e2⟩ := (C88_distance wedge_oriented (wedge_nearest (fi := 1) (by omega)) ha).2.2 hb
    have hnn : ¬ signedDistance wedge ![1, -3, 0] (onEdge 1) < 0 := by
      rw [e2, normal_dot ha, not_lt]
      refine mul_nonneg (inv_nonneg.2 (Sdf.norm_nonneg _)) ?_
      show 0 ≤ dot (crossProduct (wedge.at (wedge.face 1).2.1 - wedge.at (wedge.face 1).1) (wedge.at (wedge.face 1).2.2 - wedge.at (wedge.face 1).1)) _
      rw [wedge_cross (by omega)]
      simp [dot_eq, onEdge]; norm_num
    refine lt_of_le_of_ne (not_lt.1 hnn) fun h0 => ?_
    rw [← h0, abs_zero] at e1
    have := congrFun (Sdf.norm_eq_zero.1 e1.symm) 0
    simp [onEdge] at this

/-! ## The sides of the points -/

/-- What the table asks for: on the offset surface (side zero, or NaN), below it or above it. -/
def Wanted (side : Option ℝ) (tol v : ℝ) : Prop :=
  (∀ s, side = some s → s < 0 → v ≤ tol) ∧ (∀ s, side = some s → 0 < s → -tol ≤ v) ∧ ((∀ s, side = some s → s = 0) → |v| ≤ tol)

/-- **C88**, the fit: the field of the offset surface is, within the tolerance, zero at the points with side zero, not positive at those with a negative side, and not negative at
those with a positive side, if at least one point has side zero; and the fitter does not read outside of its arrays. -/
theorem C88_sides (m : Mesh) (tree : V3 → Hit) (table : List (V3 × Option ℝ)) (pb : Inequality.Problem) (hn : pb.n = table.length)
    (hrow : ∀ (i : Nat) (r : Row), (rows m tree table)[i]? = some r → pb.values i = r.value ∧ pb.lb i = r.lb ∧ pb.ub i = r.ub)
    (hl : pb.l ≤ 1) (hsolve : Inequality.SolverOk pb) (hub : ∀ c v w0, pb.solve c v w0 ≠ .ub) (hsort : ∀ l, (pb.sortD l).Perm l) (fuel : Nat) :
    Inequality.fit pb fuel ≠ some .ub ∧
    ∀ c w, Inequality.fit pb fuel = some (.ok (c, w)) → (∃ r ∈ table, ∀ s, r.2 = some s → s = 0) →
      ∀ f : V3 → ℝ, (∀ (i : Nat) (r : V3 × Option ℝ), table[i]? = some r → pb.eval c w i = f (tree r.1).closest) →
        ∀ r ∈ table, Wanted r.2 pb.tol (offsetField m tree f r.1) := by
  have hrow' : ∀ (i : Nat) (r : V3 × Option ℝ), table[i]? = some r → pb.values i = (split r.2 (signedDistance m r.1 (tree r.1))).value ∧
      pb.lb i = (split r.2 (signedDistance m r.1 (tree r.1))).lb ∧ pb.ub i = (split r.2 (signedDistance m r.1 (tree r.1))).ub := by
    intro i r hr
    apply hrow
    unfold rows
    rw [List.getElem?_map, hr]
    rfl
  have hz : ∀ (side : Option ℝ) (d : ℝ), (∀ s, side = some s → s = 0) → split side d = ⟨some d, none, none⟩ := by
    intro side d h
    unfold split
    cases side with
    | none => rfl
    | some s =>
      have := h s rfl
      subst this
      simp
  refine ⟨?_, ?_⟩
  · refine (Inequality.C19_safe_if_all_points_constrained hsolve hub hsort ?_ fuel).1
    intro i hi
    rw [hn] at hi
    obtain ⟨h1, h2, h3⟩ := hrow' i _ (List.getElem?_eq_getElem hi)
    rw [h1, h2, h3]
    generalize table[i] = r
    unfold split
    cases r.2 with
    | none => simp
    | some s =>
      dsimp only
      split
      · simp
      · split <;> simp
  · intro c w hfit hzero f hf r hr
    have R := Inequality.C19_result_partial hsolve hsort fuel c w hfit
    have hc : pb.l ≤ c.length := by
      obtain ⟨q, hq, hq0⟩ := hzero
      obtain ⟨k, hk⟩ := List.getElem?_of_mem hq
      have hkn : k < pb.n := by rw [hn]; exact (List.getElem?_eq_some_iff.1 hk).1
      have := R.eqCenter k hkn (by rw [(hrow' k q hk).1, hz _ _ hq0]; rfl)
      have := List.length_pos_of_mem this
      omega
    obtain ⟨k, hk⟩ := List.getElem?_of_mem hr
    have hkn : k < pb.n := by rw [hn]; exact (List.getElem?_eq_some_iff.1 hk).1
    obtain ⟨h1, h2, h3⟩ := hrow' k r hk
    have he := hf k r hk
    unfold Wanted offsetField
    rw [← he]
    refine ⟨fun s hs hneg => ?_, fun s hs hpos => ?_, fun h0 => ?_⟩
    · rw [hs] at h2
      unfold split at h2
      dsimp only at h2
      rw [if_pos hneg] at h2
      have := R.lbFit hc k hkn _ h2
      linarith
    · rw [hs] at h3
      unfold split at h3
      dsimp only at h3
      rw [if_neg (not_lt.2 hpos.le), if_pos hpos] at h3
      have := R.ubFit hc k hkn _ h3
      linarith
    · rw [hz _ _ h0] at h1
      have := R.eqFit hc k hkn _ h1
      rwa [abs_sub_comm] at this

/-! ## A single face, and a roof -/

/-- A face in the plane of the first two coordinates. -/
noncomputable def flat : Mesh := ⟨[![0, 0, 0], ![3, 0, 0], ![0, 3, 0]], [(0, 1, 2)]⟩

/-- The foot of the perpendicular. -/
noncomputable def foot (p : V3) : Hit := ⟨0, ![p 0, p 1, 0], (p 2) ^ 2, ![1 - p 0 / 3 - p 1 / 3, p 0 / 3, p 1 / 3]⟩

theorem flat_oriented : Oriented flat.faces := by
  unfold Oriented flat
  decide

theorem flat_cross : crossProduct (flat.at (flat.face 0).2.1 - flat.at (flat.face 0).1) (flat.at (flat.face 0).2.2 - flat.at (flat.face 0).1) = ![0, 0, 9] := by
  rw [cross_apply]
  funext k
  fin_cases k <;> simp [Mesh.at, Mesh.face, flat]
  norm_num

theorem flat_area : HasArea flat 0 := by
  unfold HasArea
  rw [flat_cross]
  intro h
  have := congrFun h 2
  simp at this

theorem flat_nearest {p : V3} (h0 : 0 < p 0) (h1 : 0 < p 1) (h2 : p 0 + p 1 < 3) : Nearest flat p (foot p) where
  fi := by show 0 < 1; omega
  nonneg := by intro i; fin_cases i <;> simp [foot] <;> linarith
  sum := by simp [foot]; ring
  point := by
    funext k
    fin_cases k <;> simp [foot, Mesh.at, Mesh.face, flat]
  d2 := by
    have e0 : (foot p).closest 0 = p 0 := rfl
    have e1 : (foot p).closest 1 = p 1 := rfl
    have e2 : (foot p).closest 2 = 0 := rfl
    simp only [dot_eq, Pi.sub_apply, e0, e1, e2]
    show p 2 ^ 2 = _
    ring
  least := by
    intro x hx
    obtain ⟨f, hf, w, hw, hs, rfl⟩ := hx
    simp only [flat, List.mem_cons, List.not_mem_nil, or_false] at hf
    subst hf
    have e0 : (foot p).closest 0 = p 0 := rfl
    have e1 : (foot p).closest 1 = p 1 := rfl
    have e2 : (foot p).closest 2 = 0 := rfl
    simp only [dot_eq, Pi.sub_apply, e0, e1, e2]
    simp [Mesh.at, flat]
    nlinarith [sq_nonneg (p 0 - w 1 * 3), sq_nonneg (p 1 - w 2 * 3)]

/-- Above the face the hypotheses of `C88_inside` are met, and the value is the height. -/
theorem flat_value {p : V3} (h0 : 0 < p 0) (h1 : 0 < p 1) (h2 : p 0 + p 1 < 3) : signedDistance flat p (foot p) = p 2 := by
  have h := congrFun (C88_inside flat_oriented (flat_nearest h0 h1 h2) flat_area (by intro i; fin_cases i <;> simp [foot] <;> linarith)) 2
  have hN : flat.normal (foot p).fi 2 = 1 := by
    show Sdf.normalized (crossProduct (flat.at (flat.face 0).2.1 - flat.at (flat.face 0).1) (flat.at (flat.face 0).2.2 - flat.at (flat.face 0).1)) 2 = 1
    have ha : (![0, 0, 9] : V3) ≠ 0 := by
      rw [← flat_cross]; exact flat_area
    rw [flat_cross, normalized_pos ha]
    have : Sdf.norm (![0, 0, 9] : V3) = 9 := by
      unfold Sdf.norm
      rw [Real.sqrt_eq_iff_mul_self_eq_of_pos (by norm_num)]
      simp [dot_eq]
    rw [this]
    simp
  have e2 : (foot p).closest 2 = 0 := rfl
  simp only [Pi.add_apply, Pi.smul_apply, smul_eq_mul, hN, mul_one, e2, zero_add] at h
  exact h.symm

/-- `C88_distance` and `C88_closed` apply to the sharp tetrahedron. -/
example : |signedDistance wedge ![1, -3, 0] (onEdge 1)| = Sdf.norm ![1, -3, 0] := by
  have := (C88_closed wedge_oriented wedge_closed (wedge_nearest (fi := 1) (by omega)) (wedge_area (fi := 1) (by omega))).1
  simpa [onEdge] using this

/-- Two faces that form a roof. -/
noncomputable def roof : Mesh := ⟨[![0, -1, 0], ![0, 1, 0], ![-2, 0, -1], ![2, 0, -1]], [(0, 1, 2), (1, 0, 3)]⟩

/-- The middle of the ridge, found in face `fi`. -/
noncomputable def ridge (fi : Nat) : Hit := ⟨fi, 0, 1, ![1 / 2, 1 / 2, 0]⟩

theorem roof_oriented : Oriented roof.faces := by
  unfold Oriented roof
  decide

theorem roof_nearest {fi : Nat} (hfi : fi < 2) : Nearest roof ![0, 0, 1] (ridge fi) where
  fi := hfi
  nonneg := by intro i; fin_cases i <;> simp [ridge]
  sum := by simp [ridge]; norm_num
  point := by
    have : fi = 0 ∨ fi = 1 := by omega
    funext k
    rcases this with rfl | rfl <;> fin_cases k <;> simp [ridge, Mesh.at, Mesh.face, roof]
  d2 := by simp [ridge, dot_eq]
  least := by
    intro x hx
    have hx2 : x 2 ≤ 0 := by
      obtain ⟨f, hf, w, hw, hs, rfl⟩ := hx
      have w2 := hw 2
      simp only [roof, List.mem_cons, List.not_mem_nil, or_false] at hf
      rcases hf with rfl | rfl <;> simp [Mesh.at, roof] <;> linarith
    simp only [dot_eq, ridge, Pi.sub_apply]
    simp
    nlinarith [sq_nonneg (x 0), sq_nonneg (x 1)]

theorem roof_cross {fi : Nat} (hfi : fi < 2) :
    crossProduct (roof.at (roof.face fi).2.1 - roof.at (roof.face fi).1) (roof.at (roof.face fi).2.2 - roof.at (roof.face fi).1) =
      ![![-2, 0, 4], ![2, 0, 4]] ⟨fi, hfi⟩ := by
  have : fi = 0 ∨ fi = 1 := by omega
  rcases this with rfl | rfl <;>
    (rw [cross_apply]; funext k; fin_cases k <;> simp [Mesh.at, Mesh.face, roof] <;> norm_num)

theorem roof_area {fi : Nat} (hfi : fi < 2) : HasArea roof fi := by
  unfold HasArea
  rw [roof_cross hfi]
  intro h
  have := congrFun h 2
  have hc : fi = 0 ∨ fi = 1 := by omega
  rcases hc with rfl | rfl <;> simp at this

theorem roof_inside {fi : Nat} (hfi : fi < 2) : ¬ NearBorder roof (ridge fi) := by
  have hne : ¬ BorderEdge roof.faces 0 1 := fun h => h.2 ⟨(1, 0, 3), by simp [roof], .inl ⟨rfl, rfl⟩⟩
  have hne' : ¬ BorderEdge roof.faces 1 0 := fun h => h.2 ⟨(0, 1, 2), by simp [roof], .inl ⟨rfl, rfl⟩⟩
  have hc : fi = 0 ∨ fi = 1 := by omega
  rintro ⟨i, ⟨h1, h2⟩ | ⟨h1, -⟩⟩
  · rcases hc with rfl | rfl <;> fin_cases i <;> simp [ridge, corner, Mesh.face, roof] at h1 h2
    · exact hne h2
    · norm_num at h1
    · norm_num at h1
    · exact hne' h2
    · norm_num at h1
    · norm_num at h1
  · fin_cases i <;> simp [ridge] at h1 <;> norm_num at h1

/-- The hypotheses of `C88_edge` are met at the ridge. -/
example : signedDistance roof ![0, 0, 1] (ridge 0) = signedDistance roof ![0, 0, 1] (ridge 1) := by
  refine C88_edge roof_oriented (roof_nearest (by omega)) (roof_nearest (by omega)) rfl (roof_area (fi := 0) (by omega)) (roof_area (fi := 1) (by omega))
    (roof_inside (by omega)) (roof_inside (by omega)) 0 0 rfl rfl (by simp [ridge]) (by simp [ridge]) (by simp [ridge]) ?_
  have h0 := roof_area (fi := 0) (by omega)
  have h1 := roof_area (fi := 1) (by omega)
  show 0 < dot (roof.normal 0) (roof.normal 1)
  rw [normal_dot h0]
  refine mul_pos (inv_pos.2 (norm_pos h0)) ?_
  have hcomm : ∀ u v : V3, dot u v = dot v u := by intro u v; simp only [dot_eq]; ring
  rw [hcomm, normal_dot h1]
  refine mul_pos (inv_pos.2 (norm_pos h1)) ?_
  rw [roof_cross (by omega), roof_cross (by omega)]
  simp [dot_eq]; norm_num

open Classical in
/-- The hypotheses of `C88_sides` are met: one point above the face with side zero, one on the face with a negative side; fitted in one pass. -/
example : Wanted (some (-1)) 1 (offsetField flat foot (fun x => if x = ![1, 1, 0] then 5 else 0) ![1 / 2, 1, 0]) ∧
    Wanted (some 0) 1 (offsetField flat foot (fun x => if x = ![1, 1, 0] then 5 else 0) ![1, 1, 5]) := by
  have v0 : signedDistance flat ![1 / 2, 1, 0] (foot ![1 / 2, 1, 0]) = 0 := flat_value (by simp) (by simp) (by simp; norm_num)
  have v1 : signedDistance flat ![1, 1, 5] (foot ![1, 1, 5]) = 5 := flat_value (by simp) (by simp) (by simp; norm_num)
  have hne : (![1 / 2, 1, 0] : V3) ≠ ![1, 1, 0] := by
    intro h
    have := congrFun h 0
    simp at this
  have key := (C88_sides flat foot [(![1 / 2, 1, 0], some (-1)), (![1, 1, 5], some 0)] (Inequality.demo [none, some 5] [some 0, none] [none, none] 0) rfl
    (by
      intro i r hr
      have hr0 : rows flat foot [(![1 / 2, 1, 0], some (-1)), (![1, 1, 5], some 0)] = [⟨none, some 0, none⟩, ⟨some 5, none, none⟩] := by
        simp only [rows, List.map_cons, List.map_nil, v0, v1, split]
        simp
      rw [hr0] at hr
      have : i = 0 ∨ i = 1 := by
        have := (List.getElem?_eq_some_iff.1 hr).1
        simp at this
        omega
      rcases this with rfl | rfl
      · simp at hr; subst hr; exact ⟨rfl, rfl, rfl⟩
      · simp at hr; subst hr; exact ⟨rfl, rfl, rfl⟩)
    (by simp [Inequality.demo]) (Inequality.demo_solve _ _ _ _) (by simp [Inequality.demo]) (fun l => List.Perm.refl l) 1).2 _ _ Inequality.fit_demo
    ⟨(![1, 1, 5], some 0), by simp, by simp⟩ (fun x => if x = ![1, 1, 0] then 5 else 0)
    (by
      intro i r hr
      have : i = 0 ∨ i = 1 := by
        have := (List.getElem?_eq_some_iff.1 hr).1
        simp at this
        omega
      rcases this with rfl | rfl
      · obtain rfl := Option.some.inj hr
        show _ = if (![1 / 2, 1, 0] : V3) = ![1, 1, 0] then (5 : ℝ) else 0
        rw [if_neg hne]
        simp [Inequality.demo]
      · obtain rfl := Option.some.inj hr
        show _ = if (![1, 1, 0] : V3) = ![1, 1, 0] then (5 : ℝ) else 0
        rw [if_pos rfl]
        simp [Inequality.demo])
  exact ⟨key (![1 / 2, 1, 0], some (-1)) (by simp), key (![1, 1, 5], some 0) (by simp)⟩

end Verif.OffsetSurface
