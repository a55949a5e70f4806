import Verif.Lemmas.ThinnerMesh
import Mathlib.Tactic.FinCases

/-!
# C60: thinning a snapped mesh
-/

namespace Verif.Thinner

open Verif Verif.AbstractMesh
open Verif.Thinner.Spec
open Verif.Predicates (P3)

variable {I : Input}

/-- Thinning ends after at most one round per face (and one more) without an exception, and what it returns comes from the given mesh by
merging snapped vertices into snapped neighbours, each time keeping the guarantees listed in `Collapse`, until no merge that passes the
tests is left.  The returned mesh is an oriented manifold with vertices in different places, all of them in use. -/
theorem C60_thin (hI : Valid I) {fuel : Nat} (hfuel : I.faces.length < fuel) :
    ∃ vs fs F, thinSnappedMesh I fuel = some (.ok (vs, fs)) ∧
      Collapses I (fun i => I.faces[i]?) F ∧ (∀ a b, ¬ Safe I F a b) ∧
      fs.map (tri vs) = ((List.range I.faces.length).filterMap F).map (tri I.vertices) ∧
      vs.Nodup ∧ (∀ f ∈ fs, Nondeg f ∧ f.1 < vs.length ∧ f.2.1 < vs.length ∧ f.2.2 < vs.length) ∧
      Manifold (fun i => fs[i]?) ∧
      (I.points ≠ [] → I.faces ≠ [] → ∀ k, k < vs.length → ∃ f ∈ fs, Corner f k) := by
  obtain ⟨vs, fs, F, ρ, h1, h2⟩ := thin_core hI hfuel
  refine ⟨vs, fs, F, h1, h2.collapses, h2.done, ?_, h2.nodup, fun f hf => h2.corners hI hf, h2.out_manifold hI, ?_⟩
  · rw [h2.faces, List.map_map]
    refine List.map_congr_left fun f hf => ?_
    obtain ⟨i, hi⟩ := (inOrder_mem h2.number).1 hf
    exact h2.tri_eq hi
  · intro hp hf k hk
    obtain ⟨i, f, v, q1, q2, rfl⟩ := h2.used hp hf k hk
    refine ⟨_, h2.mem.2 ⟨i, f, q1, rfl⟩, ?_⟩
    rcases q2 with rfl | rfl | rfl
    · exact Or.inl rfl
    · exact Or.inr (Or.inl rfl)
    · exact Or.inr (Or.inr rfl)

/-- A snap point that the given surface passes within its tolerance is passed within its tolerance by the returned surface. -/
theorem C60_honored (hI : Valid I) {fuel : Nat} {vs : List P3} {fs : List AbstractMesh.Face}
    (h : thinSnappedMesh I fuel = some (.ok (vs, fs))) (hfuel : I.faces.length < fuel) {i : Nat} {q : P3} {tol : ℝ}
    (hq : I.points[i]? = some q) (ht : HasTolerance I i tol) (h0 : ∃ f ∈ I.faces, Honors I.T (tri I.vertices f) q tol) :
    ∃ f ∈ fs, Honors I.T (tri vs f) q tol := by
  obtain ⟨vs', fs', F, ρ, h1, h2⟩ := thin_core hI hfuel
  rw [h] at h1
  cases h1
  obtain ⟨f, hf, hh⟩ := h0
  obtain ⟨j, hj⟩ := List.getElem?_of_mem hf
  obtain ⟨k, g, hg, hh'⟩ := collapses_honored h2.collapses hq ht ⟨j, f, hj, hh⟩
  exact ⟨_, h2.mem.2 ⟨k, g, hg, rfl⟩, by rw [h2.tri_eq hg]; exact hh'⟩

/-- The boundary, as a set of directed segments in space, does not change. -/
theorem C60_boundary (hI : Valid I) {fuel : Nat} {vs : List P3} {fs : List AbstractMesh.Face}
    (h : thinSnappedMesh I fuel = some (.ok (vs, fs))) (hfuel : I.faces.length < fuel) (p q : P3) :
    BoundarySegment vs fs p q ↔ BoundarySegment I.vertices I.faces p q := by
  obtain ⟨vs', fs', F, ρ, h1, h2⟩ := thin_core hI hfuel
  rw [h] at h1
  cases h1
  rw [h2.out_boundary hI]
  obtain ⟨-, -, hb⟩ := collapses_boundary h2.collapses (fun i f hf => (hI.corners f (List.mem_of_getElem? hf)).1) hI.manifold
  unfold BoundarySegment
  simp only [hb]

/-- A face of which no corner is in the place of a snap point is returned as it was. -/
theorem C60_base_faces (hI : Valid I) {fuel : Nat} {vs : List P3} {fs : List AbstractMesh.Face}
    (h : thinSnappedMesh I fuel = some (.ok (vs, fs))) (hfuel : I.faces.length < fuel) {f : AbstractMesh.Face} (hf : f ∈ I.faces)
    (hs : ∀ v, Corner f v → pos I.vertices v ∉ I.points) : ∃ g ∈ fs, tri vs g = tri I.vertices f := by
  obtain ⟨vs', fs', F, ρ, h1, h2⟩ := thin_core hI hfuel
  rw [h] at h1
  cases h1
  obtain ⟨j, hj⟩ := List.getElem?_of_mem hf
  have := collapses_kept h2.collapses hj hs
  exact ⟨_, h2.mem.2 ⟨j, f, this, rfl⟩, h2.tri_eq this⟩

/-- No vertex is moved or invented, and there are never more faces. -/
theorem C60_no_more (hI : Valid I) {fuel : Nat} {vs : List P3} {fs : List AbstractMesh.Face}
    (h : thinSnappedMesh I fuel = some (.ok (vs, fs))) (hfuel : I.faces.length < fuel) :
    (∀ f ∈ fs, ∀ v, Corner f v → pos vs v ∈ I.vertices) ∧ fs.length ≤ I.faces.length := by
  obtain ⟨vs', fs', F, ρ, h1, h2⟩ := thin_core hI hfuel
  rw [h] at h1
  cases h1
  constructor
  · intro g hg v hv
    obtain ⟨i, f, hf, rfl⟩ := h2.mem.1 hg
    have key : ∀ x, Corner f x → pos vs (ρ x) ∈ I.vertices := by
      intro x hx
      rw [(h2.pos i f x hf hx).2]
      unfold Spec.pos
      rw [getD_lt _ _ (h2.lt hf hx)]
      exact List.getElem_mem _
    rcases hv with rfl | rfl | rfl
    · exact key _ (Or.inl rfl)
    · exact key _ (Or.inr (Or.inl rfl))
    · exact key _ (Or.inr (Or.inr rfl))
  · rw [h2.faces, List.length_map]
    unfold inOrder
    exact (List.length_filterMap_le _ _).trans (by simp)

/-- Without snap points, or without faces, the mesh is returned as it is. -/
theorem C60_nothing_to_do (I : Input) (fuel : Nat) (h : I.points = [] ∨ I.faces = []) :
    thinSnappedMesh I fuel = some (.ok (I.vertices, I.faces)) := by
  unfold thinSnappedMesh
  rw [if_pos]
  rcases h with h | h <;> simp [h]

/-! ## A concrete case -/

/-- Four triangles around the origin in a plane; the origin and its right neighbour are snap points. -/
noncomputable def fan : Input where
  vertices := [(0, 0, 0), (1, 0, 0), (0, 1, 0), (-1, 0, 0), (0, -1, 0)]
  faces := [(0, 1, 2), (0, 2, 3), (0, 3, 4), (0, 4, 1)]
  points := [(0, 0, 0), (1, 0, 0)]
  tolerances := []
  resolution := 2
  T := id

theorem fan_face {i : Nat} {f : AbstractMesh.Face} (h : fan.faces[i]? = some f) :
    (i = 0 ∧ f = (0, 1, 2)) ∨ (i = 1 ∧ f = (0, 2, 3)) ∨ (i = 2 ∧ f = (0, 3, 4)) ∨ (i = 3 ∧ f = (0, 4, 1)) := by
  unfold fan at h
  dsimp only at h
  rcases i with _ | _ | _ | _ | i <;> simp at h <;> simp [h]

theorem fan_valid : Valid fan where
  corners := by
    intro f hf
    obtain ⟨i, hi⟩ := List.getElem?_of_mem hf
    rcases fan_face hi with ⟨-, rfl⟩ | ⟨-, rfl⟩ | ⟨-, rfl⟩ | ⟨-, rfl⟩ <;> simp [Nondeg, fan]
  manifold := by
    intro i j f g a b hf hg s1 s2
    rcases fan_face hf with ⟨rfl, rfl⟩ | ⟨rfl, rfl⟩ | ⟨rfl, rfl⟩ | ⟨rfl, rfl⟩ <;>
      rcases fan_face hg with ⟨rfl, rfl⟩ | ⟨rfl, rfl⟩ | ⟨rfl, rfl⟩ | ⟨rfl, rfl⟩ <;>
      simp only [Side] at s1 s2 <;> omega
  positions := by simp [fan]; norm_num
  tolerances := Or.inl rfl
  nonneg := by simp [fan]
  resolution := by simp [fan]
  transform := fun _ _ h => h

/-- The origin can be merged into its neighbour. -/
theorem fan_safe : Safe fan (fun i => fan.faces[i]?) 0 1 where
  snapped := by simp [IsSnapped, pos, fan]
  edge := ⟨0, (0, 1, 2), rfl, Or.inl rfl, Or.inr (Or.inl rfl), by decide⟩
  star := ⟨0, 1, 2, (0, 1, 2), (0, 2, 3), (0, 3, 4), by decide, by decide, by decide, rfl, rfl, rfl, Or.inl rfl, Or.inl rfl, Or.inl rfl⟩
  interior := by
    intro u
    constructor
    · rintro ⟨⟨i, f, hf, s⟩, h⟩
      rcases fan_face hf with ⟨rfl, rfl⟩ | ⟨rfl, rfl⟩ | ⟨rfl, rfl⟩ | ⟨rfl, rfl⟩ <;> simp [Side] at s <;> subst s
      · exact h 3 (0, 4, 1) rfl (by simp [Side])
      · exact h 0 (0, 1, 2) rfl (by simp [Side])
      · exact h 1 (0, 2, 3) rfl (by simp [Side])
      · exact h 2 (0, 3, 4) rfl (by simp [Side])
    · rintro ⟨⟨i, f, hf, s⟩, h⟩
      rcases fan_face hf with ⟨rfl, rfl⟩ | ⟨rfl, rfl⟩ | ⟨rfl, rfl⟩ | ⟨rfl, rfl⟩ <;> simp [Side] at s <;> subst s
      · exact h 1 (0, 2, 3) rfl (by simp [Side])
      · exact h 2 (0, 3, 4) rfl (by simp [Side])
      · exact h 3 (0, 4, 1) rfl (by simp [Side])
      · exact h 0 (0, 1, 2) rfl (by simp [Side])
  link := by
    rintro u - ⟨i, f, hf, c1, c2, hne⟩
    rcases fan_face hf with ⟨rfl, rfl⟩ | ⟨rfl, rfl⟩ | ⟨rfl, rfl⟩ | ⟨rfl, rfl⟩
    · exact ⟨0, _, rfl, c1, by simp [Corner], c2⟩
    · simp [Corner] at c2
    · simp [Corner] at c2
    · exact ⟨3, _, rfl, c1, by simp [Corner], c2⟩
  remains := ⟨1, (0, 2, 3), rfl, Or.inl rfl, by simp [Corner]⟩
  unflipped := by
    intro i f f' hf hc hm
    rcases fan_face hf with ⟨rfl, rfl⟩ | ⟨rfl, rfl⟩ | ⟨rfl, rfl⟩ | ⟨rfl, rfl⟩ <;> simp [merged, fan] at hm <;> subst hm <;>
      norm_num [fan, tri, pos, Spec.normal, crossP, dotP]
  short := by
    rintro u ⟨i, f, hf, c1, c2, hne⟩ hna hu
    have : u = 3 := by
      rcases fan_face hf with ⟨rfl, rfl⟩ | ⟨rfl, rfl⟩ | ⟨rfl, rfl⟩ | ⟨rfl, rfl⟩ <;> simp [Corner] at c1
      · rcases c1 with rfl | rfl | rfl
        · exact absurd rfl hne
        · exact absurd rfl hu
        · exact absurd ⟨0, (0, 1, 2), rfl, by simp [Corner], by simp [Corner], by decide⟩ hna
      · rcases c1 with rfl | rfl | rfl
        · exact absurd rfl hne
        · exact absurd ⟨0, (0, 1, 2), rfl, by simp [Corner], by simp [Corner], by decide⟩ hna
        · rfl
      · rcases c1 with rfl | rfl | rfl
        · exact absurd rfl hne
        · rfl
        · exact absurd ⟨3, (0, 4, 1), rfl, by simp [Corner], by simp [Corner], by decide⟩ hna
      · rcases c1 with rfl | rfl | rfl
        · exact absurd rfl hne
        · exact absurd ⟨3, (0, 4, 1), rfl, by simp [Corner], by simp [Corner], by decide⟩ hna
        · exact absurd rfl hu
    subst this
    refine (norm_le_iff fan_valid 1 3).2 ?_
    norm_num [fan, Input.ap, Input.p, Input.maxEdge2, dotP]
  honored := by
    intro i q tol hq ht _
    have htol : tol = 0 := by simpa [HasTolerance, fan] using ht
    subst htol
    refine ⟨1, (1, 2, 3), 1, (0, 2, 3), (1, 2, 3), 1, by simp [merged, fan], ?_, rfl, Or.inl rfl, by simp [merged, fan], Or.inl rfl, Or.inl rfl⟩
    unfold Honors
    refine le_of_eq (Metric.infDist_zero_of_mem ?_)
    have hseg : segment ℝ (toE (1, 0, 0)) (toE (-1, 0, 0)) ⊆ surface id (tri fan.vertices (1, 2, 3)) := by
      refine segment_subset_convexHull ?_ ?_ <;> simp [tri, pos, fan]
    refine hseg ?_
    rcases i with _ | _ | i <;> simp [fan] at hq <;> subst hq
    · refine ⟨1 / 2, 1 / 2, by norm_num, by norm_num, by norm_num, ?_⟩
      ext k
      fin_cases k <;> simp [toE, fan]
    · exact left_mem_segment ..
  clear := by
    intro i f f' j g _ _ _ hg hna
    rcases fan_face hg with ⟨-, rfl⟩ | ⟨-, rfl⟩ | ⟨-, rfl⟩ | ⟨-, rfl⟩ <;> simp [Corner] at hna

/-- So something is merged. -/
example : ∃ vs fs, thinSnappedMesh fan 5 = some (.ok (vs, fs)) ∧ fs.map (tri vs) ≠ fan.faces.map (tri fan.vertices) := by
  obtain ⟨vs, fs, F, ρ, h1, h2⟩ := thin_core fan_valid (fuel := 5) (by simp [fan])
  refine ⟨vs, fs, h1, fun h => ?_⟩
  have hl : ((List.range fan.faces.length).filterMap F).length = 4 := by
    have := congrArg List.length h
    rw [h2.faces] at this
    simpa [inOrder, fan] using this
  have key : ∀ {F G}, Collapses fan F G → F = G ∨ ∃ i, F i ≠ none ∧ G i = none := by
    intro F G hc
    induction hc with
    | refl => exact Or.inl rfl
    | step _ hc ih =>
        right
        obtain ⟨i, f, e1, e2, e3, -⟩ := hc.edge
        have hgone := merged_gone e1 e2 e3
        rcases ih with rfl | ⟨j, hj, hj'⟩
        · exact ⟨i, by rw [e1]; simp, by rw [hc.faces]; exact hgone⟩
        · exact ⟨j, hj, by rw [hc.faces, merged_none hj']⟩
  rcases key h2.collapses with e | ⟨i, e1, e2⟩
  · exact h2.done 0 1 (e ▸ fan_safe)
  · have hi : i < 4 := by
      by_contra hi
      exact e1 (List.getElem?_eq_none (by simp [fan]; omega))
    have hle := List.length_filterMap_le F ((List.range 4).erase i)
    have : (List.range 4).filterMap F = ((List.range 4).erase i).filterMap F := by
      have hr : List.range 4 = [0, 1, 2, 3] := rfl
      rw [hr]
      have : i = 0 ∨ i = 1 ∨ i = 2 ∨ i = 3 := by omega
      rcases this with rfl | rfl | rfl | rfl <;> simp [List.filterMap_cons, e2]
    rw [show fan.faces.length = 4 from rfl, this] at hl
    have hlen : ((List.range 4).erase i).length = 3 := by
      rw [List.length_erase_of_mem (List.mem_range.2 hi)]
      rfl
    omega

end Verif.Thinner
