import Verif.Lemmas.SmootherMesh
import Mathlib.Tactic.FinCases

/-!
# C61: smoothing a snapped mesh
-/

namespace Verif.Smoother

open Verif Verif.AbstractMesh Verif.Thinner Verif.Thinner.Spec Verif.Smoother.Spec
open Verif.Predicates (P3)

variable {I : Input}

/-- Smoothing ends without an exception, however the queue breaks ties.  The vertices are returned as they are, and the faces come from the
given ones by at most `50 * max (number of faces) 1 + 1` flips, each keeping the guarantees listed in `Flipped`. -/
theorem C61_smooth (hI : Valid I) {pop : Pop} (hpop : IsPop pop) {fuel : Nat}
    (hfuel : 3 * I.faces.length + 25 * (50 * max I.faces.length 1 + 1) < fuel) :
    ∃ fs n, smoothSnappedMesh I pop fuel = some (.ok (I.vertices, fs)) ∧ fs.length = I.faces.length ∧
      Flips I n (fun i => I.faces[i]?) (fun i => fs[i]?) ∧ n ≤ 50 * max I.faces.length 1 + 1 := by
  obtain ⟨fs, n, h1, h2, h3, h4, -⟩ := smooth_core hI hpop hfuel
  exact ⟨fs, n, h1, h2, h3, h4⟩

/-- Unless the bound on the number of flips was exceeded, every edge between two faces was examined after the last change in its
surroundings, and could not be flipped. -/
theorem C61_settled (hI : Valid I) {pop : Pop} (hpop : IsPop pop) {fuel : Nat}
    (hfuel : 3 * I.faces.length + 25 * (50 * max I.faces.length 1 + 1) < fuel) {vs : List P3} {fs : List AbstractMesh.Face}
    (h : smoothSnappedMesh I pop fuel = some (.ok (vs, fs))) :
    (∃ n, n = 50 * max I.faces.length 1 + 1 ∧ Flips I n (fun i => I.faces[i]?) (fun i => fs[i]?)) ∨
    ∀ fi fj x y c d, x < y → Between (fun i => fs[i]?) fi fj x y c d →
      Settled I (fun i => I.faces[i]?) (fun i => fs[i]?) fi fj x y c d := by
  obtain ⟨fs', n, h1, -, h3, h4, h5⟩ := smooth_core hI hpop hfuel
  rw [h] at h1
  cases h1
  by_cases hn : n ≤ 50 * max I.faces.length 1
  · exact Or.inr (h5 hn)
  · exact Or.inl ⟨n, by omega, h3⟩

/-- The total bend never grows, and shrinks if the mesh changes. -/
theorem C61_flatter (hI : Valid I) {pop : Pop} (hpop : IsPop pop) {fuel : Nat}
    (hfuel : 3 * I.faces.length + 25 * (50 * max I.faces.length 1 + 1) < fuel) {vs : List P3} {fs : List AbstractMesh.Face}
    (h : smoothSnappedMesh I pop fuel = some (.ok (vs, fs))) :
    fs = I.faces ∨ totalBend I (fun i => fs[i]?) < totalBend I (fun i => I.faces[i]?) - 1 / 1000000 := by
  obtain ⟨fs', n, h1, -, h3, -, -⟩ := smooth_core hI hpop hfuel
  rw [h] at h1
  cases h1
  have hb := flips_bend h3
  rcases Nat.eq_zero_or_pos n with rfl | hn
  · left
    generalize hG : (fun i : Nat => fs[i]?) = G at h3
    cases h3
    exact List.ext_getElem? fun i => congrFun hG i
  · right
    have := hb.2 (by omega)
    have h1 : (1 : ℝ) ≤ n := by exact_mod_cast hn
    linarith

/-- A snap point that the given surface passes within its tolerance is passed within its tolerance by the returned surface. -/
theorem C61_honored (hI : Valid I) {pop : Pop} (hpop : IsPop pop) {fuel : Nat}
    (hfuel : 3 * I.faces.length + 25 * (50 * max I.faces.length 1 + 1) < fuel) {vs : List P3} {fs : List AbstractMesh.Face}
    (h : smoothSnappedMesh I pop fuel = some (.ok (vs, fs))) {i : Nat} {q : P3} {tol : ℝ}
    (hq : I.points[i]? = some q) (ht : HasTolerance I i tol) (h0 : ∃ f ∈ I.faces, Honors I.T (tri I.vertices f) q tol) :
    ∃ f ∈ fs, Honors I.T (tri vs f) q tol := by
  obtain ⟨fs', n, h1, -, h3, -, -⟩ := smooth_core hI hpop hfuel
  rw [h] at h1
  cases h1
  obtain ⟨f, hf, hh⟩ := h0
  obtain ⟨j, hj⟩ := List.getElem?_of_mem hf
  obtain ⟨k, g, hg, hh'⟩ := flips_honored h3 hq ht ⟨j, f, hj, hh⟩
  exact ⟨g, List.mem_of_getElem? hg, hh'⟩

/-- The boundary does not change, and the returned mesh is an oriented manifold. -/
theorem C61_boundary (hI : Valid I) {pop : Pop} (hpop : IsPop pop) {fuel : Nat}
    (hfuel : 3 * I.faces.length + 25 * (50 * max I.faces.length 1 + 1) < fuel) {vs : List P3} {fs : List AbstractMesh.Face}
    (h : smoothSnappedMesh I pop fuel = some (.ok (vs, fs))) :
    (∀ u v, BoundaryEdge (fun i => fs[i]?) u v ↔ BoundaryEdge (fun i => I.faces[i]?) u v) ∧ Manifold (fun i => fs[i]?) ∧
      ∀ f ∈ fs, Nondeg f ∧ f.1 < vs.length ∧ f.2.1 < vs.length ∧ f.2.2 < vs.length := by
  obtain ⟨fs', n, h1, -, h3, -, -⟩ := smooth_core hI hpop hfuel
  rw [h] at h1
  cases h1
  obtain ⟨a1, a2, a3⟩ := flips_boundary h3 hI.manifold (fun i f hf => hI.corners f (List.mem_of_getElem? hf))
  refine ⟨a3, a1, fun f hf => ?_⟩
  obtain ⟨j, hj⟩ := List.getElem?_of_mem hf
  exact a2 j f hj

/-! ## A concrete case -/

/-- Two triangles that meet in a ridge; the other diagonal is flatter. -/
noncomputable def ridge : Input where
  vertices := [(0, -2, 1), (0, 2, 1), (1, 0, 0), (-1, 0, 0)]
  faces := [(0, 1, 2), (1, 0, 3)]
  points := [(1, 0, 0)]
  tolerances := []
  resolution := 1
  T := id

theorem ridge_face {i : Nat} {f : AbstractMesh.Face} (h : ridge.faces[i]? = some f) : (i = 0 ∧ f = (0, 1, 2)) ∨ (i = 1 ∧ f = (1, 0, 3)) := by
  unfold ridge at h
  dsimp only at h
  rcases i with _ | _ | i <;> simp at h <;> simp [h]

theorem ridge_valid : Valid ridge where
  corners := by
    intro f hf
    obtain ⟨i, hi⟩ := List.getElem?_of_mem hf
    rcases ridge_face hi with ⟨-, rfl⟩ | ⟨-, rfl⟩ <;> simp [Nondeg, ridge]
  manifold := by
    intro i j f g a b hf hg s1 s2
    rcases ridge_face hf with ⟨rfl, rfl⟩ | ⟨rfl, rfl⟩ <;> rcases ridge_face hg with ⟨rfl, rfl⟩ | ⟨rfl, rfl⟩ <;>
      simp only [Side] at s1 s2 <;> omega
  positions := by simp [ridge]; norm_num
  tolerances := Or.inl rfl
  nonneg := by simp [ridge]
  resolution := by simp [ridge]
  transform := fun _ _ h => h

theorem ridge_left : ∃ f, ridge.faces[0]? = some f ∧ Side f 0 1 ∧ Side f 1 2 ∧ Side f 2 0 := ⟨(0, 1, 2), rfl, by simp [Side], by simp [Side], by simp [Side]⟩

theorem ridge_right : ∃ f, ridge.faces[1]? = some f ∧ Side f 1 0 ∧ Side f 0 3 ∧ Side f 3 1 := ⟨(1, 0, 3), rfl, by simp [Side], by simp [Side], by simp [Side]⟩

theorem ridge_fresh : ¬ Thinner.Spec.Adjacent (fun i => ridge.faces[i]?) 2 3 := by
  rintro ⟨i, f, hf, c1, c2, -⟩
  rcases ridge_face hf with ⟨rfl, rfl⟩ | ⟨rfl, rfl⟩ <;> simp [Corner] at c1 c2

theorem ridge_flat {i : Nat} {f : AbstractMesh.Face} (h : flipped (fun i => ridge.faces[i]?) 0 1 0 1 2 3 i = some f) :
    (i = 0 ∧ f = (2, 0, 3)) ∨ (i = 1 ∧ f = (3, 1, 2)) := by
  unfold flipped at h
  by_cases h0 : i = 0
  · rw [if_pos h0] at h; cases h; exact Or.inl ⟨h0, rfl⟩
  · rw [if_neg h0] at h
    by_cases h1 : i = 1
    · rw [if_pos h1] at h; cases h; exact Or.inr ⟨h1, rfl⟩
    · rw [if_neg h1] at h
      rcases ridge_face h with ⟨e, -⟩ | ⟨e, -⟩
      · exact absurd e h0
      · exact absurd e h1

theorem ridge_quad : Quad (fun i => ridge.faces[i]?) (flipped (fun i => ridge.faces[i]?) 0 1 0 1 2 3) 0 1 0 1 2 3 where
  left := ridge_left
  right := ridge_right
  left' := rfl
  right' := rfl
  others := fun i h1 h2 => by unfold flipped; rw [if_neg h1, if_neg h2]
  cd := by decide
  fresh := ridge_fresh
  nondeg := fun i f hf => (ridge_valid.corners f (List.mem_of_getElem? hf)).1
  man := ridge_valid.manifold
  man' := by
    intro i j f g a b hf hg s1 s2
    rcases ridge_flat hf with ⟨rfl, rfl⟩ | ⟨rfl, rfl⟩ <;> rcases ridge_flat hg with ⟨rfl, rfl⟩ | ⟨rfl, rfl⟩ <;>
      simp only [Side] at s1 s2 <;> omega

theorem ridge_bend : Smoother.bend ridge (0, 1, 2) (1, 0, 3) = Real.pi / 2 := by
  unfold Smoother.bend
  have n1 : ridge.normal (0, 1, 2) = (-4, 0, -4) := by norm_num [Input.normal, Input.ap, Input.p, ridge, crossP]
  have n2 : ridge.normal (1, 0, 3) = (4, 0, -4) := by norm_num [Input.normal, Input.ap, Input.p, ridge, crossP]
  dsimp only
  rw [n1, n2, if_neg]
  · norm_num [dotP]
  · norm_num [dotP]

theorem ridge_bend' : Smoother.bend ridge (2, 0, 3) (3, 1, 2) < Real.pi / 3 := by
  unfold Smoother.bend
  have n1 : ridge.normal (2, 0, 3) = (0, -2, -4) := by norm_num [Input.normal, Input.ap, Input.p, ridge, crossP]
  have n2 : ridge.normal (3, 1, 2) = (0, 2, -4) := by norm_num [Input.normal, Input.ap, Input.p, ridge, crossP]
  dsimp only
  rw [n1, n2, if_neg]
  · have e1 : dotP (0, -2, -4) (0, -2, -4) = 20 := by norm_num [dotP]
    have e2 : dotP (0, 2, -4) (0, 2, -4) = 20 := by norm_num [dotP]
    have e3 : dotP (0, -2, -4) (0, 2, -4) = 12 := by norm_num [dotP]
    rw [e1, e2, e3, Real.mul_self_sqrt (by norm_num)]
    have : max (-1 : ℝ) (min (12 / 20) 1) = 3 / 5 := by norm_num
    rw [this, ← Real.arccos_cos (x := Real.pi / 3) (by positivity) (by linarith [Real.pi_pos]), Real.cos_pi_div_three]
    exact Real.strictAntiOn_arccos (by norm_num) (by norm_num) (by norm_num)
  · norm_num [dotP]

/-- The ridge can be flipped. -/
theorem ridge_allowed : Allowed ridge (fun i => ridge.faces[i]?) 0 1 0 1 2 3 where
  left := ridge_left
  right := ridge_right
  fresh := ⟨by decide, ridge_fresh⟩
  flatter := by
    have Q := ridge_quad
    have hd := totalBend_diff (I := ridge) Q (by simp [ridge]) (by simp [ridge]) (by simp [ridge]) (by simp [ridge])
    have b1 : edgeBend ridge (fun i => ridge.faces[i]?) 0 1 = Real.pi / 2 := by
      rw [edgeBend_some Q.man (i := 0) (j := 1) (f := (0, 1, 2)) (g := (1, 0, 3)) rfl (by simp [Side]) rfl (by simp [Side]), ridge_bend]
    have b2 : edgeBend ridge (flipped (fun i => ridge.faces[i]?) 0 1 0 1 2 3) 2 3 < Real.pi / 3 := by
      rw [edgeBend_comm Q.man', edgeBend_some Q.man' Q.left' (by simp [Side]) Q.right' (by simp [Side])]
      exact ridge_bend'
    have z : ∀ u v, (u = 2 ∧ v = 0) ∨ (u = 1 ∧ v = 2) ∨ (u = 0 ∧ v = 3) ∨ (u = 3 ∧ v = 1) →
        edgeBend ridge (fun i => ridge.faces[i]?) u v = 0 ∧ edgeBend ridge (flipped (fun i => ridge.faces[i]?) 0 1 0 1 2 3) u v = 0 := by
      intro u v huv
      constructor
      · refine edgeBend_none' fun i f hf s => ?_
        rcases ridge_face hf with ⟨rfl, rfl⟩ | ⟨rfl, rfl⟩ <;> simp only [Side] at s <;> omega
      · refine edgeBend_none' fun i f hf s => ?_
        rcases ridge_flat hf with ⟨rfl, rfl⟩ | ⟨rfl, rfl⟩ <;> simp only [Side] at s <;> omega
    rw [(z 2 0 (by simp)).1, (z 2 0 (by simp)).2, (z 1 2 (by simp)).1, (z 1 2 (by simp)).2, (z 0 3 (by simp)).1, (z 0 3 (by simp)).2, (z 3 1 (by simp)).1,
      (z 3 1 (by simp)).2, b1] at hd
    have := Real.two_le_pi
    linarith
  short := by
    rw [short_iff ridge_valid]
    norm_num [dotP, Input.ap, Input.p, ridge, Input.maxEdge2]
  honored := by
    intro i q tol hq ht _
    have htol : tol = 0 := by simpa [HasTolerance, ridge] using ht
    have hq' : q = (1, 0, 0) := by
      rcases i with _ | i <;> simp [ridge] at hq
      exact hq.symm
    subst htol hq'
    refine ⟨(2, 0, 3), Or.inl rfl, ?_⟩
    unfold Honors
    refine le_of_eq (Metric.infDist_zero_of_mem (subset_convexHull _ _ ?_))
    simp [tri, Thinner.Spec.pos, ridge]
  clear := by
    intro f j g _ hg h1 h2
    rcases ridge_face hg with ⟨rfl, -⟩ | ⟨rfl, -⟩
    · exact absurd rfl h1
    · exact absurd rfl h2

open Classical in
/-- A queue that takes the first of the entries with the greatest key. -/
noncomputable def popFirst : Pop := fun q =>
  if h : ∃ e rest, q.Perm (e :: rest) ∧ ∀ e' ∈ q, e'.improve ≤ e.improve then some (h.choose, h.choose_spec.choose) else none

theorem popFirst_isPop : IsPop popFirst where
  empty := by
    unfold popFirst
    rw [dif_neg]
    rintro ⟨e, rest, h, -⟩
    exact absurd h.length_eq (by simp)
  greatest := by
    intro q hq
    have : ∃ e rest, q.Perm (e :: rest) ∧ ∀ e' ∈ q, e'.improve ≤ e.improve := by
      obtain ⟨e, he⟩ := List.exists_mem_of_ne_nil q hq
      have : ∃ e ∈ q, ∀ e' ∈ q, e'.improve ≤ e.improve := by
        clear he e
        induction q with
        | nil => exact absurd rfl hq
        | cons x q ih =>
            by_cases hq' : q = []
            · subst hq'; exact ⟨x, by simp, by simp⟩
            · obtain ⟨e, he, hm⟩ := ih hq'
              by_cases hx : x.improve ≤ e.improve
              · exact ⟨e, by simp [he], by simpa [hx] using hm⟩
              · refine ⟨x, by simp, ?_⟩
                intro e' he'
                rcases List.mem_cons.1 he' with rfl | he'
                · exact le_rfl
                · exact (hm e' he').trans (not_le.1 hx).le
      obtain ⟨e, he, hm⟩ := this
      obtain ⟨l1, l2, rfl⟩ := List.append_of_mem he
      exact ⟨e, l1 ++ l2, List.perm_middle, hm⟩
    unfold popFirst
    rw [dif_pos this]
    exact ⟨_, _, rfl, this.choose_spec.choose_spec⟩

/-- So something is flipped. -/
example : ∃ fs, smoothSnappedMesh ridge popFirst 2532 = some (.ok (ridge.vertices, fs)) ∧ fs ≠ ridge.faces := by
  have hfuel : 3 * ridge.faces.length + 25 * (50 * max ridge.faces.length 1 + 1) < 2532 := by simp [ridge]
  obtain ⟨fs, n, h1, -⟩ := C61_smooth ridge_valid popFirst_isPop hfuel
  refine ⟨fs, h1, ?_⟩
  rintro rfl
  rcases C61_settled ridge_valid popFirst_isPop hfuel h1 with ⟨n, hn, hF⟩ | h
  · have := (flips_bend hF).2 (by omega)
    have h0 : (0 : ℝ) ≤ n * (1 / 1000000) := by positivity
    linarith
  · obtain ⟨n, k, F₁, a1, -, a3, a4⟩ := h 0 1 0 1 2 3 (by decide) ⟨ridge_left, ridge_right⟩
    refine a4 ?_
    have : F₁ = fun i => ridge.faces[i]? := by
      funext i
      rcases i with _ | _ | i
      · exact a3.left.symm
      · exact a3.right.symm
      · have := flips_some a1 (i + 2)
        have hn : ridge.faces[i + 2]? = none := by simp [ridge]
        rw [hn] at this
        rw [show (i + 1 + 1) = i + 2 from rfl, hn]
        simpa using this
    rw [this]
    exact ridge_allowed

end Verif.Smoother
