import Verif.Lemmas.RefinerTotal

/-!
# C64: refining the vertices of a mesh
-/

namespace Verif.Refiner

open Verif Verif.AbstractMesh
open Verif.Predicates (P3 narrow kTinyFactor)
open Verif.MeshDefects.Spec (DistinctCorners)
open Verif.Thinner (toE dotP crossP)
open Verif.Geometry (Cross cornerSet)
open Verif.Refiner.Spec
open Verif.Snapper.Spec (Embedded)

variable {I : Input} {out : Out}

/-- **C64, what happens.** The vertices are treated once each, in order: a vertex moves to the place computed for it from the field around its
given place if no face at it turns over, degenerates or crosses another face; otherwise it stays. -/
theorem C64_steps (hI : Valid I) (e : refineVertices I = .ok out) (hne : I.faces ≠ []) :
    ∃ seq : Nat → Nat → P3, seq 0 = pos I.vertices ∧ (∀ v, v < I.vertices.length → Step I v (seq v) (seq (v + 1))) ∧
      ∀ v, v < I.vertices.length → pos out.vertices v = seq I.vertices.length v :=
  (refine_run hI e hne).2.2.2

/-- **C64, the faces.** The result has the same faces and as many vertices. -/
theorem C64_faces (hI : Valid I) (e : refineVertices I = .ok out) : out.faces = I.faces ∧ out.vertices.length = I.vertices.length := by
  by_cases hne : I.faces = []
  · unfold refineVertices at e
    split at e
    · cases e; exact ⟨rfl, rfl⟩
    · obtain ⟨m, e1, hm⟩ := holds_of (fun f hf => (hI.corners f hf).1) hI.manifold
      rw [e1, project_spec hI] at e
      simp only [Outcome.ok_bind] at e
      obtain ⟨s, -, e3⟩ := Outcome.bind_eq_ok.1 e
      cases e3
      exact ⟨hm.takeFaces, by simp⟩
  · obtain ⟨h1, -, h2, -⟩ := refine_run hI e hne
    exact ⟨h1, h2⟩

theorem seq_place {seq : Nat → Nat → P3} {n : Nat} (h0 : seq 0 = pos I.vertices) (h : ∀ v, v < n → Step I v (seq v) (seq (v + 1))) :
    ∀ k, k ≤ n → ∀ v, seq k v = pos I.vertices v ∨ (v < k ∧ Goal I v (seq k v)) := by
  intro k
  induction k with
  | zero => intro _ v; rw [h0]; exact Or.inl rfl
  | succ k ih =>
      intro hk v
      have h1 := ih (by omega) v
      have hstep := h k (by omega)
      generalize seq (k + 1) = p' at *
      cases hstep with
      | flat c hc => exact h1.imp_right fun h => ⟨by omega, h.2⟩
      | rejected q g o => exact h1.imp_right fun h => ⟨by omega, h.2⟩
      | moved q g a =>
          by_cases hv : v = k
          · subst hv
            right
            unfold moveTo
            rw [Function.update_self]
            exact ⟨by omega, g⟩
          · unfold moveTo
            rw [Function.update_of_ne hv]
            exact h1.imp_right fun h => ⟨by omega, h.2⟩

/-- **C64, where the vertices are.** Every vertex is in its given place or in the place computed for it. -/
theorem C64_vertices (hI : Valid I) (e : refineVertices I = .ok out) {v : Nat} (hv : v < I.vertices.length) :
    pos out.vertices v = pos I.vertices v ∨ Goal I v (pos out.vertices v) := by
  by_cases hne : I.faces = []
  · have hl := (C64_faces hI e).2
    by_cases h1 : I.entire = false
    · unfold refineVertices at e
      rw [if_pos ⟨hne, h1⟩] at e
      cases e
      exact Or.inl rfl
    · unfold refineVertices at e
      rw [if_neg (fun h => h1 h.2)] at e
      obtain ⟨m, e1, hm⟩ := holds_of (fun f hf => (hI.corners f hf).1) hI.manifold
      rw [e1, project_spec hI] at e
      simp only [Outcome.ok_bind] at e
      obtain ⟨s, e2, e3⟩ := Outcome.bind_eq_ok.1 e
      cases e3
      rw [List.range_eq_range'] at e2
      obtain ⟨seq, s1, s2, s3⟩ := tryAll_steps hI hm _ _ _ (start_indexed I m) e2
      rw [Nat.zero_add] at s2 s3
      have := seq_place (I := I) s1 (fun v hv => s2 v (by omega) hv) _ le_rfl v
      have ep : pos ((List.range I.vertices.length).map s.p) v = seq I.vertices.length v := by
        rw [s3]
        unfold pos
        rw [List.getD_eq_getElem?_getD, List.getElem?_map, List.getElem?_range hv]
        rfl
      dsimp only
      rw [ep]
      exact this.imp_right (·.2)
  · obtain ⟨-, -, -, seq, s1, s2, s3⟩ := refine_run hI e hne
    rw [s3 v hv]
    exact (seq_place s1 s2 _ le_rfl v).imp_right (·.2)

/-- **C64, the step.** The computed place is, up to snapping to the box, within half the resolution of the given place (in the transformed
frame). -/
theorem C64_bounded {v : Nat} {q : P3} (h : Goal I v q) : ∃ x, Snapped I x q ∧ ‖toE (I.T (pos I.vertices v - x))‖ ≤ I.resolution / 2 := by
  obtain ⟨c, g, step, -, -, ⟨t, -, -, -, h2, -⟩, h3⟩ := h
  refine ⟨_, h3, ?_⟩
  rw [sub_sub_cancel]; exact h2

theorem dot_smul (a : ℝ) (x y : P3) : dotP x (a • y) = a * dotP x y := by simp [dotP]; ring
theorem dot_add (x y z : P3) : dotP x (y + z) = dotP x y + dotP x z := by simp [dotP]; ring
theorem dot_sub (x y z : P3) : dotP x (y - z) = dotP x y - dotP x z := by simp [dotP]; ring

theorem fits_unique {d : ℝ} (hd : d ≠ 0) {vals : Nat → ℝ} {c c' : ℝ} {g g' : P3} (h : Fits d vals c g) (h' : Fits d vals c' g') : c = c' ∧ g = g' := by
  have a0 := (h 0 (by norm_num)).trans (h' 0 (by norm_num)).symm
  have a1 := (h 1 (by norm_num)).trans (h' 1 (by norm_num)).symm
  have a2 := (h 2 (by norm_num)).trans (h' 2 (by norm_num)).symm
  have a3 := (h 3 (by norm_num)).trans (h' 3 (by norm_num)).symm
  simp only [dotP, tetrahedron] at a0 a1 a2 a3
  refine ⟨by linarith, Prod.ext ?_ (Prod.ext ?_ ?_)⟩
  · refine mul_right_cancel₀ hd ?_; linarith
  · refine mul_right_cancel₀ hd ?_; linarith
  · refine mul_right_cancel₀ hd ?_; linarith

/-- **C64, a field that is affine.** If the field is `b + a . x`, the computed place is, up to snapping to the box, on the level set, or half
the resolution nearer to it. -/
theorem C64_affine (hI : Valid I) (a : P3) (b : ℝ) (hf : ∀ ps, I.field ps = ps.map fun x => b + dotP a x) {v : Nat} (hv : v < I.vertices.length)
    {q : P3} (h : Goal I v q) :
    ∃ x, Snapped I x q ∧ |b + dotP a x - I.isovalue| ≤ |b + dotP a (pos I.vertices v) - I.isovalue| ∧
      (b + dotP a x = I.isovalue ∨ ‖toE (I.T (pos I.vertices v - x))‖ = I.resolution / 2) := by
  obtain ⟨c, g, step, ⟨ps, ⟨-, hs⟩, hfit⟩, hg, ⟨t, t0, t1, e, h2, h4⟩, h3⟩ := h
  have hr := hI.resolution
  have hd : I.resolution / 1000 ≠ 0 := by positivity
  have hfit' : Fits (I.resolution / 1000) (fun k => (I.field ps).getD (4 * v + k) 0 - I.isovalue) (b + dotP a (pos I.vertices v) - I.isovalue) a := by
    intro k hk
    dsimp only
    rw [hf, List.getD_eq_getElem?_getD, List.getElem?_map, hs v k hv hk]
    simp only [Option.map_some, Option.getD_some]
    rw [dot_add]; ring
  obtain ⟨rfl, rfl⟩ := fits_unique hd hfit hfit'
  have hgg : dotP g g ≠ 0 := fun h => hg (dot_zero.1 h)
  have key : b + dotP g (pos I.vertices v - step) - I.isovalue = (1 - t) * (b + dotP g (pos I.vertices v) - I.isovalue) := by
    rw [dot_sub, e, dot_smul]
    field_simp
    ring
  refine ⟨_, h3, ?_, ?_⟩
  · rw [key, abs_mul, abs_of_nonneg (by linarith)]
    have := abs_nonneg (b + dotP g (pos I.vertices v) - I.isovalue)
    nlinarith
  · rcases t1.lt_or_eq with ht | ht
    · right; rw [sub_sub_cancel]; exact h4 ht
    · left; rw [ht] at key; linarith

/-! ## Crossing faces -/

theorem corners_moveTo {p : Nat → P3} {v : Nat} {q : P3} {f : Face} (h : ¬ Corner f v) : corners (moveTo p v q) f = corners p f := by
  rw [← upd_eq]; exact tri_upd_of_not h

theorem seq_faces {seq : Nat → Nat → P3} {n : Nat} (h0 : seq 0 = pos I.vertices) (h : ∀ v, v < n → Step I v (seq v) (seq (v + 1))) :
    ∀ k, k ≤ n → ∀ f ∈ I.faces, (corners (seq k) f = corners (pos I.vertices) f ∨ normal (corners (seq k) f) ≠ 0) ∧
      (normal (corners (pos I.vertices) f) ≠ 0 → normal (corners (seq k) f) ≠ 0) ∧
      (normal (corners (pos I.vertices) f) = 0 → corners (seq k) f = corners (pos I.vertices) f) := by
  intro k
  induction k with
  | zero => intro _ f _; rw [h0]; exact ⟨Or.inl rfl, id, fun _ => rfl⟩
  | succ k ih =>
      intro hk f hf
      have h1 := ih (by omega) f hf
      have hstep := h k (by omega)
      generalize seq (k + 1) = p' at *
      cases hstep with
      | flat c hc => exact h1
      | rejected q g o => exact h1
      | moved q g a =>
          by_cases hv : Corner f k
          · have n := normal_ne (a.upright f hf hv)
            refine ⟨Or.inr n.2, fun _ => n.2, fun hz => ?_⟩
            have := h1.2.2 hz
            rw [← this] at hz
            exact absurd hz n.1
          · rw [corners_moveTo hv]; exact h1

theorem seq_cross {seq : Nat → Nat → P3} {n : Nat} (h0 : seq 0 = pos I.vertices) (h : ∀ v, v < n → Step I v (seq v) (seq (v + 1))) :
    ∀ k, k ≤ n → ∀ (i j : Nat) (f g : Face), i ≠ j → I.faces[i]? = some f → I.faces[j]? = some g → DistinctCorners (corners (seq k) f) →
      DistinctCorners (corners (seq k) g) → Cross (corners (seq k) f) (corners (seq k) g) →
      corners (seq k) f = corners (pos I.vertices) f ∧ corners (seq k) g = corners (pos I.vertices) g := by
  intro k
  induction k with
  | zero => intro _ i j f g _ _ _ _ _ _; rw [h0]; exact ⟨rfl, rfl⟩
  | succ k ih =>
      intro hk i j f g hij hf hg df dg hc
      have h1 := ih (by omega) i j f g hij hf hg
      have hstep := h k (by omega)
      generalize seq (k + 1) = p' at *
      cases hstep with
      | flat c _ => exact h1 df dg hc
      | rejected q _ o => exact h1 df dg hc
      | moved q _ a =>
          have hd : ∀ {g : Face}, g ∈ I.faces → DistinctCorners (corners (moveTo (seq k) k q) g) → DistinctCorners (corners (seq k) g) := by
            intro g hg dg
            by_cases gv : Corner g k
            · exact distinct_of_normal (normal_ne (a.upright g hg gv)).1
            · rwa [corners_moveTo gv] at dg
          by_cases fv : Corner f k
          · exact absurd hc (a.clear i j f g hij hf hg fv (hd (List.mem_of_getElem? hg) dg))
          by_cases gv : Corner g k
          · exact absurd (Thinner.cross_symm hc) (a.clear j i g f hij.symm hg hf gv (hd (List.mem_of_getElem? hf) df))
          rw [corners_moveTo fv] at *
          rw [corners_moveTo gv] at *
          exact h1 df dg hc

theorem corners_out (hI : Valid I) {seq : Nat → P3} (h : ∀ v, v < I.vertices.length → pos out.vertices v = seq v) {f : Face} (hf : f ∈ I.faces) :
    corners (pos out.vertices) f = corners seq f := by
  obtain ⟨-, h1, h2, h3⟩ := hI.corners f hf
  unfold corners
  rw [h _ h1, h _ h2, h _ h3]

/-- **C64, crossing.** Two faces (with three different corners each) that cross in the result are both in the places they were given in: they
crossed before. -/
theorem C64_crossing (hI : Valid I) (e : refineVertices I = .ok out) {i j : Nat} {f g : Face} (hij : i ≠ j) (hf : out.faces[i]? = some f)
    (hg : out.faces[j]? = some g) (df : DistinctCorners (corners (pos out.vertices) f)) (dg : DistinctCorners (corners (pos out.vertices) g))
    (hc : Cross (corners (pos out.vertices) f) (corners (pos out.vertices) g)) :
    corners (pos out.vertices) f = corners (pos I.vertices) f ∧ corners (pos out.vertices) g = corners (pos I.vertices) g := by
  have hF := (C64_faces hI e).1
  rw [hF] at hf hg
  have hne : I.faces ≠ [] := by rintro h; rw [h] at hf; simp at hf
  obtain ⟨seq, s1, s2, s3⟩ := C64_steps hI e hne
  have ef := corners_out hI s3 (List.mem_of_getElem? hf)
  have eg := corners_out hI s3 (List.mem_of_getElem? hg)
  rw [ef] at df hc ⊢
  rw [eg] at dg hc ⊢
  exact seq_cross s1 s2 _ le_rfl i j f g hij hf hg df dg hc

/-- **C64, an embedded mesh stays embedded.** -/
theorem C64_embedded (hI : Valid I) (e : refineVertices I = .ok out) (h : Embedded I.vertices I.faces) : Embedded out.vertices out.faces := by
  intro i j f g hij hf hg df dg hc
  obtain ⟨e1, e2⟩ := C64_crossing hI e hij hf hg df dg hc
  have hF := (C64_faces hI e).1
  rw [hF] at hf hg
  have e1' : Thinner.Spec.tri out.vertices f = Thinner.Spec.tri I.vertices f := e1
  have e2' : Thinner.Spec.tri out.vertices g = Thinner.Spec.tri I.vertices g := e2
  rw [e1'] at df hc
  rw [e2'] at dg hc
  exact h i j f g hij hf hg df dg hc

/-- **C64, no face degenerates.** A face with an area keeps an area, and a face without one stays where it is. -/
theorem C64_upright (hI : Valid I) (e : refineVertices I = .ok out) {f : Face} (hf : f ∈ I.faces) :
    (normal (corners (pos I.vertices) f) ≠ 0 → normal (corners (pos out.vertices) f) ≠ 0) ∧
    (normal (corners (pos I.vertices) f) = 0 → corners (pos out.vertices) f = corners (pos I.vertices) f) := by
  have hne : I.faces ≠ [] := by rintro h; rw [h] at hf; simp at hf
  obtain ⟨seq, s1, s2, s3⟩ := C64_steps hI e hne
  rw [corners_out hI s3 hf]
  exact (seq_faces s1 s2 _ le_rfl f hf).2

/-! ## The exceptions -/

/-- **C64, no undefined behaviour.** The call returns, or the intersection test throws. -/
theorem C64_exceptions (hI : Valid I) : (∃ out, refineVertices I = .ok out) ∨ refineVertices I = .throws .badAlloc ∨ refineVertices I = .throws .outOfRange := by
  have := refine_fine (B := fun e => e = .badAlloc ∨ e = .outOfRange) hI (fun _ => True) (fun _ _ _ _ _ f _ g _ _ => intersect_fine (Or.inl rfl) (Or.inr rfl) _ _)
    (fun _ _ _ _ _ => trivial) trivial
  rcases h : refineVertices I with o | e | _
  · exact Or.inl ⟨o, rfl⟩
  · rw [h] at this
    rcases this with rfl | rfl
    · exact Or.inr (Or.inl rfl)
    · exact Or.inr (Or.inr rfl)
  · rw [h] at this; exact this.elim

/-- **C64, when there is no exception.** If the given and the computed places of two corners of a face are always different, the call
returns. -/
theorem C64_total (hI : Valid I) (h : ∀ f ∈ I.faces, ∀ v w, Corner f v → Corner f w → v ≠ w → ∀ x y, (x = pos I.vertices v ∨ Goal I v x) →
    (y = pos I.vertices w ∨ Goal I w y) → x ≠ y) : ∃ out, refineVertices I = .ok out := by
  have hd : ∀ p : Nat → P3, (∀ v, p v = pos I.vertices v ∨ Goal I v (p v)) → ∀ f ∈ I.faces, DistinctCorners (tri p f) := by
    intro p hp f hf
    obtain ⟨⟨n1, n2, n3⟩, -⟩ := hI.corners f hf
    exact ⟨h f hf _ _ (Or.inl rfl) (Or.inr (Or.inl rfl)) n1 _ _ (hp _) (hp _), h f hf _ _ (Or.inr (Or.inl rfl)) (Or.inr (Or.inr rfl)) n2 _ _ (hp _) (hp _),
      h f hf _ _ (Or.inr (Or.inr rfl)) (Or.inl rfl) n3 _ _ (hp _) (hp _)⟩
  have hP : ∀ p v q, (∀ w, p w = pos I.vertices w ∨ Goal I w (p w)) → Goal I v q → ∀ w, upd p v q w = pos I.vertices w ∨ Goal I w (upd p v q w) := by
    intro p v q hp hq w
    by_cases hw : w = v
    · subst hw; rw [upd_self]; exact Or.inr hq
    · rw [upd_ne hw]; exact hp w
  have := refine_fine (B := fun _ => False) hI (fun p => ∀ v, p v = pos I.vertices v ∨ Goal I v (p v))
    (fun p v q hp hq f hf g hg _ => by
      obtain ⟨r, hr⟩ := MeshDefects.trianglesIntersect_total (narrow kTinyFactor) (hd _ (hP p v q hp hq) f hf) (hd _ (hP p v q hp hq) g hg)
      rw [hr]; exact True.intro) hP (fun _ => Or.inl rfl)
  rcases h : refineVertices I with o | e | _
  · exact ⟨o, rfl⟩
  · rw [h] at this; exact this.elim
  · rw [h] at this; exact this.elim

/-- **C64, a mesh that is not an oriented manifold is refused.** -/
theorem C64_refused (hc : ∀ f ∈ I.faces, Nondeg f) (hm : ¬ Manifold (fun i => I.faces[i]?)) : refineVertices I = .throws .runtimeError := by
  unfold refineVertices
  rw [if_neg, (C35_construct I.faces hc).2 hm]
  · rfl
  · rintro ⟨h, -⟩
    apply hm
    rw [h]
    intro fi fj f g a b hf
    simp at hf

/-- **C64, empty meshes.** The empty mesh is returned as it is; the mesh that stands for the whole space comes back as an empty mesh that does
not. -/
theorem C64_empty (hI : Valid I) (hf : I.faces = []) : (I.entire = false → refineVertices I = .ok ⟨I.vertices, [], false⟩) ∧
    (I.entire = true → I.vertices = [] → refineVertices I = .ok ⟨[], [], false⟩) := by
  refine ⟨fun h => ?_, fun h hv => ?_⟩
  · unfold refineVertices
    rw [if_pos ⟨hf, h⟩, hf, h]
  · unfold refineVertices
    rw [if_neg (by rw [h]; simp)]
    obtain ⟨m, e1, hm⟩ := holds_of (fun f hf => (hI.corners f hf).1) hI.manifold
    rw [e1, project_spec hI, hv]
    simp only [Outcome.ok_bind, List.length_nil, List.range_zero, List.filterMap_nil, tryAll, List.map_nil]
    rw [hm.takeFaces, hf]

/-! ## Examples -/

/-- Where a vertex should go, for an affine field whose level set is near. -/
theorem goal_affine (hI : Valid I) (a : P3) (b : ℝ) (hf : ∀ ps, I.field ps = ps.map fun x => b + dotP a x) {v : Nat} (hv : v < I.vertices.length)
    (hnear : ‖toE (I.T (((b + dotP a (pos I.vertices v) - I.isovalue) / dotP a a) • a))‖ < I.resolution / 2) {q : P3} (h : Goal I v q) :
    Snapped I (pos I.vertices v - ((b + dotP a (pos I.vertices v) - I.isovalue) / dotP a a) • a) q := by
  obtain ⟨c, g, step, ⟨ps, ⟨-, hs⟩, hfit⟩, hg, ⟨t, t0, t1, e, h2, h4⟩, h3⟩ := h
  have hr := hI.resolution
  have hd : I.resolution / 1000 ≠ 0 := by positivity
  have hfit' : Fits (I.resolution / 1000) (fun k => (I.field ps).getD (4 * v + k) 0 - I.isovalue) (b + dotP a (pos I.vertices v) - I.isovalue) a := by
    intro k hk
    dsimp only
    rw [hf, List.getD_eq_getElem?_getD, List.getElem?_map, hs v k hv hk]
    simp only [Option.map_some, Option.getD_some]
    rw [dot_add]; ring
  obtain ⟨rfl, rfl⟩ := fits_unique hd hfit hfit'
  rcases t1.lt_or_eq with ht | ht
  · exfalso
    have := h4 ht
    rw [e, mul_smul, linear_smul hI.transform, toE_smul, norm_smul, Real.norm_of_nonneg t0] at this
    have := norm_nonneg (toE (I.T (((b + dotP g (pos I.vertices v) - I.isovalue) / dotP g g) • g)))
    nlinarith
  · rw [e, ht, one_mul] at h3; exact h3

/-- The gradient is not zero. -/
theorem not_flat (hI : Valid I) (a : P3) (b : ℝ) (hf : ∀ ps, I.field ps = ps.map fun x => b + dotP a x) {v : Nat} (hv : v < I.vertices.length)
    (ha : a ≠ 0) {c : ℝ} : ¬ FitAt I v c 0 := by
  rintro ⟨ps, ⟨-, hs⟩, hfit⟩
  have hr := hI.resolution
  have hd : I.resolution / 1000 ≠ 0 := by positivity
  have hfit' : Fits (I.resolution / 1000) (fun k => (I.field ps).getD (4 * v + k) 0 - I.isovalue) (b + dotP a (pos I.vertices v) - I.isovalue) a := by
    intro k hk
    dsimp only
    rw [hf, List.getD_eq_getElem?_getD, List.getElem?_map, hs v k hv hk]
    simp only [Option.map_some, Option.getD_some]
    rw [dot_add]; ring
  exact ha (fits_unique hd hfit hfit').2.symm

/-- A point far from the sides of the box is not snapped. -/
theorem not_snapped (h1 : I.lo = (-10, -10, -10)) (h2 : I.hi = (10, 10, 10)) (h3 : I.resolution = 1) {x q : P3} (hx : |x.1| ≤ 1 ∧ |x.2.1| ≤ 1 ∧ |x.2.2| ≤ 1)
    (h : Snapped I x q) : q = x := by
  obtain ⟨⟨-, -, a, -⟩, ⟨-, -, b, -⟩, -, -, c, -⟩ := h
  rw [h1, h2, h3] at a b c
  dsimp only at a b c
  have far : ∀ y : ℝ, |y| ≤ 1 → (1 : ℝ) / 10 ^ 10 ≤ |y - -10| ∧ (1 : ℝ) / 10 ^ 10 ≤ |y - 10| := by
    intro y hy
    rw [abs_le] at hy
    constructor
    · rw [abs_of_nonneg (by linarith)]; norm_num; linarith
    · rw [abs_of_nonpos (by linarith)]; norm_num; linarith
  exact Prod.ext (a (far _ hx.1).1 (far _ hx.1).2) (Prod.ext (b (far _ hx.2.1).1 (far _ hx.2.1).2) (c (far _ hx.2.2).1 (far _ hx.2.2).2))

/-- A triangle a tenth above the level set of the field `z`. -/
noncomputable def above : Input :=
  ⟨[(0, 0, 1 / 10), (1, 0, 1 / 10), (0, 1, 1 / 10)], [(0, 1, 2)], false, fun ps => ps.map fun x => x.2.2, 0, (-10, -10, -10), (10, 10, 10), 1, id⟩

theorem above_valid : Valid above := by
  refine ⟨?_, ?_, by norm_num [above], ⟨LinearMap.id, fun _ => rfl⟩, fun ps => by simp [above]⟩
  · intro f hf
    simp only [above, List.mem_singleton] at hf
    subst hf
    simp [above, Nondeg]
  · intro fi fj f g a b hf hg _ _
    have l : ∀ {i : Nat} {f : Face}, above.faces[i]? = some f → i = 0 := by
      intro i f h
      have := (List.getElem?_eq_some_iff.1 h).1
      simp [above] at this
      exact this
    rw [l hf, l hg]

theorem above_field : ∀ ps, above.field ps = ps.map fun x => 0 + dotP (0, 0, 1) x := by
  intro ps
  simp [above, dotP]

theorem above_goal {v : Nat} (hv : v < 3) {q : P3} (h : Goal above v q) : q = ((pos above.vertices v).1, (pos above.vertices v).2.1, 0) := by
  have hz : (pos above.vertices v).2.2 = 1 / 10 := by interval_cases v <;> rfl
  have hxy : |(pos above.vertices v).1| ≤ 1 ∧ |(pos above.vertices v).2.1| ≤ 1 := by interval_cases v <;> norm_num [pos, above]
  have e : ((0 : ℝ) + dotP (0, 0, 1) (pos above.vertices v) - above.isovalue) / dotP (0, 0, 1) (0, 0, 1) = 1 / 10 := by
    have e0 : above.isovalue = 0 := rfl
    rw [e0]
    simp [dotP, hz]
  have := goal_affine above_valid (0, 0, 1) 0 above_field (show v < above.vertices.length from hv) (by
    rw [e]
    have : above.T = id := rfl
    have hr : above.resolution = 1 := rfl
    rw [this, hr, ← sqrt_dot, Real.sqrt_lt' (by norm_num)]
    simp [dotP]; norm_num) h
  rw [e] at this
  have hp : pos above.vertices v - (1 / 10 : ℝ) • ((0 : ℝ), (0 : ℝ), (1 : ℝ)) = ((pos above.vertices v).1, (pos above.vertices v).2.1, 0) := by
    refine Prod.ext ?_ (Prod.ext ?_ ?_) <;> simp [hz]
  rw [hp] at this
  exact not_snapped rfl rfl rfl (by simp [hxy]) this

theorem above_steps {seq : Nat → Nat → P3} (h : ∀ v, v < 3 → Step above v (seq v) (seq (v + 1)))
    (hA : ∀ v, v < 3 → ∀ q, q = ((pos above.vertices v).1, (pos above.vertices v).2.1, 0) →
      0 < dotP (normal (corners (seq v) (0, 1, 2))) (normal (corners (moveTo (seq v) v q) (0, 1, 2)))) :
    ∀ v, v < 3 → seq (v + 1) = moveTo (seq v) v ((pos above.vertices v).1, (pos above.vertices v).2.1, 0) := by
  intro v hv
  have hstep := h v hv
  have hA := hA v hv
  generalize seq (v + 1) = p' at *
  cases hstep with
  | flat c hc => exact absurd hc (not_flat above_valid (0, 0, 1) 0 above_field hv (by simp))
  | rejected q g o =>
      exfalso
      have hq := above_goal hv g
      have hA := hA q hq
      rcases o with ⟨f, f1, f2, f3⟩ | ⟨i, j, f, g, hij, hf, hg, -⟩
      · simp only [above, List.mem_singleton] at f1
        subst f1
        linarith
      · have l : ∀ {i : Nat} {f : Face}, above.faces[i]? = some f → i = 0 := by
          intro i f h
          have := (List.getElem?_eq_some_iff.1 h).1
          simp [above] at this
          exact this
        exact hij (by rw [l hf, l hg])
  | moved q g a => rw [above_goal hv g]

/-- The example meets the conditions of the theorems, the call returns, and the triangle is moved onto the level set. -/
example : Valid above ∧ ∃ out, refineVertices above = .ok out ∧ corners (pos out.vertices) (0, 1, 2) = ((0, 0, 0), (1, 0, 0), (0, 1, 0)) := by
  refine ⟨above_valid, ?_⟩
  obtain ⟨out, e⟩ := C64_total above_valid (by
    intro f hf v w hv hw hvw x y hx hy
    simp only [above, List.mem_singleton] at hf
    subst hf
    have lt : ∀ {u : Nat}, Corner (0, 1, 2) u → u < 3 := by rintro u (h | h | h) <;> simp only at h <;> omega
    have key : ∀ {u : Nat} {x : P3}, u < 3 → (x = pos above.vertices u ∨ Goal above u x) → x.1 = (pos above.vertices u).1 ∧ x.2.1 = (pos above.vertices u).2.1 := by
      intro u x hu hx
      rcases hx with rfl | hx
      · exact ⟨rfl, rfl⟩
      · rw [above_goal hu hx]; exact ⟨rfl, rfl⟩
    have k1 := key (lt hv) hx
    have k2 := key (lt hw) hy
    have hv' := lt hv
    have hw' := lt hw
    rintro rfl
    rw [k1.1, k1.2] at k2
    clear hx hy k1 hv hw key lt
    interval_cases v <;> interval_cases w <;> simp_all [pos, above])
  refine ⟨out, e, ?_⟩
  obtain ⟨seq, s1, s2, s3⟩ := C64_steps above_valid e (by simp [above])
  have s2' : ∀ v, v < 3 → Step above v (seq v) (seq (v + 1)) := s2
  have sub := seq_place s1 s2
  -- every vertex is at its given height or on the level set, at the same place in the plane
  have place : ∀ k, k ≤ 3 → ∀ v, v < 3 → (seq k v).1 = (pos above.vertices v).1 ∧ (seq k v).2.1 = (pos above.vertices v).2.1 := by
    intro k hk v hv
    rcases sub k hk v with h | ⟨-, h⟩
    · rw [h]; exact ⟨rfl, rfl⟩
    · rw [above_goal hv h]; exact ⟨rfl, rfl⟩
  have pl : ∀ k, k ≤ 3 → ((seq k 0).1 = 0 ∧ (seq k 0).2.1 = 0) ∧ ((seq k 1).1 = 1 ∧ (seq k 1).2.1 = 0) ∧ ((seq k 2).1 = 0 ∧ (seq k 2).2.1 = 1) :=
    fun k hk => ⟨place k hk 0 (by norm_num), place k hk 1 (by norm_num), place k hk 2 (by norm_num)⟩
  have ht : ∀ k, k ≤ 3 → ∀ v, v < 3 → (seq k v).2.2 = 0 ∨ (seq k v).2.2 = 1 / 10 := by
    intro k hk v hv
    rcases sub k hk v with h | ⟨-, h⟩
    · rw [h]; right; interval_cases v <;> rfl
    · rw [above_goal hv h]; exact Or.inl rfl
  have step := above_steps s2' (by
    intro v hv q hq
    obtain ⟨⟨a1, a2⟩, ⟨b1, b2⟩, c1, c2⟩ := pl v hv.le
    have h0 := ht v hv.le 0 (by norm_num)
    have h1 := ht v hv.le 1 (by norm_num)
    have h2 := ht v hv.le 2 (by norm_num)
    have n1 : normal (corners (seq v) (0, 1, 2)) = ((seq v 0).2.2 - (seq v 1).2.2, (seq v 0).2.2 - (seq v 2).2.2, 1) := by
      unfold normal corners crossP
      simp only [Prod.fst_sub, Prod.snd_sub, a1, a2, b1, b2, c1, c2]
      refine Prod.ext ?_ (Prod.ext ?_ ?_) <;> ring
    have n2 : (normal (corners (moveTo (seq v) v q) (0, 1, 2))).2.2 = 1 ∧ |(normal (corners (moveTo (seq v) v q) (0, 1, 2))).1| ≤ 1 / 10 ∧
        |(normal (corners (moveTo (seq v) v q) (0, 1, 2))).2.1| ≤ 1 / 10 := by
      have m : ∀ u, u < 3 → (moveTo (seq v) v q u).1 = (seq v u).1 ∧ (moveTo (seq v) v q u).2.1 = (seq v u).2.1 ∧
          ((moveTo (seq v) v q u).2.2 = 0 ∨ (moveTo (seq v) v q u).2.2 = 1 / 10) := by
        intro u hu
        unfold moveTo
        by_cases huv : u = v
        · subst huv
          rw [Function.update_self, hq, (place u hv.le u hu).1, (place u hv.le u hu).2]
          exact ⟨rfl, rfl, Or.inl rfl⟩
        · rw [Function.update_of_ne huv]; exact ⟨rfl, rfl, ht v hv.le u hu⟩
      obtain ⟨m1, m2, m3⟩ := m 0 (by norm_num)
      obtain ⟨m4, m5, m6⟩ := m 1 (by norm_num)
      obtain ⟨m7, m8, m9⟩ := m 2 (by norm_num)
      unfold normal corners crossP
      simp only [Prod.fst_sub, Prod.snd_sub, m1, m2, m4, m5, m7, m8, a1, a2, b1, b2, c1, c2]
      refine ⟨by ring, ?_, ?_⟩ <;> rw [abs_le] <;> constructor <;>
        rcases m3 with m3 | m3 <;> rcases m6 with m6 | m6 <;> rcases m9 with m9 | m9 <;> rw [m3] <;> (try rw [m6]) <;> (try rw [m9]) <;> norm_num
    rw [n1]
    generalize normal (corners (moveTo (seq v) v q) (0, 1, 2)) = N at *
    obtain ⟨n2, n3, n4⟩ := n2
    rw [abs_le] at n3 n4
    unfold dotP
    dsimp only
    rw [n2]
    rcases h0 with h0 | h0 <;> rcases h1 with h1 | h1 <;> rcases h2 with h2 | h2 <;> rw [h0, h1, h2] <;> linarith)
  have f0 : pos out.vertices 0 = (0, 0, 0) := by
    rw [s3 0 (by simp [above])]
    show seq (2 + 1) 0 = _
    rw [step 2 (by norm_num), moveTo, Function.update_of_ne (by norm_num)]
    show seq (1 + 1) 0 = _
    rw [step 1 (by norm_num), moveTo, Function.update_of_ne (by norm_num)]
    show seq (0 + 1) 0 = _
    rw [step 0 (by norm_num), moveTo, Function.update_self]
    rfl
  have f1 : pos out.vertices 1 = (1, 0, 0) := by
    rw [s3 1 (by simp [above])]
    show seq (2 + 1) 1 = _
    rw [step 2 (by norm_num), moveTo, Function.update_of_ne (by norm_num)]
    show seq (1 + 1) 1 = _
    rw [step 1 (by norm_num), moveTo, Function.update_self]
    rfl
  have f2 : pos out.vertices 2 = (0, 1, 0) := by
    rw [s3 2 (by simp [above])]
    show seq (2 + 1) 2 = _
    rw [step 2 (by norm_num), moveTo, Function.update_self]
    rfl
  unfold corners
  rw [f0, f1, f2]

/-! ## A vertex that should move exactly onto a neighbour -/

/-- Two triangles in a plane with a common corner; the level set of the field `x` passes through another corner of the second. -/
noncomputable def touching : Input :=
  ⟨[(0, 0, 0), (-1, -1, 0), (-1, 1, 0), (1 / 4, 0, 0), (1, 1, 0)], [(0, 1, 2), (0, 3, 4)], false, fun ps => ps.map fun x => x.1, 1 / 4,
    (-10, -10, -10), (10, 10, 10), 1, id⟩

theorem touching_faces {i : Nat} {f : Face} (h : touching.faces[i]? = some f) : (i = 0 ∧ f = (0, 1, 2)) ∨ (i = 1 ∧ f = (0, 3, 4)) := by
  have e : touching.faces = [(0, 1, 2), (0, 3, 4)] := rfl
  rw [e] at h
  match i, h with
  | 0, h => exact Or.inl ⟨rfl, by simpa using h.symm⟩
  | 1, h => exact Or.inr ⟨rfl, by simpa using h.symm⟩
  | n + 2, h => simp at h

theorem touching_valid : Valid touching := by
  refine ⟨?_, ?_, by norm_num [touching], ⟨LinearMap.id, fun _ => rfl⟩, fun ps => by simp [touching]⟩
  · intro f hf
    simp only [touching, List.mem_cons, List.not_mem_nil, or_false] at hf
    rcases hf with rfl | rfl <;> simp [touching, Nondeg]
  · intro fi fj f g a b hf hg hs ht
    rcases touching_faces hf with ⟨rfl, rfl⟩ | ⟨rfl, rfl⟩ <;> rcases touching_faces hg with ⟨rfl, rfl⟩ | ⟨rfl, rfl⟩ <;> try rfl
    all_goals exfalso
    all_goals simp only [Side] at hs ht
    all_goals omega

theorem touching_field : ∀ ps, touching.field ps = ps.map fun x => 0 + dotP (1, 0, 0) x := by
  intro ps
  simp [touching, dotP]

theorem touching_embedded : Embedded touching.vertices touching.faces := by
  have key : ¬ Cross (Thinner.Spec.tri touching.vertices (0, 1, 2)) (Thinner.Spec.tri touching.vertices (0, 3, 4)) := by
    rintro ⟨z, z1, z2, z3⟩
    have e1 : Thinner.Spec.tri touching.vertices (0, 1, 2) = ((0, 0, 0), (-1, -1, 0), (-1, 1, 0)) := rfl
    have e2 : Thinner.Spec.tri touching.vertices (0, 3, 4) = ((0, 0, 0), (1 / 4, 0, 0), (1, 1, 0)) := rfl
    rw [e1] at z1 z3
    rw [e2] at z2 z3
    obtain ⟨r, s, t, hs, ht, hr, ez⟩ := inTri z1
    obtain ⟨r', s', t', hs', ht', hr', ez'⟩ := inTri z2
    have c1 := congrArg Prod.fst (ez.symm.trans ez')
    simp at c1
    have a1 : s = 0 := by linarith
    have a2 : t = 0 := by linarith
    apply z3
    apply subset_convexHull
    rw [ez, a1, a2]
    constructor <;> simp [cornerSet]
  intro i j f g hij hf hg _ _
  rcases touching_faces hf with ⟨rfl, rfl⟩ | ⟨rfl, rfl⟩ <;> rcases touching_faces hg with ⟨rfl, rfl⟩ | ⟨rfl, rfl⟩
  · exact absurd rfl hij
  · exact key
  · exact fun h => key (Thinner.cross_symm h)
  · exact absurd rfl hij

theorem touching_goal {q : P3} (h : Goal touching 0 q) : q = (1 / 4, 0, 0) := by
  have e : ((0 : ℝ) + dotP (1, 0, 0) (pos touching.vertices 0) - touching.isovalue) / dotP (1, 0, 0) (1, 0, 0) = -(1 / 4) := by
    simp [touching, pos, dotP]
  have := goal_affine touching_valid (1, 0, 0) 0 touching_field (show 0 < touching.vertices.length by simp [touching]) (by
    rw [e]
    have : touching.T = id := rfl
    have hr : touching.resolution = 1 := rfl
    rw [this, hr, ← sqrt_dot, Real.sqrt_lt' (by norm_num)]
    simp [dotP]; norm_num) h
  rw [e] at this
  have hp : pos touching.vertices 0 - (-(1 / 4) : ℝ) • ((1 : ℝ), (0 : ℝ), (0 : ℝ)) = (1 / 4, 0, 0) := by
    refine Prod.ext ?_ (Prod.ext ?_ ?_) <;> simp [touching, pos]
  rw [hp] at this
  exact not_snapped rfl rfl rfl (by norm_num) this

/-- **C64, the limit of the promise.** "A rejected move simply keeps the vertex where it was" - but if the level set passes through a vertex
of another face at the vertex, the degenerate face reaches the intersection test before its own orientation is looked at, and the call throws
`std::out_of_range`, for a valid mesh without crossing faces. -/
theorem C64_throws : Valid touching ∧ Embedded touching.vertices touching.faces ∧ refineVertices touching = .throws .outOfRange := by
  refine ⟨touching_valid, touching_embedded, ?_⟩
  have hI := touching_valid
  obtain ⟨m, e1, hm⟩ := holds_of (fun f hf => (hI.corners f hf).1) hI.manifold
  have hC := hm.reach.good.consistent
  unfold refineVertices
  rw [if_neg (by simp [touching]), e1, project_spec hI]
  simp only [Outcome.ok_bind]
  have hn : touching.vertices.length = 4 + 1 := rfl
  rw [hn, List.range_succ_eq_map, List.filterMap_cons]
  obtain ⟨g1, g2⟩ := moveOf_spec hI 0
  rcases hmv : moveOf touching (touching.field (samples touching)) 0 with _ | x
  · obtain ⟨c, hc⟩ := g1 hmv
    exact absurd hc (not_flat hI (1, 0, 0) 0 touching_field (by simp [touching]) (by simp))
  obtain ⟨x1, x2⟩ := g2 x hmv
  obtain ⟨v, x⟩ := x
  dsimp only at x1 x2
  subst x1
  have hq := touching_goal x2
  dsimp only
  have hnf : m.nf = 2 := hm.nf
  have f0 : m.face 0 = (0, 1, 2) := ((hm.face 0 (0, 1, 2)).1 rfl).2
  have f1 : m.face 1 = (0, 3, 4) := ((hm.face 1 (0, 3, 4)).1 rfl).2
  have hstar : m.vertexFaces 0 = [0, 1] := by
    have : Mesh.ofFaces touching.faces = Mesh.ofFaces [(0, 1, 2), (0, 3, 4)] := rfl
    rw [this] at e1
    have e2 : (match Mesh.ofFaces [(0, 1, 2), (0, 3, 4)] with | .ok m => m.vertexFaces 0 | _ => []) = [0, 1] := by decide +kernel
    rw [e1] at e2
    exact e2
  suffices h : tryMove touching m (start touching m) (0, x) = .throws .outOfRange by
    unfold tryAll
    rw [h]; rfl
  unfold tryMove
  dsimp only
  rw [hstar, hq]
  have hp : (start touching m).p = pos touching.vertices := rfl
  have p0' : pos touching.vertices 0 = (0, 0, 0) := rfl
  have p1' : pos touching.vertices 1 = (-1, -1, 0) := rfl
  have p2' : pos touching.vertices 2 = (-1, 1, 0) := rfl
  have p3' : pos touching.vertices 3 = (1 / 4, 0, 0) := rfl
  have p4' : pos touching.vertices 4 = (1, 1, 0) := rfl
  have ta : tri (upd (pos touching.vertices) 0 (1 / 4, 0, 0)) (0, 1, 2) = ((1 / 4, 0, 0), (-1, -1, 0), (-1, 1, 0)) := by
    unfold tri
    rw [upd_self, upd_ne (by norm_num), upd_ne (by norm_num), p1', p2']
  have tb : tri (upd (pos touching.vertices) 0 (1 / 4, 0, 0)) (0, 3, 4) = ((1 / 4, 0, 0), (1 / 4, 0, 0), (1, 1, 0)) := by
    unfold tri
    rw [upd_self, upd_ne (by norm_num), upd_ne (by norm_num), p3', p4']
  have hind := start_indexed touching m
  have hit : hits m (pos touching.vertices) 0 (1 / 4, 0, 0) 0 1 = .throws .outOfRange := by
    unfold hits
    rw [if_neg (by norm_num), movedFace_eq, movedFace_eq, f0, f1, ta, tb]
    have hsh : MeshDefects.shared (((1 / 4 : ℝ), (0 : ℝ), (0 : ℝ)), ((-1 : ℝ), (-1 : ℝ), (0 : ℝ)), ((-1 : ℝ), (1 : ℝ), (0 : ℝ)))
        (((1 / 4 : ℝ), (0 : ℝ), (0 : ℝ)), ((1 / 4 : ℝ), (0 : ℝ), (0 : ℝ)), ((1 : ℝ), (1 : ℝ), (0 : ℝ))) = [(0, 0), (0, 1)] := by
      norm_num [MeshDefects.shared, MeshDefects.corner, List.range_succ]
    unfold MeshDefects.trianglesIntersect
    rw [hsh]
    rfl
  have hrej : rejected touching m 0 (1 / 4, 0, 0) [0, 1] (start touching m) = .throws .outOfRange := by
    unfold rejected
    dsimp only
    rw [movedFace_eq, hp, f0, ta, if_neg]
    · obtain ⟨g, e3, -⟩ := hind.forEach (MeshDefects.bboxOf (((1 / 4 : ℝ), (0 : ℝ), (0 : ℝ)), ((-1 : ℝ), (-1 : ℝ), (0 : ℝ)), ((-1 : ℝ), (1 : ℝ), (0 : ℝ))))
        (Thinner.stopAtHit (hits m (pos touching.vertices) 0 (1 / 4, 0, 0) 0)) (.ok false)
      rw [e3]
      simp only [Outcome.ok_bind]
      rw [callUntil_throws _ hit]
      · rfl
      · refine hind.visited hI.resolution (by omega) ?_
        rw [hp, f1]
        unfold tri
        rw [p0', p3', p4']
        norm_num [SpatialGrid.Spec.Overlap, MeshDefects.bboxOf, MeshDefects.cmin, MeshDefects.cmax]
      · intro i hi hne
        have : i = 0 := by have := hind.visits_lt hi; omega
        subst this
        exact if_pos rfl
    · unfold tri triangleNormal
      rw [p0', p1', p2']
      norm_num [dotP, crossP]
  rw [hrej]
  rfl

end Verif.Refiner
