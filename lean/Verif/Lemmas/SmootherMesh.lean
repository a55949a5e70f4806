import Verif.Lemmas.SmootherQueue

/-! # Lemmas: the whole of smoothing -/

namespace Verif.Smoother

open Verif Verif.AbstractMesh Verif.Thinner Verif.Thinner.Spec Verif.Smoother.Spec
open Verif.Predicates (P3)

variable {I : Input}

theorem flipped_some {F F' : Nat → Option AbstractMesh.Face} {fi fj x y c d : Nat} (h : Flipped I F F' fi fj x y c d) (i : Nat) :
    (F' i).isSome = (F i).isSome := by
  by_cases h1 : i = fi
  · obtain ⟨f, hf, -⟩ := h.left
    rw [h1, hf, h.left']; rfl
  · by_cases h2 : i = fj
    · obtain ⟨f, hf, -⟩ := h.right
      rw [h2, hf, h.right']; rfl
    · rw [h.others i h1 h2]

theorem flips_some {n : Nat} {F F' : Nat → Option AbstractMesh.Face} (h : Flips I n F F') (i : Nat) : (F' i).isSome = (F i).isSome := by
  induction h with
  | refl => rfl
  | step _ hc ih => rw [flipped_some hc, ih]

theorem flips_bend {n : Nat} {F F' : Nat → Option AbstractMesh.Face} (h : Flips I n F F') : totalBend I F' ≤ totalBend I F - n * (1 / 1000000) ∧
    (n ≠ 0 → totalBend I F' < totalBend I F - n * (1 / 1000000)) := by
  induction h with
  | refl => simp
  | step _ hc ih =>
      have := hc.flatter
      push_cast
      constructor
      · linarith [ih.1]
      · intro _
        linarith [ih.1]

theorem flips_honored {n : Nat} {F F' : Nat → Option AbstractMesh.Face} (h : Flips I n F F') {i : Nat} {q : P3} {tol : ℝ} (hq : I.points[i]? = some q)
    (ht : HasTolerance I i tol) (h0 : ∃ j f, F j = some f ∧ Honors I.T (tri I.vertices f) q tol) :
    ∃ j f, F' j = some f ∧ Honors I.T (tri I.vertices f) q tol := by
  induction h with
  | refl => exact h0
  | step _ hc ih => exact hc.honored i q tol hq ht (ih h0)

theorem Flipped.quad {F F' : Nat → Option AbstractMesh.Face} {fi fj x y c d : Nat} (h : Flipped I F F' fi fj x y c d) (hM : Manifold F)
    (hn : ∀ i f, F i = some f → Nondeg f) : Quad F F' fi fj x y c d :=
  ⟨h.left, h.right, h.left', h.right', h.others, h.fresh.1, h.fresh.2, hn, hM, h.manifold⟩

theorem flips_boundary {n : Nat} {F F' : Nat → Option AbstractMesh.Face} (h : Flips I n F F') (hM : Manifold F) (hn : ∀ i f, F i = some f → InRange I f) :
    Manifold F' ∧ (∀ i f, F' i = some f → InRange I f) ∧ ∀ u v, BoundaryEdge F' u v ↔ BoundaryEdge F u v := by
  induction h with
  | refl => exact ⟨hM, hn, fun _ _ => Iff.rfl⟩
  | @step n F G H fi fj x y c d _ hc ih =>
      obtain ⟨i1, i2, i3⟩ := ih hM hn
      have Q := Flipped.quad hc i1 (fun i f hf => (i2 i f hf).1)
      refine ⟨hc.manifold, ?_, fun u v => (Q.boundary u v).trans (i3 u v)⟩
      obtain ⟨n1, n2, n3, n4, n5, n6⟩ := Q.ne
      have n7 := Q.cd
      obtain ⟨f, f1, f2, f3, f4⟩ := Q.left
      obtain ⟨g, g1, g2, g3, g4⟩ := Q.right
      have lt : ∀ {i f v}, G i = some f → Corner f v → v < I.vertices.length := by
        intro i f v hf hv
        obtain ⟨-, r1, r2, r3⟩ := i2 i f hf
        rcases hv with e | e | e <;> omega
      have l1 := lt f1 (side_corner f2).1
      have l2 := lt f1 (side_corner f2).2
      have l3 := lt f1 (side_corner f3).2
      have l4 := lt g1 (side_corner g3).2
      intro i k hk
      by_cases h1 : i = fi
      · rw [h1, hc.left'] at hk; cases hk; exact ⟨⟨n3, n4, n7.symm⟩, l3, l1, l4⟩
      · by_cases h2 : i = fj
        · rw [h2, hc.right'] at hk; cases hk; exact ⟨⟨n5, n2, n7⟩, l4, l2, l3⟩
        · rw [hc.others i h1 h2] at hk; exact i2 i k hk

theorem smooth_core (hI : Valid I) {pop : Pop} (hpop : IsPop pop) {fuel : Nat}
    (hfuel : 3 * I.faces.length + 25 * (50 * max I.faces.length 1 + 1) < fuel) :
    ∃ fs n, smoothSnappedMesh I pop fuel = some (.ok (I.vertices, fs)) ∧ fs.length = I.faces.length ∧
      Flips I n (fun i => I.faces[i]?) (fun i => fs[i]?) ∧ n ≤ 50 * max I.faces.length 1 + 1 ∧
      (n ≤ 50 * max I.faces.length 1 → ∀ fi fj x y c d, x < y → Between (fun i => fs[i]?) fi fj x y c d →
        Settled I (fun i => I.faces[i]?) (fun i => fs[i]?) fi fj x y c d) := by
  obtain ⟨s0, e0, i0, n0, f0⟩ := start_spec hI
  have hF0 : faceAt s0.mesh = fun i => I.faces[i]? := funext f0
  unfold smoothSnappedMesh
  rw [e0]
  dsimp only
  have hhe := (C35_halfedges i0.reach).2
  obtain ⟨q, a1, a2, -, a4⟩ := enqueueAll_spec hI i0.reach i0.range s0.mesh.halfedges (fun h hh => (hhe h).1 hh) []
  rw [a1]
  dsimp only
  have hlen : s0.mesh.halfedges.length ≤ 3 * I.faces.length := by
    unfold Mesh.halfedges
    rw [List.length_flatMap]
    have : ∀ l : List Nat, (l.map fun fi => [4 * fi, 4 * fi + 1, 4 * fi + 2].length).sum = 3 * l.length := by
      intro l
      induction l with
      | nil => rfl
      | cons x l ih =>
          rw [List.map_cons, List.sum_cons, ih, List.length_cons]
          simp only [List.length_cons, List.length_nil]
          omega
    rw [this]
    have hl := List.length_filter_le (fun fi => !s0.mesh.deleted fi) (List.range s0.mesh.nf)
    rw [List.length_range] at hl
    exact (Nat.mul_le_mul_left 3 hl).trans (by rw [n0])
  have hcap : cap s0.mesh = 50 * max I.faces.length 1 := by unfold cap; rw [n0]
  rw [List.length_nil] at a2
  obtain ⟨s1, n, b1, b2, b3, b4, b5, b6⟩ := loop_spec hI hpop fuel s0 q 0 i0 (.refl _) (by omega) (by
    intro fi fj x y c d hlt hB
    obtain ⟨f, f1, f2, -⟩ := hB.1
    obtain ⟨h, H, -⟩ := side_he f1 f2
    rcases a4 h ((hhe h).2 ⟨x, y, H⟩) x y H hlt with h' | h'
    · exact Or.inl h'
    · exact Or.inr ⟨0, 0, _, .refl _, .refl _, SameAround.refl _ _ _ _ _ _ _, h' fi fj c d⟩) (by rw [hcap]; omega)
  rw [b1]
  dsimp only
  have hsome : ∀ i, i < I.faces.length → ∃ f, faceAt s1.mesh i = some f := by
    intro i hi
    have := flips_some b4 i
    rw [hF0] at this
    dsimp only at this
    rw [List.getElem?_eq_getElem hi] at this
    exact Option.isSome_iff_exists.1 this
  have htake : s1.mesh.takeFaces.length = I.faces.length ∧ (fun i => s1.mesh.takeFaces[i]?) = faceAt s1.mesh := by
    rw [C35_take_faces b2.reach, b3, n0]
    have hall : (List.range I.faces.length).filterMap (faceAt s1.mesh) = (List.range I.faces.length).map fun i => s1.mesh.face i := by
      rw [← List.filterMap_eq_map]
      refine List.filterMap_congr fun i hi => ?_
      obtain ⟨f, hf⟩ := hsome i (List.mem_range.1 hi)
      rw [hf, ← live_face hf]
      rfl
    rw [hall]
    refine ⟨by simp, funext fun i => ?_⟩
    by_cases hi : i < I.faces.length
    · obtain ⟨f, hf⟩ := hsome i hi
      rw [List.getElem?_map, List.getElem?_range hi, hf, ← live_face hf]
      rfl
    · rw [List.getElem?_eq_none (by simpa using hi)]
      cases hf : faceAt s1.mesh i with
      | none => rfl
      | some f =>
          have := (faceAt_eq_some.1 hf).1.1
          omega
  refine ⟨_, n, rfl, htake.1, ?_, by omega, ?_⟩
  · rw [htake.2, ← hF0]; exact b4
  · rw [htake.2, ← hF0]
    intro hn
    exact b6 (by omega)

end Verif.Smoother
