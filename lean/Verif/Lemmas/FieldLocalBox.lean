import Verif.Lemmas.PipelineCluster
import Verif.Lemmas.PipelineMesh
import Verif.Lemmas.PrimitiveLatticeBox
import Verif.Lemmas.ClustererPlace
import Verif.Props.PrimitiveLattice
import Verif.Spec.Pipeline

/-!
# The vertices stay in the extended box until they are refined
-/

namespace Verif.PrimLattice.Prim

open Verif Verif.Lattice

variable {L : Prim}

/-- Half a cell in any direction is not more than the step to a neighbour. -/
theorem half_steps {a b c u v w : ℝ} (hu : |u| ≤ 0.495) (hv : |v| ≤ 0.495) (hw : |w| ≤ 0.495) :
    least (steps a b c) ≤ u * a + v * b + w * c ∧ u * a + v * b + w * c ≤ greatest (steps a b c) := by
  have key : ∀ a b c u v w : ℝ, |u| ≤ 0.495 → |v| ≤ 0.495 → |w| ≤ 0.495 → ∀ g : ℝ, 0 ≤ g → a ≤ g → b ≤ g → c ≤ g → -a ≤ g → -b ≤ g → -c ≤ g →
      a + b ≤ g → a + c ≤ g → b + c ≤ g → -a - b ≤ g → -a - c ≤ g → -b - c ≤ g → a + b + c ≤ g → -a - b - c ≤ g → u * a + v * b + w * c ≤ g := by
    intro a b c u v w hu hv hw g h0 h1 h2 h3 h4 h5 h6 h7 h8 h9 h10 h11 h12 h13 h14
    have m : ∀ x y : ℝ, |x| ≤ 0.495 → x * y ≤ 0.495 * |y| := fun x y hx => by
      calc x * y ≤ |x * y| := le_abs_self _
        _ = |x| * |y| := abs_mul _ _
        _ ≤ 0.495 * |y| := mul_le_mul_of_nonneg_right hx (abs_nonneg _)
    have hs : |a| + |b| + |c| ≤ 2 * g := by
      rcases abs_cases a with ⟨ea, -⟩ | ⟨ea, -⟩ <;> rcases abs_cases b with ⟨eb, -⟩ | ⟨eb, -⟩ <;> rcases abs_cases c with ⟨ec, -⟩ | ⟨ec, -⟩ <;> rw [ea, eb, ec] <;> linarith
    have := m u a hu
    have := m v b hv
    have := m w c hw
    norm_num at *
    linarith
  have d1 := steps_bound (a := a) (b := b) (c := c) (d := ⟨1, 0, 0⟩) (by decide)
  have d2 := steps_bound (a := a) (b := b) (c := c) (d := ⟨0, 1, 0⟩) (by decide)
  have d3 := steps_bound (a := a) (b := b) (c := c) (d := ⟨0, 0, 1⟩) (by decide)
  have d4 := steps_bound (a := a) (b := b) (c := c) (d := ⟨1, 1, 0⟩) (by decide)
  have d5 := steps_bound (a := a) (b := b) (c := c) (d := ⟨1, 0, 1⟩) (by decide)
  have d6 := steps_bound (a := a) (b := b) (c := c) (d := ⟨0, 1, 1⟩) (by decide)
  have d7 := steps_bound (a := a) (b := b) (c := c) (d := ⟨1, 1, 1⟩) (by decide)
  have e1 := steps_bound (a := a) (b := b) (c := c) (d := ⟨-1, 0, 0⟩) (by decide)
  have e2 := steps_bound (a := a) (b := b) (c := c) (d := ⟨0, -1, 0⟩) (by decide)
  have e3 := steps_bound (a := a) (b := b) (c := c) (d := ⟨0, 0, -1⟩) (by decide)
  have e4 := steps_bound (a := a) (b := b) (c := c) (d := ⟨-1, -1, 0⟩) (by decide)
  have e5 := steps_bound (a := a) (b := b) (c := c) (d := ⟨-1, 0, -1⟩) (by decide)
  have e6 := steps_bound (a := a) (b := b) (c := c) (d := ⟨0, -1, -1⟩) (by decide)
  have e7 := steps_bound (a := a) (b := b) (c := c) (d := ⟨-1, -1, -1⟩) (by decide)
  obtain ⟨s1, s2, -⟩ := steps_sign a b c
  push_cast at d1 d2 d3 d4 d5 d6 d7 e1 e2 e3 e4 e5 e6 e7
  generalize least (steps a b c) = lo at *
  generalize greatest (steps a b c) = hi at *
  constructor
  · have := key (-a) (-b) (-c) u v w hu hv hw (-lo) (by linarith) (by linarith) (by linarith) (by linarith) (by linarith) (by linarith) (by linarith) (by linarith) (by linarith)
      (by linarith) (by linarith) (by linarith) (by linarith) (by linarith) (by linarith)
    linarith
  · exact key a b c u v w hu hv hw hi (by linarith) (by linarith) (by linarith) (by linarith) (by linarith) (by linarith) (by linarith) (by linarith) (by linarith)
      (by linarith) (by linarith) (by linarith) (by linarith) (by linarith) (by linarith)

theorem clamp1_near (u : ℝ) (c : ℤ) : |clamp1 u c - c| ≤ 0.495 := by
  unfold clamp1
  rw [abs_le]
  constructor
  · have : (c : ℝ) - 0.495 ≤ min (max u ((c : ℝ) - 0.495)) ((c : ℝ) + 0.495) := le_min (le_max_right _ _) (by linarith)
    linarith
  · have : min (max u ((c : ℝ) - 0.495)) ((c : ℝ) + 0.495) ≤ (c : ℝ) + 0.495 := min_le_right _ _
    linarith

/-- A place in the cell of a node of the first extended box is in the second one. -/
theorem clamp_inExt {p : P3} {lc : LC} (h : ((L.extLo 1).1 < (L.position lc).1 ∧ (L.position lc).1 < (L.extHi 1).1) ∧
    ((L.extLo 1).2.1 < (L.position lc).2.1 ∧ (L.position lc).2.1 < (L.extHi 1).2.1) ∧ ((L.extLo 1).2.2 < (L.position lc).2.2 ∧ (L.position lc).2.2 < (L.extHi 1).2.2)) :
    L.InExt (L.clampToNode p lc) := by
  obtain ⟨⟨a1, a2⟩, ⟨b1, b2⟩, c1, c2⟩ := h
  have nx := clamp1_near (L.unrounded p).1 lc.x
  have ny := clamp1_near (L.unrounded p).2.1 lc.y
  have nz := clamp1_near (L.unrounded p).2.2 lc.z
  have h0 := half_steps (a := L.b0.1) (b := L.b1.1) (c := L.b2.1) nx ny nz
  have h1 := half_steps (a := L.b0.2.1) (b := L.b1.2.1) (c := L.b2.2.1) nx ny nz
  have h2 := half_steps (a := L.b0.2.2) (b := L.b1.2.2) (c := L.b2.2.2) nx ny nz
  obtain ⟨s0, t0, -⟩ := steps_sign L.b0.1 L.b1.1 L.b2.1
  obtain ⟨s1, t1, -⟩ := steps_sign L.b0.2.1 L.b1.2.1 L.b2.2.1
  obtain ⟨s2, t2, -⟩ := steps_sign L.b0.2.2 L.b1.2.2 L.b2.2.2
  unfold InExt
  rw [(ext0 2).1, (ext0 2).2, (ext1 2).1, (ext1 2).2, (ext2 2).1, (ext2 2).2]
  rw [(ext0 1).1] at a1
  rw [(ext0 1).2] at a2
  rw [(ext1 1).1] at b1
  rw [(ext1 1).2] at b2
  rw [(ext2 1).1] at c1
  rw [(ext2 1).2] at c2
  unfold position at_ Prim.cast at a1 a2 b1 b2 c1 c2
  unfold clampToNode at_
  dsimp only at *
  generalize clamp1 (L.unrounded p).1 lc.x = x at *
  generalize clamp1 (L.unrounded p).2.1 lc.y = y at *
  generalize clamp1 (L.unrounded p).2.2 lc.z = z at *
  norm_num at *
  refine ⟨⟨?_, ?_, ?_⟩, ?_, ?_, ?_⟩ <;> linarith

theorem box_inExt (hb : L.lo.1 ≤ L.hi.1 ∧ L.lo.2.1 ≤ L.hi.2.1 ∧ L.lo.2.2 ≤ L.hi.2.2) : L.InExt L.lo ∧ L.InExt L.hi := by
  obtain ⟨s0, t0, -⟩ := steps_sign L.b0.1 L.b1.1 L.b2.1
  obtain ⟨s1, t1, -⟩ := steps_sign L.b0.2.1 L.b1.2.1 L.b2.2.1
  obtain ⟨s2, t2, -⟩ := steps_sign L.b0.2.2 L.b1.2.2 L.b2.2.2
  unfold InExt
  rw [(ext0 2).1, (ext0 2).2, (ext1 2).1, (ext1 2).2, (ext2 2).1, (ext2 2).2]
  push_cast
  refine ⟨⟨⟨?_, ?_, ?_⟩, ?_, ?_, ?_⟩, ⟨?_, ?_, ?_⟩, ?_, ?_, ?_⟩ <;> linarith

/-- Snapping a place to the box leaves it in the extended box. -/
theorem snapped_inExt (hb : L.lo.1 ≤ L.hi.1 ∧ L.lo.2.1 ≤ L.hi.2.1 ∧ L.lo.2.2 ≤ L.hi.2.2) {p q : P3} (h : L.InExt p) (h0 : q.1 = p.1 ∨ q.1 = L.lo.1 ∨ q.1 = L.hi.1)
    (h1 : q.2.1 = p.2.1 ∨ q.2.1 = L.lo.2.1 ∨ q.2.1 = L.hi.2.1) (h2 : q.2.2 = p.2.2 ∨ q.2.2 = L.lo.2.2 ∨ q.2.2 = L.hi.2.2) : L.InExt q := by
  obtain ⟨⟨⟨l1, l2, l3⟩, l4, l5, l6⟩, ⟨u1, u2, u3⟩, u4, u5, u6⟩ := box_inExt hb
  obtain ⟨⟨p1, p2, p3⟩, p4, p5, p6⟩ := h
  refine ⟨⟨?_, ?_, ?_⟩, ?_, ?_, ?_⟩
  · rcases h0 with h | h | h <;> rw [h] <;> assumption
  · rcases h1 with h | h | h <;> rw [h] <;> assumption
  · rcases h2 with h | h | h <;> rw [h] <;> assumption
  · rcases h0 with h | h | h <;> rw [h] <;> assumption
  · rcases h1 with h | h | h <;> rw [h] <;> assumption
  · rcases h2 with h | h | h <;> rw [h] <;> assumption

theorem snap1_cases (tiny lo hi x : ℝ) : snap1 tiny lo hi x = x ∨ snap1 tiny lo hi x = lo ∨ snap1 tiny lo hi x = hi := by
  unfold snap1
  dsimp only
  split <;> split <;> simp

/-- A vertex of the raw mesh is in the extended box. -/
theorem vertex_inExt (hb : L.lo.1 ≤ L.hi.1 ∧ L.lo.2.1 ≤ L.hi.2.1 ∧ L.lo.2.2 ≤ L.hi.2.2) {lc : LC} {e : Nat} (h0 : L.InExt (L.position lc))
    (h1 : L.InExt (L.position (neighbor lc e))) (t res : ℝ) : L.InExt (L.snapToBox res (L.vertexPos lc e t)) := by
  refine snapped_inExt hb (p := L.vertexPos lc e t) ?_ (snap1_cases ..) (snap1_cases ..) (snap1_cases ..)
  have c0 : (0 : ℝ) ≤ max 1e-4 (min t (1 - 1e-4)) := le_trans (by norm_num) (le_max_left _ _)
  have c1 : max 1e-4 (min t (1 - 1e-4)) ≤ (1 : ℝ) := max_le (by norm_num) (le_trans (min_le_right _ _) (by norm_num))
  unfold vertexPos
  dsimp only
  generalize max (1e-4 : ℝ) (min t (1 - 1e-4)) = s at *
  have lo : ∀ {a x y : ℝ}, a ≤ x → a ≤ y → a ≤ x + s * (y - x) := fun hx hy => by nlinarith
  have hi : ∀ {a x y : ℝ}, x ≤ a → y ≤ a → x + s * (y - x) ≤ a := fun hx hy => by nlinarith
  obtain ⟨⟨p1, p2, p3⟩, p4, p5, p6⟩ := h0
  obtain ⟨⟨q1, q2, q3⟩, q4, q5, q6⟩ := h1
  exact ⟨⟨lo p1 q1, lo p2 q2, lo p3 q3⟩, hi p4 q4, hi p5 q5, hi p6 q6⟩

end Verif.PrimLattice.Prim

namespace Verif.Clusterer

open Verif Verif.AbstractMesh
open Verif.Clusterer.Spec
open Verif.Predicates (P3)
open Verif.MeshDefects.Spec (Incident)

variable {I : Input}

theorem snapsTo_cases {tiny lo hi x y : ℝ} (h : Refiner.Spec.SnapsTo tiny lo hi x y) : y = x ∨ y = lo ∨ y = hi := h.2.2.2

/-- If all vertices of faces are in the extended box, then so are all vertices of the clustered mesh. -/
theorem cluster_inExt (hb : I.L.lo.1 ≤ I.L.hi.1 ∧ I.L.lo.2.1 ≤ I.L.hi.2.1 ∧ I.L.lo.2.2 ≤ I.L.hi.2.2)
    (hr : ∀ f ∈ I.faces, f.1 < I.vertices.length ∧ f.2.1 < I.vertices.length ∧ f.2.2 < I.vertices.length) (hv : ∀ p ∈ I.vertices, I.L.InExt p) {out : Out}
    (e : clusterVertices I = .ok out) : ∀ p ∈ out.vertices, I.L.InExt p := by
  obtain ⟨vf, e0, -⟩ := MeshDefects.fillVf_spec I.vertices.length I.faces 0 (fun _ => []) hr
  obtain ⟨sets, gs, e1, e2, hg⟩ := components_spec hr
  have hc := clusters_spec (vf := vf) hg
  unfold clusterVertices at e
  rw [e0, Outcome.ok_bind, e1, Outcome.ok_bind, e2, Outcome.ok_bind] at e
  dsimp only at e
  obtain ⟨s', num, hq⟩ := loop_partial hr hc _ _ _ (start_inv hc.disjoint) e
  intro p hp
  obtain ⟨n, hn, rfl⟩ := List.mem_iff_getElem.1 hp
  have hpos : Spec.pos out.vertices n = out.vertices[n] := by
    unfold Spec.pos
    rw [List.getD_eq_getElem?_getD, List.getElem?_eq_getElem hn, Option.getD_some]
  obtain ⟨v, hiv, rfl⟩ := hq.numbering.onto n hn
  rw [← hpos]
  by_cases hk : ∃ c, Kept (makeClusters I vf gs) s' c ∧ v ∈ c
  · obtain ⟨c, k, hm⟩ := hk
    rw [hq.numbering.merged c v k hm]
    have hcand := k.candidate hc
    have hin := hcand.inside _ hcand.head
    obtain ⟨q1, q2, q3⟩ := snapped_spec I (quadricPosition I (c.map (vrow I)) (((c.flatMap vf).dedup).map (tri I)) (node I (c.headD 0)))
    refine PrimLattice.Prim.snapped_inExt hb (PrimLattice.Prim.clamp_inExt hin) (snapsTo_cases q1) (snapsTo_cases q2) (snapsTo_cases q3)
  · rw [hq.numbering.kept v hiv (fun c k hm => hk ⟨c, k, hm⟩)]
    obtain ⟨f, hf, hfv⟩ := hiv
    have hlt : v < I.vertices.length := by
      obtain ⟨a, b, c⟩ := hr f hf
      rcases hfv with rfl | rfl | rfl <;> assumption
    refine hv _ ?_
    unfold Spec.pos
    rw [List.getD_eq_getElem?_getD, List.getElem?_eq_getElem hlt, Option.getD_some]
    exact List.getElem_mem hlt

end Verif.Clusterer

namespace Verif.Refiner

open Verif Verif.AbstractMesh Verif.SpatialGrid
open Verif.Predicates (P3)

theorem unindexAll_congr {I J : Input} (h : I.resolution = J.resolution) : ∀ (l : List Nat) (g : FaceGrid ℝ), unindexAll I l g = unindexAll J l g
  | [], _ => rfl
  | fi :: l, g => by
    have e : cellOf I = cellOf J := by unfold cellOf; rw [h]
    unfold unindexAll
    rw [e]
    simp only [unindexAll_congr h l]

theorem rejected_congr {I J : Input} (h : I.resolution = J.resolution) (m : Mesh) (vi : Nat) (q : P3) : ∀ (l : List Nat) (s : State), rejected I m vi q l s = rejected J m vi q l s
  | [], _ => rfl
  | fi :: l, s => by
    have e : cellOf I = cellOf J := by unfold cellOf; rw [h]
    unfold rejected
    rw [e]
    simp only [rejected_congr h m vi q l]

/-- The result depends on the field by its values at the sampled points only. -/
theorem refine_congr (I : Input) (f g : List P3 → List ℝ) (h : f (samples I) = g (samples I)) :
    refineVertices { I with field := f } = refineVertices { I with field := g } := by
  have e0 : ∀ f, samples { I with field := f } = samples I := fun _ => rfl
  have e1 : project { I with field := f } = project { I with field := g } := by
    unfold project
    dsimp only
    rw [e0, e0, h]
    rfl
  have e2 : ∀ m s x, tryMove { I with field := f } m s x = tryMove { I with field := g } m s x := by
    intro m s x
    unfold tryMove
    have : ∀ q s, commit { I with field := f } m x.1 q s = commit { I with field := g } m x.1 q s := by
      intro q s
      unfold commit
      rw [unindexAll_congr (I := { I with field := f }) (J := { I with field := g }) rfl]
      rfl
    simp only [rejected_congr (I := { I with field := f }) (J := { I with field := g }) rfl, this]
    rfl
  have e3 : ∀ m xs s, tryAll { I with field := f } m xs s = tryAll { I with field := g } m xs s := by
    intro m xs
    induction xs with
    | nil => intro s; rfl
    | cons x xs ih => intro s; unfold tryAll; rw [e2]; simp only [ih]
  unfold refineVertices
  simp only [e1, e3]
  rfl

end Verif.Refiner
