import Verif.Props.FmmBoxMesh
import Verif.Props.FieldLocalExamples
import Verif.Props.Interpolant

/-!
# C75: examples, and samples that leave the cube
-/

namespace Verif.FmmBox

open Verif Verif.Bbox Verif.Lattice
open Verif.PrimLattice (Prim dot cross)
open Verif.PrimLattice.Prim
open Verif.Predicates (P3)
open Verif.Pipeline (Env Near unitEnv)

/-! ## An interpolant with bounding boxes -/

open Interpolant RbfModel in
/-- the interpolant of `Props/Interpolant.lean` with bounding boxes on the line; the points are one and others, which are at zero -/
noncomputable def boxEnv : Interpolant.Env (Box 1) :=
  ⟨1, Bbox.empty, fun ps => Bbox.fromPoints (rows (ps.map fun q _ => if q = [one] then 1 else 0)), Box.hull, fun e p _ => e.weights.take p.length⟩

theorem boxEnv_boxes : Boxes boxEnv (fun q _ => if q = [RbfModel.one] then 1 else 0) := ⟨rfl, fun _ => rfl, rfl⟩

open Interpolant RbfModel in
/-- a fit to two points -/
noncomputable def boxOps : List (Op (Box 1)) := [.fit (.given [[zero], [one]]) (.given []) [one, one] one one 5 one one .null exOk]

open Interpolant RbfModel in
/-- Evaluating after the fit, at a center and at another point, uses a tree with these inside. -/
example : ∃ s' r e, step boxEnv (run boxEnv (new boxEnv exModel) boxOps).1 (.evaluate [[zero], [inf]] [] one one) = (s', .ok r) ∧ s'.evaluator = some e ∧
    e.centers = [[zero], [one]] ∧ (makeBox !![(3 : ℝ)] e.bbox).Inside (Matrix.mulVec !![3] fun _ => 1) := by
  obtain ⟨s', r, h⟩ : ∃ s' r, step boxEnv (run boxEnv (new boxEnv exModel) boxOps).1 (.evaluate [[zero], [inf]] [] one one) = (s', .ok r) := ⟨_, _, rfl⟩
  obtain ⟨e, h1, -, h2, -, h3⟩ := C75_interpolant (by omega) boxEnv_boxes exModel boxOps _ _ _ _ _ s' r rfl h
  have hc : e.centers = [[zero], [one]] := h2
  refine ⟨s', r, e, h, h1, hc, ?_⟩
  have := h3 !![3] [one] (by rw [hc]; simp)
  simpa using this

/-- Without anisotropy, even a box without volume is wide enough once it is extended. -/
example : Thick { unitEnv 0 with L := Prim.make (1, 2, 3) (1, 2, 3) (1 / 7) (1, 0, 0) (0, 1, 0) (0, 0, 1), resolution := 1 / 7 } :=
  C75_thick _ (by norm_num) ⟨le_refl _, le_refl _, le_refl _⟩ (1, 0, 0) (0, 1, 0) (0, 0, 1) (by norm_num [dot, cross]) rfl (by norm_num) (by norm_num) (by norm_num)

/-! ## Samples outside of the cube -/

/-- the anisotropy that stretches the first direction a thousand times, and a mesh generator with it -/
noncomputable def thinEnv : Env :=
  { unitEnv 0 with L := Prim.make (0, 0, 0) (0.001, 1, 1) 1 (1000, 0, 0) (0, 1, 0) (0, 0, 1), resolution := 1, T := fun p => (1000 * p.1, p.2.1, p.2.2) }

theorem thin_ext : (thinEnv.L.extLo 2) = (-(2.02 * 1.1547005383792516 / 1000), -(2.02 * 0.816496580927726), -(2.02 * 0.816496580927726)) ∧
    (thinEnv.L.extHi 2) = (0.001 + 2.02 * 1.1547005383792516 / 1000, 1 + 2.02 * 0.816496580927726, 1 + 2.02 * 0.816496580927726) := by
  have e : thinEnv.L = Prim.make (0, 0, 0) (0.001, 1, 1) 1 (1000, 0, 0) (0, 1, 0) (0, 0, 1) := rfl
  rw [e]
  constructor
  · simp only [Prim.extLo, Prim.least, Prim.step, deltas, Prim.make, invMul, latticeBasis, dot, cross, List.map_cons, List.map_nil, List.tail_cons, List.headD_cons, List.foldl_cons,
      List.foldl_nil]
    norm_num
  · simp only [Prim.extHi, Prim.greatest, Prim.step, deltas, Prim.make, invMul, latticeBasis, dot, cross, List.map_cons, List.map_nil, List.tail_cons, List.headD_cons, List.foldl_cons,
      List.foldl_nil]
    norm_num

/-- **C75, strong anisotropy.** Without the condition on the width of the announced box, samples of the refinement may be outside of the cube: for a
vertex on the border of the announced box of this generator, a sample is. -/
theorem C75_samples_leave (F : Iso.Fld ℝ) : ∃ p, thinEnv.L.InExt p ∧ ∃ q ∈ Refiner.samples (thinEnv.refineInput F ⟨[p], []⟩), Near thinEnv q ∧
    (makeBox !![1000, 0, 0; 0, 1, 0; 0, 0, 1] (finite (row (thinEnv.L.extLo 2)) (row (thinEnv.L.extHi 2)))).Outside (Matrix.mulVec !![1000, 0, 0; 0, 1, 0; 0, 0, 1] (row q)) := by
  obtain ⟨el, eh⟩ := thin_ext
  refine ⟨(0.001 + 2.02 * 1.1547005383792516 / 1000, 0, 0), ?_, (0.001 + 2.02 * 1.1547005383792516 / 1000 + 0.001, 0.001, 0.001), ?_, ?_, ?_⟩
  · unfold InExt
    rw [el, eh]
    norm_num
  · unfold Refiner.samples Refiner.offsets Refiner.delta
    refine List.mem_flatMap.2 ⟨_, List.mem_singleton.2 rfl, List.mem_map.2 ⟨_, List.mem_cons_self, ?_⟩⟩
    show ((1 / 1000 * 1 + _, 1 / 1000 * 1 + _, 1 / 1000 * 1 + _) : P3) = _
    norm_num
  · unfold Near
    rw [el, eh]
    show _ ∧ _
    have : thinEnv.resolution = 1 := rfl
    rw [this]
    norm_num
  · have hle : ∀ j, row (thinEnv.L.extLo 2) j ≤ row (thinEnv.L.extHi 2) j := by
      rw [el, eh]
      intro j
      fin_cases j <;> simp [row] <;> norm_num
    obtain ⟨w, hw, hc, -, -, hk⟩ := makeBox_eq (by omega) !![1000, 0, 0; 0, 1, 0; 0, 0, 1] hle
    refine ⟨w, _, hw, hc, 0, ?_⟩
    have hwb : w ≤ 5.73 := by
      rw [el, eh] at hk
      rcases hk with ⟨k, rfl⟩ | ⟨rfl, -⟩
      · fin_cases k <;> simp [half, row, Fin.sum_univ_three] <;> norm_num
      · norm_num
    have e : (3.8 : ℝ) ≤ |Matrix.mulVec !![1000, 0, 0; 0, 1, 0; 0, 0, 1] (row (0.001 + 2.02 * 1.1547005383792516 / 1000 + 0.001, 0.001, 0.001)) 0 -
        Matrix.mulVec !![1000, 0, 0; 0, 1, 0; 0, 0, 1] (Bbox.center (row (thinEnv.L.extLo 2)) (row (thinEnv.L.extHi 2))) 0| := by
      rw [el, eh]
      refine le_trans ?_ (le_abs_self _)
      simp [row, Bbox.center, Matrix.mulVec, dotProduct, Fin.sum_univ_three]
      norm_num
    linarith

end Verif.FmmBox
