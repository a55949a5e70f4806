import Verif.Lemmas.PipelineOpen
import Verif.Lemmas.Thinner
import Mathlib.Tactic.FieldSimp
import Mathlib.Tactic.Linarith

/-!
# Refining moves no vertex by more than the margin around the box
-/

namespace Verif.Pipeline

open Verif Verif.Lattice Verif.Iso
open Verif.AbstractMesh (Nondeg Manifold)
open Verif.PrimLattice (Prim)
open Verif.PrimLattice.Prim (least greatest steps steps_bound latticeBasis invMul)
open Verif.Predicates (P3)
open Verif.Thinner (toE)
open Verif.Snapper.Spec (sides net)

/-- One coordinate `c · v` of a vector that is `v` in the transformed frame, and not longer than half the resolution there. -/
theorem axis_small {res c1 c2 c3 v1 v2 v3 G : ℝ} (hres : 0 < res) (hv : v1 * v1 + v2 * v2 + v3 * v3 ≤ (res / 2) ^ 2)
    (h1 : 2 * 0.5773502691896258 * |res * c1| ≤ G) (h2 : 0.816496580927726 * |res * c2| ≤ G) (h3 : 0.816496580927726 * |res * c3| ≤ G) :
    |c1 * v1 + c2 * v2 + c3 * v3| ≤ 1.01 * G := by
  have hG : 0 ≤ G := le_trans (by positivity) h1
  have q1 : (res * c1) ^ 2 ≤ 0.76 * G ^ 2 := by
    rw [← sq_abs]
    have h0 := abs_nonneg (res * c1)
    generalize |res * c1| = y at *
    have : y ≤ 0.87 * G := by linarith
    nlinarith
  have q2 : ∀ {y : ℝ}, 0.816496580927726 * |y| ≤ G → y ^ 2 ≤ 1.51 * G ^ 2 := by
    intro y h
    rw [← sq_abs]
    have h0 := abs_nonneg y
    generalize |y| = y at *
    have : y ≤ 1.225 * G := by linarith
    nlinarith
  have q3 := q2 h3
  have q2 := q2 h2
  have cs : (c1 * v1 + c2 * v2 + c3 * v3) ^ 2 ≤ (c1 ^ 2 + c2 ^ 2 + c3 ^ 2) * (v1 * v1 + v2 * v2 + v3 * v3) := by
    nlinarith [sq_nonneg (c1 * v2 - c2 * v1), sq_nonneg (c1 * v3 - c3 * v1), sq_nonneg (c2 * v3 - c3 * v2)]
  have hc : 0 ≤ c1 ^ 2 + c2 ^ 2 + c3 ^ 2 := by positivity
  have e1 : (c1 ^ 2 + c2 ^ 2 + c3 ^ 2) * (v1 * v1 + v2 * v2 + v3 * v3) ≤ (c1 ^ 2 + c2 ^ 2 + c3 ^ 2) * (res / 2) ^ 2 := mul_le_mul_of_nonneg_left hv hc
  have e2 : (c1 ^ 2 + c2 ^ 2 + c3 ^ 2) * (res / 2) ^ 2 = ((res * c1) ^ 2 + (res * c2) ^ 2 + (res * c3) ^ 2) / 4 := by ring
  have e3 : (c1 * v1 + c2 * v2 + c3 * v3) ^ 2 ≤ (1.01 * G) ^ 2 := by nlinarith
  exact abs_le_of_sq_le_sq e3 (by positivity)

/-- The margin, for a coordinate `c` of the vectors of the lattice. -/
theorem margin {res c1 c2 c3 a b c : ℝ} (ha : a = res * 0.5773502691896258 * c1 + res * 0.816496580927726 * c2 + res * 0 * c3)
    (hb : b = res * -0.5773502691896258 * c1 + res * 0 * c2 + res * 0.816496580927726 * c3) (hc : c = res * 0.5773502691896258 * c1 + res * -0.816496580927726 * c2 + res * 0 * c3)
    {G : ℝ} (hG : ∀ d ∈ deltas, (d.x : ℝ) * a + (d.y : ℝ) * b + (d.z : ℝ) * c ≤ G) :
    2 * 0.5773502691896258 * |res * c1| ≤ G ∧ 0.816496580927726 * |res * c2| ≤ G ∧ 0.816496580927726 * |res * c3| ≤ G := by
  have g1 := hG ⟨1, 0, 0⟩ (by decide)
  have g2 := hG ⟨-1, 0, 0⟩ (by decide)
  have g3 := hG ⟨0, 1, 0⟩ (by decide)
  have g4 := hG ⟨0, -1, 0⟩ (by decide)
  have g5 := hG ⟨0, 0, 1⟩ (by decide)
  have g6 := hG ⟨0, 0, -1⟩ (by decide)
  have g7 := hG ⟨1, 1, 1⟩ (by decide)
  have g8 := hG ⟨-1, -1, -1⟩ (by decide)
  have g9 := hG ⟨1, 0, 1⟩ (by decide)
  have g10 := hG ⟨-1, 0, -1⟩ (by decide)
  push_cast at *
  subst ha hb hc
  have k1 : ∀ {x k : ℝ}, 0 ≤ k → k * x ≤ G → -(k * x) ≤ G → k * |x| ≤ G := by
    intro x k hk h1 h2
    rcases abs_cases x with ⟨e, -⟩ | ⟨e, -⟩ <;> rw [e] <;> linarith
  refine ⟨k1 (by norm_num) ?_ ?_, k1 (by norm_num) ?_ ?_, k1 (by norm_num) ?_ ?_⟩ <;> linarith

theorem invMul_apply {a0 a1 a2 : P3} (h : PrimLattice.dot a0 (PrimLattice.cross a1 a2) ≠ 0) (d : P3) :
    invMul a0 a1 a2 (PrimLattice.dot a0 d, PrimLattice.dot a1 d, PrimLattice.dot a2 d) = d := by
  unfold invMul
  dsimp only
  refine Prod.ext ?_ (Prod.ext ?_ ?_) <;> dsimp only <;> rw [div_eq_iff h] <;> unfold PrimLattice.dot PrimLattice.cross <;> dsimp only <;> ring

/-- A coordinate is not changed by more than the margin. -/
theorem steady {E : Env} {a0 a1 a2 : P3} (hE : E.Proper) (hm : E.Made a0 a1 a2) {d : P3} (hd : ‖toE (E.T d)‖ ≤ E.resolution / 2) :
    (|d.1| ≤ E.L.lo.1 - (E.L.extLo 1).1 ∧ |d.1| ≤ (E.L.extHi 1).1 - E.L.hi.1) ∧
    (|d.2.1| ≤ E.L.lo.2.1 - (E.L.extLo 1).2.1 ∧ |d.2.1| ≤ (E.L.extHi 1).2.1 - E.L.hi.2.1) ∧
    (|d.2.2| ≤ E.L.lo.2.2 - (E.L.extLo 1).2.2 ∧ |d.2.2| ≤ (E.L.extHi 1).2.2 - E.L.hi.2.2) := by
  have hsq : ‖toE (E.T d)‖ ^ 2 ≤ (E.resolution / 2) ^ 2 := pow_le_pow_left₀ (norm_nonneg _) hd 2
  rw [Thinner.norm_toE_sq, hm.transform] at hsq
  have hdet := hm.positive.ne'
  have hd := invMul_apply hdet d
  have hres := hE.resolution
  have e0 : E.L.b0 = invMul a0 a1 a2 (E.resolution * latticeBasis.1.1, E.resolution * latticeBasis.1.2.1, E.resolution * latticeBasis.1.2.2) := by
    have := congrArg Prim.b0 hm.lattice; exact this
  have e1 : E.L.b1 = invMul a0 a1 a2 (E.resolution * latticeBasis.2.1.1, E.resolution * latticeBasis.2.1.2.1, E.resolution * latticeBasis.2.1.2.2) := by
    have := congrArg Prim.b1 hm.lattice; exact this
  have e2 : E.L.b2 = invMul a0 a1 a2 (E.resolution * latticeBasis.2.2.1, E.resolution * latticeBasis.2.2.2.1, E.resolution * latticeBasis.2.2.2.2) := by
    have := congrArg Prim.b2 hm.lattice; exact this
  generalize hv0 : PrimLattice.dot a0 d = v0 at hsq hd
  generalize hv1 : PrimLattice.dot a1 d = v1 at hsq hd
  generalize hv2 : PrimLattice.dot a2 d = v2 at hsq hd
  have hsq : v0 * v0 + v1 * v1 + v2 * v2 ≤ (E.resolution / 2) ^ 2 := hsq
  have key : ∀ {x y z a b c t : ℝ}, a = E.resolution * 0.5773502691896258 * x + E.resolution * 0.816496580927726 * y + E.resolution * 0 * z →
      b = E.resolution * -0.5773502691896258 * x + E.resolution * 0 * y + E.resolution * 0.816496580927726 * z →
      c = E.resolution * 0.5773502691896258 * x + E.resolution * -0.816496580927726 * y + E.resolution * 0 * z →
      t = x * v0 + y * v1 + z * v2 → |t| ≤ -((1 : ℕ) * 1.01 * least (steps a b c)) ∧ |t| ≤ (1 : ℕ) * 1.01 * greatest (steps a b c) := by
    intro x y z a b c t ha hb hc ht
    subst ht
    constructor
    · obtain ⟨m1, m2, m3⟩ := margin ha hb hc (G := -least (steps a b c)) (by
        intro d hd
        have hneg : (⟨-d.x, -d.y, -d.z⟩ : LC) ∈ deltas := by
          revert d; decide
        have := (steps_bound (a := a) (b := b) (c := c) hneg).1
        push_cast at this
        linarith)
      have := axis_small hres hsq m1 m2 m3
      push_cast
      linarith
    · obtain ⟨m1, m2, m3⟩ := margin ha hb hc (G := greatest (steps a b c)) fun d hd => (steps_bound hd).2
      have := axis_small hres hsq m1 m2 m3
      push_cast
      linarith
  have fin : ∀ {lo ex hi eh t l g : ℝ}, ex = lo + l → eh = hi + g → |t| ≤ -l ∧ |t| ≤ g → |t| ≤ lo - ex ∧ |t| ≤ eh - hi := by
    intro lo ex hi eh t l g h1 h2 h3
    exact ⟨by linarith [h3.1], by linarith [h3.2]⟩
  unfold invMul at e0 e1 e2 hd
  dsimp only at e0 e1 e2 hd
  generalize PrimLattice.cross a1 a2 = X at *
  generalize PrimLattice.cross a2 a0 = Y at *
  generalize PrimLattice.cross a0 a1 = Z at *
  generalize PrimLattice.dot a0 X = D at *
  refine ⟨?_, ?_, ?_⟩
  · refine fin rfl rfl (key (x := X.1 / D) (y := Y.1 / D) (z := Z.1 / D) ?_ ?_ ?_ ?_)
    · rw [e0]; simp only [latticeBasis]; ring
    · rw [e1]; simp only [latticeBasis]; ring
    · rw [e2]; simp only [latticeBasis]; ring
    · rw [← hd]; dsimp only; ring
  · refine fin rfl rfl (key (x := X.2.1 / D) (y := Y.2.1 / D) (z := Z.2.1 / D) ?_ ?_ ?_ ?_)
    · rw [e0]; simp only [latticeBasis]; ring
    · rw [e1]; simp only [latticeBasis]; ring
    · rw [e2]; simp only [latticeBasis]; ring
    · rw [← hd]; dsimp only; ring
  · refine fin rfl rfl (key (x := X.2.2 / D) (y := Y.2.2 / D) (z := Z.2.2 / D) ?_ ?_ ?_ ?_)
    · rw [e0]; simp only [latticeBasis]; ring
    · rw [e1]; simp only [latticeBasis]; ring
    · rw [e2]; simp only [latticeBasis]; ring
    · rw [← hd]; dsimp only; ring

end Verif.Pipeline
