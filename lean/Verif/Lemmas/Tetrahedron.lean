import Verif.Model.Tetrahedron
import Verif.Lemmas.PrimitiveLatticeBox

/-! # Barycentric coordinates in the lattice -/

namespace Verif.PrimLattice

open Verif Verif.Lattice

namespace Prim

variable {L : Prim}

/-- the image of a vector under the basis -/
noncomputable def img (L : Prim) (v : P3) : P3 :=
  (v.1 * L.b0.1 + v.2.1 * L.b1.1 + v.2.2 * L.b2.1, v.1 * L.b0.2.1 + v.2.1 * L.b1.2.1 + v.2.2 * L.b2.2.1,
   v.1 * L.b0.2.2 + v.2.1 * L.b1.2.2 + v.2.2 * L.b2.2.2)

theorem sub_at (u v : P3) : sub3 (L.at_ u) (L.at_ v) = L.img (sub3 u v) := by
  unfold sub3 at_ img
  refine Prod.ext ?_ (Prod.ext ?_ ?_) <;> simp only <;> ring

theorem det_img (x y z : P3) : dot (cross (L.img x) (L.img y)) (L.img z) = L.det * dot (cross x y) z := by
  unfold img det dot cross
  simp only
  ring

theorem volume_at (a b c d : P3) : volume (L.at_ a) (L.at_ b) (L.at_ c) (L.at_ d) = L.det * volume a b c d := by
  unfold volume
  rw [sub_at, sub_at, sub_at, det_img]
  ring

theorem bary_at (h : L.det ≠ 0) (p a b c d : P3) :
    barycentric (L.at_ p) (L.at_ a) (L.at_ b) (L.at_ c) (L.at_ d) = barycentric p a b c d := by
  unfold barycentric
  simp only [volume_at, mul_div_mul_left _ _ h]

/-- the same for coordinates relative to the cell -/
theorem volume_shift (o a b c d : P3) :
    volume (o.1 + a.1, o.2.1 + a.2.1, o.2.2 + a.2.2) (o.1 + b.1, o.2.1 + b.2.1, o.2.2 + b.2.2) (o.1 + c.1, o.2.1 + c.2.1, o.2.2 + c.2.2)
      (o.1 + d.1, o.2.1 + d.2.1, o.2.2 + d.2.2) = volume a b c d := by
  unfold volume sub3 dot cross
  simp only
  ring

/-- the weights and the corners by the rank of the fractional parts -/
def kuhnWeights (f : Nat → ℝ) : Nat × Nat × Nat → Rows ℝ
  | (2, 1, 0) => ⟨1 - f 0, f 0 - f 1, f 1 - f 2, f 2⟩
  | (2, 0, 1) => ⟨1 - f 1, f 0 - f 2, f 1 - f 0, f 2⟩
  | (0, 2, 1) => ⟨1 - f 1, f 1 - f 2, f 2 - f 0, f 0⟩
  | (0, 1, 2) => ⟨1 - f 2, f 1 - f 0, f 2 - f 1, f 0⟩
  | (1, 0, 2) => ⟨1 - f 2, f 2 - f 0, f 0 - f 1, f 1⟩
  | _ => ⟨1 - f 0, f 2 - f 1, f 0 - f 2, f 1⟩

theorem unrounded_frac (p : P3) : L.unrounded p = ((L.cell p).x + L.frac p 0, (L.cell p).y + L.frac p 1, (L.cell p).z + L.frac p 2) := by
  unfold cell frac
  refine Prod.ext ?_ (Prod.ext ?_ ?_) <;> simp

theorem position_delta (lc : LC) (e : Nat) : L.position (neighbor lc e) =
    L.at_ ((lc.x : ℝ) + ((delta e).x : ℝ), (lc.y : ℝ) + ((delta e).y : ℝ), (lc.z : ℝ) + ((delta e).z : ℝ)) := by
  have hx : (neighbor lc e).x = lc.x + (delta e).x := rfl
  have hy : (neighbor lc e).y = lc.y + (delta e).y := rfl
  have hz : (neighbor lc e).z = lc.z + (delta e).z := rfl
  unfold position Prim.cast
  rw [hx, hy, hz]
  push_cast
  rfl

theorem tet_volume (lc : LC) {rank : Nat × Nat × Nat} (hr : rank ∈ [(0, 1, 2), (0, 2, 1), (1, 0, 2), (1, 2, 0), (2, 0, 1), (2, 1, 0)]) :
    volume (L.position lc) (L.position (neighbor lc (tetSwitch rank).1)) (L.position (neighbor lc (tetSwitch rank).2)) (L.position (neighbor lc 4)) = L.det / 6 := by
  have h0 : L.position lc = L.at_ ((lc.x : ℝ) + 0, (lc.y : ℝ) + 0, (lc.z : ℝ) + 0) := by simp [position, Prim.cast]
  rw [position_delta, position_delta, position_delta, h0, volume_at,
    volume_shift (lc.x, lc.y, lc.z) (0, 0, 0) ((delta (tetSwitch rank).1).x, (delta (tetSwitch rank).1).y, (delta (tetSwitch rank).1).z)
    ((delta (tetSwitch rank).2).x, (delta (tetSwitch rank).2).y, (delta (tetSwitch rank).2).z) ((delta 4).x, (delta 4).y, (delta 4).z)]
  simp only [List.mem_cons, List.not_mem_nil, or_false] at hr
  rcases hr with rfl | rfl | rfl | rfl | rfl | rfl <;> norm_num [tetSwitch, delta, deltas, volume, sub3, dot, cross] <;> ring

theorem weights_eq (h : L.det ≠ 0) (p : P3) {rank : Nat × Nat × Nat} (hr : rank ∈ [(0, 1, 2), (0, 2, 1), (1, 0, 2), (1, 2, 0), (2, 0, 1), (2, 1, 0)]) :
    L.weights p rank = kuhnWeights (L.frac p) rank := by
  unfold weights tetrahedron
  dsimp only
  have hp : p = L.at_ (((L.cell p).x : ℝ) + L.frac p 0, ((L.cell p).y : ℝ) + L.frac p 1, ((L.cell p).z : ℝ) + L.frac p 2) := by
    rw [← unrounded_frac, at_unrounded h]
  have h0 : L.position (L.cell p) = L.at_ (((L.cell p).x : ℝ) + 0, ((L.cell p).y : ℝ) + 0, ((L.cell p).z : ℝ) + 0) := by simp [position, Prim.cast]
  generalize L.cell p = lc at *
  generalize L.frac p = f at *
  rw [position_delta, position_delta, position_delta, h0, hp, bary_at h]
  unfold barycentric
  dsimp only
  have sh := volume_shift ((lc.x : ℝ), (lc.y : ℝ), (lc.z : ℝ))
  simp only at sh
  have s1 := sh (0, 0, 0) ((delta (tetSwitch rank).1).x, (delta (tetSwitch rank).1).y, (delta (tetSwitch rank).1).z)
    ((delta (tetSwitch rank).2).x, (delta (tetSwitch rank).2).y, (delta (tetSwitch rank).2).z) ((delta 4).x, (delta 4).y, (delta 4).z)
  have s2 := sh ((delta (tetSwitch rank).1).x, (delta (tetSwitch rank).1).y, (delta (tetSwitch rank).1).z) ((delta 4).x, (delta 4).y, (delta 4).z)
    ((delta (tetSwitch rank).2).x, (delta (tetSwitch rank).2).y, (delta (tetSwitch rank).2).z) (f 0, f 1, f 2)
  have s3 := sh (0, 0, 0) ((delta (tetSwitch rank).2).x, (delta (tetSwitch rank).2).y, (delta (tetSwitch rank).2).z) ((delta 4).x, (delta 4).y, (delta 4).z)
    (f 0, f 1, f 2)
  have s4 := sh (0, 0, 0) ((delta 4).x, (delta 4).y, (delta 4).z) ((delta (tetSwitch rank).1).x, (delta (tetSwitch rank).1).y, (delta (tetSwitch rank).1).z)
    (f 0, f 1, f 2)
  have s5 := sh (0, 0, 0) ((delta (tetSwitch rank).1).x, (delta (tetSwitch rank).1).y, (delta (tetSwitch rank).1).z)
    ((delta (tetSwitch rank).2).x, (delta (tetSwitch rank).2).y, (delta (tetSwitch rank).2).z) (f 0, f 1, f 2)
  rw [s1, s2, s3, s4, s5]
  clear sh s1 s2 s3 s4 s5
  simp only [List.mem_cons, List.not_mem_nil, or_false] at hr
  rcases hr with rfl | rfl | rfl | rfl | rfl | rfl <;>
    norm_num [tetSwitch, delta, deltas, volume, sub3, dot, cross, kuhnWeights] <;> refine ⟨?_, ?_, ?_, ?_⟩ <;> ring

end Prim

end Verif.PrimLattice
