import Verif.Model.PrimitiveLattice

/-!
# include/polatory/isosurface/rmt/primitive_lattice.hpp: nodes and tetrahedra near a point; lattice.hpp: interpolation
-/

namespace Verif.PrimLattice

open Verif Verif.Lattice

namespace Prim

/-- `primitive_lattice.hpp:19-26` - the rows of `kLatticeBasis` -/
noncomputable def latticeBasis : P3 × P3 × P3 :=
  ((0.5773502691896258, 0.816496580927726, 0), (-0.5773502691896258, 0, 0.816496580927726), (0.5773502691896258, -0.816496580927726, 0))

/-- `aniso.inverse()` applied to a vector, `a0`, `a1` and `a2` the rows of `aniso` -/
noncomputable def invMul (a0 a1 a2 v : P3) : P3 :=
  let d := dot a0 (cross a1 a2)
  let x := cross a1 a2
  let y := cross a2 a0
  let z := cross a0 a1
  ((v.1 * x.1 + v.2.1 * y.1 + v.2.2 * z.1) / d, (v.1 * x.2.1 + v.2.1 * y.2.1 + v.2.2 * z.2.1) / d, (v.1 * x.2.2 + v.2.1 * y.2.2 + v.2.2 * z.2.2) / d)

/-- `primitive_lattice.hpp:30-38` -/
noncomputable def make (lo hi : P3) (res : ℝ) (a0 a1 a2 : P3) : Prim :=
  let row := fun b : P3 => invMul a0 a1 a2 (res * b.1, res * b.2.1, res * b.2.2)
  ⟨lo, hi, row latticeBasis.1, row latticeBasis.2.1, row latticeBasis.2.2⟩

/-- `primitive_lattice.hpp:119-121` -/
noncomputable def rounded (L : Prim) (p : P3) : LC :=
  ⟨roundAway (L.unrounded p).1, roundAway (L.unrounded p).2.1, roundAway (L.unrounded p).2.2⟩

/-- `primitive_lattice.hpp:127`: one coordinate -/
noncomputable def clamp1 (u : ℝ) (c : ℤ) : ℝ := min (max u ((c : ℝ) - 0.495)) ((c : ℝ) + 0.495)

/-- `primitive_lattice.hpp:124-129` -/
noncomputable def clampToNode (L : Prim) (p : P3) (lc : LC) : P3 :=
  L.at_ (clamp1 (L.unrounded p).1 lc.x, clamp1 (L.unrounded p).2.1 lc.y, clamp1 (L.unrounded p).2.2 lc.z)

/-- `primitive_lattice.hpp:134, 136` -/
noncomputable def cell (L : Prim) (p : P3) : LC := ⟨⌊(L.unrounded p).1⌋, ⌊(L.unrounded p).2.1⌋, ⌊(L.unrounded p).2.2⌋⟩

/-- `primitive_lattice.hpp:135` -/
noncomputable def frac (L : Prim) (p : P3) : Nat → ℝ
  | 0 => (L.unrounded p).1 - ⌊(L.unrounded p).1⌋
  | 1 => (L.unrounded p).2.1 - ⌊(L.unrounded p).2.1⌋
  | _ => (L.unrounded p).2.2 - ⌊(L.unrounded p).2.2⌋

/-- `primitive_lattice.hpp:137-138` - what `std::sort` leaves in `rank`: the three coordinates, their fractional parts ascending.  The
order of equal ones is not specified. -/
def Ranked (f : Nat → ℝ) (rank : Nat × Nat × Nat) : Prop :=
  rank ∈ [(0, 1, 2), (0, 2, 1), (1, 0, 2), (1, 2, 0), (2, 0, 1), (2, 1, 0)] ∧ f rank.1 ≤ f rank.2.1 ∧ f rank.2.1 ≤ f rank.2.2

/-- `primitive_lattice.hpp:143-170` - the edges to the second and third corner -/
def tetSwitch : Nat × Nat × Nat → Nat × Nat
  | (2, 1, 0) => (0, 3)
  | (2, 0, 1) => (3, 6)
  | (0, 2, 1) => (6, 5)
  | (0, 1, 2) => (5, 2)
  | (1, 0, 2) => (2, 1)
  | _ => (1, 0)

/-- the four rows of a matrix -/
structure Rows (α : Type) where
  r0 : α
  r1 : α
  r2 : α
  r3 : α

def Rows.toList (r : Rows α) : List α := [r.r0, r.r1, r.r2, r.r3]

/-- `primitive_lattice.hpp:132-173` -/
noncomputable def tetrahedron (L : Prim) (p : P3) (rank : Nat × Nat × Nat) : Rows LC :=
  let lc := L.cell p
  ⟨lc, neighbor lc (tetSwitch rank).1, neighbor lc (tetSwitch rank).2, neighbor lc 4⟩

def sub3 (a b : P3) : P3 := (a.1 - b.1, a.2.1 - b.2.1, a.2.2 - b.2.2)

/-- `lattice.hpp:370-373` -/
noncomputable def volume (a b c d : P3) : ℝ := dot (cross (sub3 b a) (sub3 c a)) (sub3 d a) / 6

/-- `lattice.hpp:365-381` -/
noncomputable def barycentric (p a b c d : P3) : Rows ℝ :=
  let v := volume a b c d
  ⟨volume b d c p / v, volume a c d p / v, volume a d b p / v, volume a b c p / v⟩

/-- `lattice.hpp:285-289` - the weights of the interpolation at `p` -/
noncomputable def weights (L : Prim) (p : P3) (rank : Nat × Nat × Nat) : Rows ℝ :=
  let t := L.tetrahedron p rank
  barycentric p (L.position t.r0) (L.position t.r1) (L.position t.r2) (L.position t.r3)

end Prim

end Verif.PrimLattice
