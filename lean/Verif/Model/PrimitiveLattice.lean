import Verif.Model.LatticeRuns
import Verif.Model.Clip
import Mathlib.Algebra.Order.Floor.Ring
import Mathlib.Algebra.Order.Archimedean.Real.Basic

/-!
# include/polatory/isosurface/rmt/primitive_lattice.hpp

In exact arithmetic.  Infinities and NaN occur in the ranges only; there they are modelled as such: a value that is not finite
is `none`, and converting it to `int` is undefined.  `int` is unbounded.
-/

namespace Verif.PrimLattice

open Verif Verif.Lattice

abbrev P3 := ℝ × ℝ × ℝ

def dot (a b : P3) : ℝ := a.1 * b.1 + a.2.1 * b.2.1 + a.2.2 * b.2.2
def cross (a b : P3) : P3 := (a.2.1 * b.2.2 - a.2.2 * b.2.1, a.2.2 * b.1 - a.1 * b.2.2, a.1 * b.2.1 - a.2.1 * b.1)

/-- `primitive_lattice.hpp:214-219` - the bounding box and the rows of `basis_` (`resolution * aniso⁻¹` applied to the rows of
`kLatticeBasis`); the other members are computed from them (`:31-38`). -/
structure Prim where
  lo : P3
  hi : P3
  b0 : P3
  b1 : P3
  b2 : P3

namespace Prim

noncomputable def det (L : Prim) : ℝ := dot L.b0 (cross L.b1 L.b2)

/-- `p * basis_inv_` - Eigen's inverse of a 3 × 3 matrix is the cofactors over the determinant. -/
noncomputable def coords (L : Prim) (p : P3) : P3 :=
  (dot p (cross L.b1 L.b2) / L.det, dot p (cross L.b2 L.b0) / L.det, dot p (cross L.b0 L.b1) / L.det)

/-- `std::round`, halves away from zero -/
noncomputable def roundAway (x : ℝ) : ℤ := if 0 ≤ x then ⌊x + 1 / 2⌋ else ⌈x - 1 / 2⌉

/-- `bbox3d.hpp:28` -/
noncomputable def center (L : Prim) : P3 := (L.lo.1 + (L.hi.1 - L.lo.1) / 2, L.lo.2.1 + (L.hi.2.1 - L.lo.2.1) / 2, L.lo.2.2 + (L.hi.2.2 - L.lo.2.2) / 2)

/-- `primitive_lattice.hpp:193-196` -/
noncomputable def origin (L : Prim) : LC :=
  ⟨roundAway (L.coords L.center).1, roundAway (L.coords L.center).2.1, roundAway (L.coords L.center).2.2⟩

/-- `(lc_origin + u) * basis` -/
noncomputable def at_ (L : Prim) (u : P3) : P3 :=
  (((L.origin.x : ℝ) + u.1) * L.b0.1 + ((L.origin.y : ℝ) + u.2.1) * L.b1.1 + ((L.origin.z : ℝ) + u.2.2) * L.b2.1,
   ((L.origin.x : ℝ) + u.1) * L.b0.2.1 + ((L.origin.y : ℝ) + u.2.1) * L.b1.2.1 + ((L.origin.z : ℝ) + u.2.2) * L.b2.2.1,
   ((L.origin.x : ℝ) + u.1) * L.b0.2.2 + ((L.origin.y : ℝ) + u.2.1) * L.b1.2.2 + ((L.origin.z : ℝ) + u.2.2) * L.b2.2.2)

/-- `lc.cast<double>()` -/
def cast (lc : LC) : P3 := ((lc.x : ℝ), (lc.y : ℝ), (lc.z : ℝ))

/-- `primitive_lattice.hpp:42-44` -/
noncomputable def position (L : Prim) (lc : LC) : P3 := L.at_ (cast lc)

/-- `primitive_lattice.hpp:189-191` -/
noncomputable def unrounded (L : Prim) (p : P3) : P3 :=
  ((L.coords p).1 - L.origin.x, (L.coords p).2.1 - L.origin.y, (L.coords p).2.2 - L.origin.z)

/-- `lc.cast<double>() * basis_` (`primitive_lattice.hpp:202`) -/
noncomputable def step (L : Prim) (d : LC) : P3 :=
  ((d.x : ℝ) * L.b0.1 + (d.y : ℝ) * L.b1.1 + (d.z : ℝ) * L.b2.1,
   (d.x : ℝ) * L.b0.2.1 + (d.y : ℝ) * L.b1.2.1 + (d.z : ℝ) * L.b2.2.1,
   (d.x : ℝ) * L.b0.2.2 + (d.y : ℝ) * L.b1.2.2 + (d.z : ℝ) * L.b2.2.2)

/-- `colwise().minCoeff()` and `colwise().maxCoeff()` of one column of `neigh` -/
noncomputable def least (xs : List ℝ) : ℝ := xs.tail.foldl min (xs.headD 0)
noncomputable def greatest (xs : List ℝ) : ℝ := xs.tail.foldl max (xs.headD 0)

/-- `primitive_lattice.hpp:198-209` - the minimum corner -/
noncomputable def extLo (L : Prim) (k : ℕ) : P3 :=
  (L.lo.1 + k * 1.01 * least (deltas.map fun d => (L.step d).1), L.lo.2.1 + k * 1.01 * least (deltas.map fun d => (L.step d).2.1),
   L.lo.2.2 + k * 1.01 * least (deltas.map fun d => (L.step d).2.2))

/-- `primitive_lattice.hpp:198-209` - the maximum corner -/
noncomputable def extHi (L : Prim) (k : ℕ) : P3 :=
  (L.hi.1 + k * 1.01 * greatest (deltas.map fun d => (L.step d).1), L.hi.2.1 + k * 1.01 * greatest (deltas.map fun d => (L.step d).2.1),
   L.hi.2.2 + k * 1.01 * greatest (deltas.map fun d => (L.step d).2.2))

open Classical in
/-- `second_extended_bbox().contains(position(lc))` (`lattice.hpp:353-357`, `bbox3d.hpp:30-32`) -/
noncomputable def inBox (L : Prim) (lc : LC) : Bool :=
  decide (((L.extLo 2).1 ≤ (L.position lc).1 ∧ (L.extLo 2).2.1 ≤ (L.position lc).2.1 ∧ (L.extLo 2).2.2 ≤ (L.position lc).2.2) ∧
    (L.position lc).1 ≤ (L.extHi 2).1 ∧ (L.position lc).2.1 ≤ (L.extHi 2).2.1 ∧ (L.position lc).2.2 ≤ (L.extHi 2).2.2)

/-- `static_cast<int>(std::floor(min)), static_cast<int>(std::ceil(max))` -/
noncomputable def intRange : Option ℝ → Option ℝ → Outcome (Int × Int)
  | some a, some b => .ok (⌊a⌋, ⌈b⌉)
  | _, _ => .ub

/-- `std::min` of a possibly infinite start value (`none`) and a finite one -/
noncomputable def minO (a : Option ℝ) (x : ℝ) : Option ℝ := some (match a with | none => x | some m => min m x)
noncomputable def maxO (a : Option ℝ) (x : ℝ) : Option ℝ := some (match a with | none => x | some m => max m x)

open Classical in
/-- `primitive_lattice.hpp:55-69` - the two parameters of one coordinate, in order; `none` if the direction has no such component -/
noncomputable def slab (lo hi p d : ℝ) : Option (ℝ × ℝ) :=
  if d = 0 then none
  else if (lo - p) / d > (hi - p) / d then some ((hi - p) / d, (lo - p) / d) else some ((lo - p) / d, (hi - p) / d)

/-- `primitive_lattice.hpp:46-74` -/
noncomputable def firstRange (L : Prim) (lc1 lc2 : Int) : Outcome (Int × Int) :=
  let y : ℝ := L.origin.y + lc1
  let z : ℝ := L.origin.z + lc2
  let point : P3 := (y * L.b1.1 + z * L.b2.1, y * L.b1.2.1 + z * L.b2.2.1, y * L.b1.2.2 + z * L.b2.2.2)
  let ts := [slab (L.extLo 2).1 (L.extHi 2).1 point.1 L.b0.1, slab (L.extLo 2).2.1 (L.extHi 2).2.1 point.2.1 L.b0.2.1,
    slab (L.extLo 2).2.2 (L.extHi 2).2.2 point.2.2 L.b0.2.2].filterMap id
  let minT := (ts.map Prod.fst).foldl maxO none
  let maxT := (ts.map Prod.snd).foldl minO none
  let u := fun t : ℝ => (L.unrounded (point.1 + t * L.b0.1, point.2.1 + t * L.b0.2.1, point.2.2 + t * L.b0.2.2)).1
  intRange (minT.map u) (maxT.map u)

/-- `bbox3d.hpp:38-48` -/
noncomputable def corner (lo hi : P3) (i : Nat) : P3 :=
  (if i.testBit 0 then hi.1 else lo.1, if i.testBit 1 then hi.2.1 else lo.2.1, if i.testBit 2 then hi.2.2 else lo.2.2)

/-- `primitive_lattice.hpp:80-85` - the pairs of corners that are edges: one bit differs. -/
def edges : List (Nat × Nat) :=
  (List.range 7).flatMap fun i => ((List.range 8).filter fun j => decide (i < j) && ((List.range 3).countP (fun b => (i ^^^ j).testBit b) == 1)).map fun j => (i, j)

open Classical in
/-- `primitive_lattice.hpp:87-93` - where the edge meets the plane; for an edge parallel to the plane `t` is infinite or NaN. -/
noncomputable def meet (n : P3) (d : ℝ) (p q : P3) : Option P3 :=
  let pq : P3 := (q.1 - p.1, q.2.1 - p.2.1, q.2.2 - p.2.2)
  if dot n pq = 0 then none
  else
    let t := -(dot n p + d) / dot n pq
    if 0 ≤ t ∧ t ≤ 1 then some (p.1 + t * pq.1, p.2.1 + t * pq.2.1, p.2.2 + t * pq.2.2) else none

/-- `primitive_lattice.hpp:77-95` -/
noncomputable def planeVertices (L : Prim) (lc2 : Int) : List P3 :=
  let n := cross L.b0 L.b1
  let z : ℝ := L.origin.z + lc2
  let d := -dot n (z * L.b2.1, z * L.b2.2.1, z * L.b2.2.2)
  edges.filterMap fun e => meet n d (corner (L.extLo 2) (L.extHi 2) e.1) (corner (L.extLo 2) (L.extHi 2) e.2)

/-- `primitive_lattice.hpp:76-106` -/
noncomputable def secondRange (L : Prim) (lc2 : Int) : Outcome (Int × Int) :=
  let us := (L.planeVertices lc2).map fun v => (L.unrounded v).2.1
  intRange (us.foldl minO none) (us.foldl maxO none)

/-- `primitive_lattice.hpp:107-117` -/
noncomputable def thirdRange (L : Prim) : Outcome (Int × Int) :=
  let us := (List.range 8).map fun i => (L.unrounded (corner (L.extLo 2) (L.extHi 2) i)).2.2
  intRange (us.foldl minO none) (us.foldl maxO none)

/-- `lattice.hpp:42-53` - the lattice coordinates the three loops of `add_all_nodes` visit -/
noncomputable def visit (L : Prim) : Outcome (List (List LC)) := do
  let r2 ← L.thirdRange
  Outcome.traverse (fun lc2 => do
    let r1 ← L.secondRange lc2
    let rows ← Outcome.traverse (fun lc1 => do
      let r0 ← L.firstRange lc1 lc2
      return (loopRange r0).map fun lc0 => (⟨lc0, lc1, lc2⟩ : LC)) (loopRange r1)
    return rows.flatten) (loopRange r2)

/-! ## Vertex positions -/

/-- `lattice.hpp:332-339`, `:30` - the vertex on edge `e` of node `lc`, `t` of the way to the neighbour -/
noncomputable def vertexPos (L : Prim) (lc : LC) (e : Nat) (t : ℝ) : P3 :=
  let p0 := L.position lc
  let p1 := L.position (neighbor lc e)
  let tc := max 1e-4 (min t (1 - 1e-4))
  (p0.1 + tc * (p1.1 - p0.1), p0.2.1 + tc * (p1.2.1 - p0.2.1), p0.2.2 + tc * (p1.2.2 - p0.2.2))

open Classical in
/-- `lattice.hpp:526-529` - one coordinate -/
noncomputable def snap1 (tiny lo hi x : ℝ) : ℝ :=
  let y := if |x - lo| < tiny then lo else x
  if |y - hi| < tiny then hi else y

/-- `lattice.hpp:519-529` -/
noncomputable def snapToBox (L : Prim) (res : ℝ) (p : P3) : P3 :=
  (snap1 (1e-10 * res) L.lo.1 L.hi.1 p.1, snap1 (1e-10 * res) L.lo.2.1 L.hi.2.1 p.2.1, snap1 (1e-10 * res) L.lo.2.2 L.hi.2.2 p.2.2)

/-- `lattice.hpp:259-276, 512-532` - the mesh with the vertices `vs`, `t` of the way from their nodes, and the faces `fs` -/
noncomputable def mesh (L : Prim) (res : ℝ) (t : LC × Nat → ℝ) (vs : List (LC × Nat)) (fs : List Face) : Clip.Mesh :=
  { vertices := vs.map fun v => L.snapToBox res (L.vertexPos v.1 v.2 (t v)),
    faces := fs.map fun f => (f.1.toNat, f.2.1.toNat, f.2.2.toNat) }

end Prim

end Verif.PrimLattice
