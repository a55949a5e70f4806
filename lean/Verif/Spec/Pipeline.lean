import Verif.Model.Pipeline
import Verif.Model.Tetrahedron
import Verif.Spec.Isosurface
import Verif.Spec.Clip
import Verif.Spec.Snapper
import Verif.Lemmas.PrimitiveLatticeBox

/-!
# What a user relies on in the mesh that comes out of `generate`
-/

namespace Verif.Pipeline

open Verif Verif.Lattice
open Verif.PrimLattice (Prim)
open Verif.Predicates (P3)

/-- The surface does not reach the outside of the extended box: the field is on the same side of the isovalue at all its lattice points that have a
neighbour outside of it. -/
def Contained (L : Prim) (F : Iso.Fld ℝ) : Prop :=
  ∃ s, ∀ lc, L.InExt (L.position lc) → (∃ e < 14, ¬ L.InExt (L.position (neighbor lc e))) → F.neg lc = s

/-- What the library relies on but this model leaves open: a positive resolution, a linear transformation, one field value for each point, sorting
that only reorders, and interpolation (in clipping) that stays between its arguments. -/
structure Env.Proper (E : Env) : Prop where
  resolution : 0 < E.resolution
  transform : Snapper.Spec.IsLinear E.T
  values : ∀ F ps, (E.field F ps).length = ps.length
  sorting : ∀ l, (E.sorts.candidates l).Perm l
  between : E.arith.Between

/-- Snap points with tolerances as `set_snap_points` accepts them: none or one for each point, and not negative. -/
def Snap.Accepted (sn : Snap) : Prop := (sn.2 = [] ∨ sn.2.length = sn.1.length) ∧ ∀ t ∈ sn.2, 0 ≤ t

/-- The lattice and the transformation are those of the anisotropy with the rows `a0`, `a1`, `a2`. -/
structure Env.Made (E : Env) (a0 a1 a2 : P3) : Prop where
  positive : 0 < PrimLattice.dot a0 (PrimLattice.cross a1 a2)
  lattice : E.L = Prim.make E.L.lo E.L.hi E.resolution a0 a1 a2
  transform : ∀ d, E.T d = (PrimLattice.dot a0 d, PrimLattice.dot a1 d, PrimLattice.dot a2 d)

/-- Neither the box nor the margin around it is thinner than the distance of snapping to the sides of the box. -/
structure Env.Roomy (E : Env) : Prop where
  box : 2e-10 * E.resolution ≤ E.L.hi.1 - E.L.lo.1 ∧ 2e-10 * E.resolution ≤ E.L.hi.2.1 - E.L.lo.2.1 ∧ 2e-10 * E.resolution ≤ E.L.hi.2.2 - E.L.lo.2.2
  below : 1e-10 * E.resolution ≤ E.L.lo.1 - (E.L.extLo 1).1 ∧ 1e-10 * E.resolution ≤ E.L.lo.2.1 - (E.L.extLo 1).2.1 ∧ 1e-10 * E.resolution ≤ E.L.lo.2.2 - (E.L.extLo 1).2.2
  above : 1e-10 * E.resolution ≤ (E.L.extHi 1).1 - E.L.hi.1 ∧ 1e-10 * E.resolution ≤ (E.L.extHi 1).2.1 - E.L.hi.2.1 ∧ 1e-10 * E.resolution ≤ (E.L.extHi 1).2.2 - E.L.hi.2.2

/-- The point where the surface crosses a lattice edge is nearest to one of the two ends of the edge (it is not the midpoint). -/
def Env.Definite (E : Env) (F : Iso.Fld ℝ) : Prop :=
  ∀ lc e, F.neg lc ≠ F.neg (neighbor lc e) →
    let n := E.L.rounded (E.L.snapToBox E.resolution (E.L.vertexPos lc e (Env.along F (lc, e))))
    n = lc ∨ n = neighbor lc e

/-- A mesh in the box without cracks: the faces refer to vertices, which are in the box, and every edge that does not lie on a side
of the box has as many faces on one side as on the other. -/
structure Uncracked (lo hi : P3) (m : Clip.Mesh) : Prop where
  corners : ∀ f ∈ m.faces, f.1 < m.vertices.length ∧ f.2.1 < m.vertices.length ∧ f.2.2 < m.vertices.length
  inside : m.faces ≠ [] → ∀ v ∈ m.vertices, Clip.InBox lo hi v
  edges : ∀ i j p q, m.vertices[i]? = some p → m.vertices[j]? = some q → ¬ Clip.OnSide lo hi p q →
    (m.faces.flatMap Clip.dirEdges).count (i, j) = (m.faces.flatMap Clip.dirEdges).count (j, i)

end Verif.Pipeline
