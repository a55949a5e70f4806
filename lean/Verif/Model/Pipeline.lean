import Verif.Model.Isosurface
import Verif.Model.Clusterer
import Verif.Model.Refiner
import Verif.Model.Smoother
import Verif.Model.Snapper

/-!
# include/polatory/isosurface/isosurface.hpp:73-127 with the models of the mesh steps

The steps of `Model/Isosurface.lean` are here the modelled functions themselves.  A step that throws, is undefined or does not end within `fuel` rounds
gives `none`.
-/

namespace Verif.Pipeline

open Verif Verif.Lattice
open Verif.PrimLattice (Prim)
open Verif.Predicates (P3)

/-- What a generator has, and what the models of the steps leave open. -/
structure Env where
  L : Prim
  resolution : ℝ
  /-- `aniso_`, and its inverse -/
  T : P3 → P3
  Tinv : P3 → P3
  /-- the eigenvalue solver -/
  es : Clusterer.M3 → (Nat → ℝ) × (Nat → P3)
  /-- the schedules of the parallel loops and the orders of the hash sets, for each mesh -/
  schedV : Clip.Mesh → Nat → Nat → List (List Nat)
  schedF : Clip.Mesh → Nat → Nat → List (List Nat)
  ord : Clip.Mesh → List Nat → List Nat
  /-- the priority queue -/
  pop : Smoother.Pop
  /-- the unstable sorts -/
  sorts : Snapper.Sorts
  fuel : Nat
  /-- the arithmetic of clipping -/
  arith : Clip.Arith
  /-- `isosurface.hpp:129-136` - `hash_mesh` -/
  hash : Clip.Mesh → Nat
  /-- the values of the field function at given points, and the isovalue, of the call for which it has the values `F` at the lattice points -/
  field : Iso.Fld ℝ → List P3 → List ℝ
  isovalue : Iso.Fld ℝ → ℝ

/-- The snap points and the relative tolerances (`isosurface.hpp:140-141`). -/
abbrev Snap := List P3 × List ℝ

namespace Env

/-- the result of a function that may throw -/
def returned (r : Outcome α) : Option α :=
  match r with
  | .ok a => some a
  | _ => none

/-- the result of a function that may throw, or not end -/
def ended (r : Option (Outcome α)) : Option α :=
  match r with
  | some (.ok a) => some a
  | _ => none

variable (E : Env)

/-- `lattice.hpp:487, 498, 501` - how far along its edge a vertex is: `v0 / (v0 - v1)`, and `1 - t` from the other end -/
noncomputable def along (F : Iso.Fld ℝ) (v : LC × Nat) : ℝ := F.val v.1 / (F.val v.1 - F.val (neighbor v.1 v.2))

/-- `isosurface.hpp:76` - `lattice_.get_mesh()` -/
noncomputable def raw (F : Iso.Fld ℝ) (V : List (LC × Nat)) (fs : List Lattice.Face) : Clip.Mesh := E.L.mesh E.resolution (along F) V fs

/-- the arguments of `cluster_vertices(mesh, lattice_, aniso_)` (`isosurface.hpp:79`) -/
def clusterInput (m : Clip.Mesh) : Clusterer.Input :=
  { vertices := m.vertices, faces := m.faces, L := E.L, resolution := E.resolution, T := E.T, Tinv := E.Tinv, es := E.es, schedV := E.schedV m, schedF := E.schedF m,
    ord := E.ord m }

/-- `isosurface.hpp:79` -/
noncomputable def cluster (m : Clip.Mesh) : Option Clip.Mesh := (returned (Clusterer.clusterVertices (E.clusterInput m))).map fun o => ⟨o.vertices, o.faces⟩

/-- the arguments of `refine_vertices(mesh, field_fn, isovalue, lattice_.bbox(), res, aniso_)` (`isosurface.hpp:81`) -/
def refineInput (F : Iso.Fld ℝ) (m : Clip.Mesh) : Refiner.Input :=
  { vertices := m.vertices, faces := m.faces, entire := false, field := E.field F, isovalue := E.isovalue F, lo := E.L.lo, hi := E.L.hi, resolution := E.resolution, T := E.T }

/-- `isosurface.hpp:81` -/
noncomputable def refine (F : Iso.Fld ℝ) (m : Clip.Mesh) : Option Clip.Mesh := (returned (Refiner.refineVertices (E.refineInput F m))).map fun o => ⟨o.vertices, o.faces⟩

/-- the arguments of `snap_mesh`, `smooth_snapped_mesh`, `thin_snapped_mesh`; `tols = res * rel_snap_tols_` (`isosurface.hpp:83, 87, 94-95, 111-112`) -/
def snapInput (sn : Snap) (m : Clip.Mesh) : Thinner.Input :=
  { vertices := m.vertices, faces := m.faces, points := sn.1, tolerances := sn.2.map (E.resolution * ·), resolution := E.resolution, T := E.T }

/-- `isosurface.hpp:83, 95, 112` -/
noncomputable def smooth (sn : Snap) (m : Clip.Mesh) : Option Clip.Mesh :=
  (ended (Smoother.smoothSnappedMesh (E.snapInput sn m) E.pop E.fuel)).map fun o => ⟨o.1, o.2⟩

/-- `isosurface.hpp:93-96` -/
noncomputable def snap (sn : Snap) (m : Clip.Mesh) : Option (Clip.Mesh × Nat) :=
  (ended (Snapper.snapMesh (E.snapInput sn m) E.sorts E.fuel)).map fun o => (⟨o.vertices, o.faces⟩, o.stats.skipped + o.stats.dishonored)

/-- `isosurface.hpp:111` -/
noncomputable def thin (sn : Snap) (m : Clip.Mesh) : Option Clip.Mesh :=
  (ended (Thinner.thinSnappedMesh (E.snapInput sn m) E.fuel)).map fun o => ⟨o.1, o.2⟩

/-- `isosurface.hpp:116` -/
noncomputable def clip (m : Clip.Mesh) : Option Clip.Mesh := returned (Clip.clip E.arith m E.L.lo E.L.hi)

/-- the steps of `generate_common` -/
noncomputable def steps : Iso.Steps ℝ Clip.Mesh Snap where
  raw := E.raw
  faces m := m.faces.length
  noSnap := ([], [])
  cluster := E.cluster
  refine := E.refine
  smooth := E.smooth
  snap := E.snap
  thin := E.thin
  clip := E.clip
  hash := E.hash

end Env

end Verif.Pipeline
