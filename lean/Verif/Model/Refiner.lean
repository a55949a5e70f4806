import Verif.Model.Thinner

/-!
# src/isosurface/vertex_refiner.hpp, and `refine_vertices` of src/isosurface/refine.cpp

Arithmetic is exact.  `transform_vector` of the anisotropy is an arbitrary map `T`, the field function an arbitrary map from points to values
(an exception thrown by it is not modelled).  Positions are a total function of the vertex number.  The mesh data structure does not change
once it is built.
-/

namespace Verif.Refiner

open Verif Verif.AbstractMesh Verif.SpatialGrid Verif.ClosestPoint Verif.Predicates
open Verif.MeshDefects hiding Face corner
open Verif.Thinner (toE E3 dotP crossP stopAtHit)

/-- The arguments of `refine_vertices` (`refine.cpp:7-8`). -/
structure Input where
  vertices : List P3
  faces : List Face
  entire : Bool
  field : List P3 → List ℝ
  isovalue : ℝ
  lo : P3
  hi : P3
  resolution : ℝ
  T : P3 → P3

/-- `vertex_refiner.hpp:54` - `kMaxMoveRatio` -/
noncomputable def kMaxMoveRatio : ℝ := 1 / 2

/-- `vertex_refiner.hpp:36` - `p_` at the start -/
noncomputable def p0 (I : Input) (v : Nat) : P3 := I.vertices.getD v 0

/-- `vertex_refiner.hpp:69` -/
noncomputable def delta (I : Input) : ℝ := 1 / 1000 * I.resolution

/-- `vertex_refiner.hpp:72-73` - the rows of `s` -/
def offsets (d : ℝ) : List P3 := [(d, d, d), (d, -d, -d), (-d, d, -d), (-d, -d, d)]

/-- `vertex_refiner.hpp:74-77` - `samples` -/
noncomputable def samples (I : Input) : List P3 := I.vertices.flatMap fun p => (offsets (delta I)).map (· + p)

/-- `vertex_refiner.hpp:85-86` - `vs.transpose() * s`, where `vs` is `v.segment(4 * i, 4)` -/
noncomputable def weighted (d : ℝ) (vs : Nat → ℝ) : P3 :=
  vs 0 • (d, d, d) + vs 1 • (d, -d, -d) + vs 2 • (-d, d, -d) + vs 3 • (-d, -d, d)

open Classical in
/-- `vertex_refiner.hpp:84-97` - the step of a vertex from its four values (minus the isovalue); `none`: the gradient is zero -/
noncomputable def stepOf (I : Input) (vs : Nat → ℝ) : Option P3 :=
  let d := delta I
  let grad := (1 / (4 * d * d)) • weighted d vs
  let gn2 := dotP grad grad
  if gn2 = 0 then none
  else
    let value := 1 / 4 * (vs 0 + vs 1 + vs 2 + vs 3)
    let step := (value / gn2) • grad
    let aLen := √(dotP (I.T step) (I.T step))
    let maxMove := kMaxMoveRatio * I.resolution
    if aLen > maxMove then some ((maxMove / aLen) • step) else some step

/-- `vertex_refiner.hpp:78, 85` - `v.segment(4 * i, 4)` -/
noncomputable def segment (I : Input) (v : List ℝ) (i : Nat) (k : Nat) : ℝ := v.getD (4 * i + k) 0 - I.isovalue

/-- `vertex_refiner.hpp:83-99` - one vertex -/
noncomputable def moveOf (I : Input) (v : List ℝ) (i : Nat) : Option (Nat × P3) := (stepOf I (segment I v i)).map fun step => (i, p0 I i - step)

/-- `vertex_refiner.hpp:68-101` - `project`; a vector of values that is too short is read beyond its end -/
noncomputable def project (I : Input) : Outcome (List (Nat × P3)) :=
  let v := I.field (samples I)
  if v.length < 4 * I.vertices.length then .ub
  else .ok ((List.range I.vertices.length).filterMap (moveOf I v))

/-- `vertex_refiner.hpp:148, 151` - what changes: `p_` and `face_grid_` -/
structure State where
  p : Nat → P3
  fgrid : FaceGrid ℝ

/-- `p_(mesh_.face(fi), kAll)` -/
def tri (p : Nat → P3) (f : Face) : P3 × P3 × P3 := (p f.1, p f.2.1, p f.2.2)

/-- `vertex_refiner.hpp:58-66` - `moved_face` -/
def movedFace (m : Mesh) (p : Nat → P3) (fi vi : Nat) (q : P3) : P3 × P3 × P3 :=
  let f := m.face fi
  (if f.1 = vi then q else p f.1, if f.2.1 = vi then q else p f.2.1, if f.2.2 = vi then q else p f.2.2)

/-- `utility.hpp:101-104` - `triangle_normal` -/
def triangleNormal (t : P3 × P3 × P3) : P3 := crossP (t.2.1 - t.1) (t.2.2 - t.1)

/-- `spatial_grid.hpp:116` - one coordinate of `cell_of`; the range of `int` is not modelled -/
noncomputable def cellOf (I : Input) (x : ℝ) : Int := ⌊x / I.resolution⌋

/-- `vertex_refiner.hpp:56` - `index_face` -/
noncomputable def indexFace (I : Input) (m : Mesh) (p : Nat → P3) (g : FaceGrid ℝ) (fi : Nat) : FaceGrid ℝ :=
  g.insert (cellOf I) ⟨0, 0⟩ fi (bboxOf (tri p (m.face fi)))

/-- `vertex_refiner.hpp:133-135` with `unindex_face`, `:142` -/
noncomputable def unindexAll (I : Input) : List Nat → FaceGrid ℝ → Outcome (FaceGrid ℝ)
  | [], g => .ok g
  | fi :: fis, g => do
      let g ← g.remove (cellOf I) fi
      unindexAll I fis g

/-- `utility.hpp:17-27` - `snap_to_bbox` for the three coordinates -/
noncomputable def snap (I : Input) (p : P3) : P3 :=
  let q := snapToBbox ![p.1, p.2.1, p.2.2] ![I.lo.1, I.lo.2.1, I.lo.2.2] ![I.hi.1, I.hi.2.1, I.hi.2.2] I.resolution
  (q 0, q 1, q 2)

/-- `vertex_refiner.hpp:120-126` - the test of a face near the moved face `fi` -/
noncomputable def hits (m : Mesh) (p : Nat → P3) (vi : Nat) (q : P3) (fi fj : Nat) : Outcome Bool :=
  if fj = fi then .ok false else trianglesIntersect (narrow kTinyFactor) (movedFace m p fi vi q) (movedFace m p fj vi q)

open Classical in
/-- `vertex_refiner.hpp:105-131` - the tests for the faces at the vertex; true: the move is rejected -/
noncomputable def rejected (I : Input) (m : Mesh) (vi : Nat) (q : P3) : List Nat → State → Outcome (State × Bool)
  | [], s => .ok (s, false)
  | fi :: fis, s =>
      let a := movedFace m s.p fi vi q
      if dotP (triangleNormal (tri s.p (m.face fi))) (triangleNormal a) ≤ 0 then .ok (s, true)
      else do
        let (g, r) ← s.fgrid.forEach (cellOf I) (bboxOf a) (stopAtHit (hits m s.p vi q fi)) (.ok false)
        let hit ← r
        if hit then Outcome.ok ({ s with fgrid := g }, true) else rejected I m vi q fis { s with fgrid := g }

/-- `p_.row(vi) = new_p` -/
def upd (p : Nat → P3) (vi : Nat) (q : P3) : Nat → P3 := fun v => if v = vi then q else p v

/-- `vertex_refiner.hpp:133-140` - the move -/
noncomputable def commit (I : Input) (m : Mesh) (vi : Nat) (q : P3) (s : State) : Outcome State := do
  let g ← unindexAll I (m.vertexFaces vi) s.fgrid
  let p := upd s.p vi q
  Outcome.ok ⟨p, (m.vertexFaces vi).foldl (indexFace I m p) g⟩

/-- `vertex_refiner.hpp:103-140` - `try_move` -/
noncomputable def tryMove (I : Input) (m : Mesh) (s : State) (move : Nat × P3) : Outcome State := do
  let q := snap I move.2
  let (s, no) ← rejected I m move.1 q (m.vertexFaces move.1) s
  if no then Outcome.ok s else commit I m move.1 q s

/-- `vertex_refiner.hpp:45-47` -/
noncomputable def tryAll (I : Input) (m : Mesh) : List (Nat × P3) → State → Outcome State
  | [], s => .ok s
  | x :: xs, s => do
      let s ← tryMove I m s x
      tryAll I m xs s

/-- `vertex_refiner.hpp:39-43` -/
noncomputable def start (I : Input) (m : Mesh) : State :=
  ⟨p0 I, (List.range m.nf).foldl (indexFace I m (p0 I)) (FaceGrid.init ⟨0, 0⟩ m.nf)⟩

/-- `mesh.hpp:60-64` -/
structure Out where
  vertices : List P3
  faces : List Face
  entire : Bool

/-- `refine.cpp:7-13`, `vertex_refiner.hpp:28-50` - `refine_vertices`; `mesh.hpp:24, 54` - the constructor of the result and `is_empty` -/
noncomputable def refineVertices (I : Input) : Outcome Out :=
  if I.faces = [] ∧ I.entire = false then .ok ⟨I.vertices, I.faces, I.entire⟩
  else do
    let m ← Mesh.ofFaces I.faces
    let moves ← project I
    let s ← tryAll I m moves (start I m)
    Outcome.ok ⟨(List.range I.vertices.length).map s.p, m.takeFaces, false⟩

end Verif.Refiner
