import Verif.Model.AbstractMesh
import Verif.Model.ClosestPoint
import Verif.Model.Predicates
import Mathlib.Analysis.InnerProductSpace.PiL2
import Mathlib.Order.WithBot

/-!
# src/isosurface/snapper/thinner.hpp, and `thin_snapped_mesh` of src/isosurface/snap.cpp

Arithmetic is exact.  The anisotropic frame is given by an arbitrary map `T` (`geometry::transform_points<3>(aniso, .)`).  Vertices are
rows of a list; a vertex number in a face that is not a row is read as the origin (the code does not check, the theorems assume there is
none).  A squared distance that is not finite in the code (`ClosestPoint`) is `none`.  Sets of face numbers are lists: the code only
tests membership and asks whether some member satisfies a condition.
-/

namespace Verif.Thinner

open Verif Verif.AbstractMesh Verif.SpatialGrid Verif.MeshDefects Verif.ClosestPoint Verif.Predicates

/-- The arguments of `thin_snapped_mesh` (`snap.cpp:25-26`). -/
structure Input where
  vertices : List P3
  faces : List AbstractMesh.Face
  points : List P3
  tolerances : List ℝ
  resolution : ℝ
  T : P3 → P3

/-- Euclidean space: the type of points for `point_triangle_dist2` -/
abbrev E3 := EuclideanSpace ℝ (Fin 3)

/-- The same point as a Euclidean vector. -/
noncomputable def toE (p : P3) : E3 := !₂[p.1, p.2.1, p.2.2]

namespace Input

variable (I : Input)

/-- `thinner.hpp:41` - `p_.row(v)` -/
noncomputable def p (v : Nat) : P3 := I.vertices.getD v 0

/-- `thinner.hpp:42` - `ap_.row(v)` -/
noncomputable def ap (v : Nat) : P3 := I.T (I.p v)

/-- `thinner.hpp:44` - `a_points_.row(i)` -/
noncomputable def aPoint (i : Nat) : P3 := I.T (I.points.getD i 0)

/-- `thinner.hpp:48-51` - `tols(i)` -/
noncomputable def tol (i : Nat) : ℝ := if I.tolerances.length = 0 then 0 else I.tolerances.getD i 0

/-- `thinner.hpp:47` - `max_edge2_` -/
noncomputable def maxEdge2 : ℝ := 1.3 * I.resolution * (1.3 * I.resolution)

open Classical in
/-- `thinner.hpp:57-65` - `snapped_.at(v)` -/
noncomputable def snapped (v : Nat) : Bool := decide (v < I.vertices.length ∧ I.p v ∈ I.points)

/-- `spatial_grid.hpp:116` - one coordinate of `cell_of`; the range of `int` is not modelled -/
noncomputable def cellOf (x : ℝ) : Int := ⌊x / I.resolution⌋

/-- `thinner.hpp:182-184` - `dist2` -/
noncomputable def dist2 (q : P3) (f : AbstractMesh.Face) : Option ℝ :=
  pointTriangleDist2 (toE q) (toE (I.ap f.1)) (toE (I.ap f.2.1)) (toE (I.ap f.2.2))

open Classical in
/-- `thinner.hpp:207-209` - `honored_by`; a comparison with NaN is false -/
noncomputable def honoredBy (i : Nat) (f : AbstractMesh.Face) : Bool :=
  match I.dist2 (I.aPoint i) f with
  | some d => decide (d ≤ I.tol i ^ 2)
  | none => false

/-- The positions of the corners, `p_(f, kAll)`. -/
noncomputable def triangle (f : AbstractMesh.Face) : P3 × P3 × P3 := (I.p f.1, I.p f.2.1, I.p f.2.2)

/-- `thinner.hpp:246-249` - `intersect` -/
noncomputable def intersect (f g : AbstractMesh.Face) : Outcome Bool := trianglesIntersect (narrow kTinyFactor) (I.triangle f) (I.triangle g)

end Input

/-- `u.dot(v)` -/
def dotP (u v : P3) : ℝ := u.1 * v.1 + u.2.1 * v.2.1 + u.2.2 * v.2.2

/-- `u.cross(v)` -/
def crossP (u v : P3) : P3 := (u.2.1 * v.2.2 - u.2.2 * v.2.1, u.2.2 * v.1 - u.1 * v.2.2, u.1 * v.2.1 - u.2.1 * v.1)

/-- `thinner.hpp:251-253` and `utility.hpp:101-104` - `normal` -/
noncomputable def Input.normal (I : Input) (f : AbstractMesh.Face) : P3 :=
  crossP (I.ap f.2.1 - I.ap f.1) (I.ap f.2.2 - I.ap f.1)

/-- `thinner.hpp:297-306` - what changes: the mesh, the stamps of `snap_grid_`, and `face_grid_` -/
structure State where
  mesh : AbstractMesh.Mesh
  sgrid : Grid
  fgrid : FaceGrid ℝ

/-- `abstract_mesh.hpp:237-239` - `has_edge` -/
def hasEdge (m : AbstractMesh.Mesh) (a b : Nat) : Bool := (m.halfedgeOf a b).isSome || (m.halfedgeOf b a).isSome

/-- `thinner.hpp:105-112` - the link condition; `d` is `none` if the edge has no second face (`apex` of an invalid halfedge is -1) -/
def linkOk (m : AbstractMesh.Mesh) (hs : List Nat) (b c : Nat) (d : Option Nat) : Bool :=
  hs.all fun hh =>
    let v := m.to_ hh
    !(decide (v ≠ b) && decide (v ≠ c) && decide (some v ≠ d) && hasEdge m v b)

/-- `thinner.hpp:255-257` - `on_edge` -/
def onEdge (f : AbstractMesh.Face) (a b : Nat) : Bool := AbstractMesh.Mesh.hasCorner f a && AbstractMesh.Mesh.hasCorner f b

open Classical in
/-- `thinner.hpp:114-129` - the retargeted faces; `none` if one of them would flip -/
noncomputable def keptOf (I : Input) (m : AbstractMesh.Mesh) (a b : Nat) : List Nat → Option (List AbstractMesh.Face)
  | [] => some []
  | hh :: hs =>
      let f := m.face (hh / 4)
      if onEdge f a b then keptOf I m a b hs
      else
        let nf := AbstractMesh.Mesh.retarget f a b
        if dotP (I.normal nf) (I.normal f) < 0 then none
        else (keptOf I m a b hs).map (nf :: ·)

open Classical in
/-- `thinner.hpp:134-140` -/
noncomputable def shortOk (I : Input) (m : AbstractMesh.Mesh) (hs : List Nat) (b c : Nat) (d : Option Nat) : Bool :=
  hs.all fun hh =>
    let v := m.to_ hh
    !(decide (v ≠ b) && decide (v ≠ c) && decide (some v ≠ d) &&
      decide (dotP (I.ap b - I.ap v) (I.ap b - I.ap v) > I.maxEdge2))

/-- `thinner.hpp:142-147`; `⊤` is infinity, and `std::min(dev, NaN)` is `dev` -/
noncomputable def deviation (I : Input) (a : Nat) (kept : List AbstractMesh.Face) : WithTop ℝ :=
  kept.foldl (fun dev nf => min dev (match I.dist2 (I.ap a) nf with
    | some d => (d : WithTop ℝ)
    | none => ⊤)) ⊤

/-- `thinner.hpp:149-159` -/
def nearbyOf (m : AbstractMesh.Mesh) (star : List Nat) (kept : List AbstractMesh.Face) : List Nat :=
  kept.flatMap fun nf => [nf.1, nf.2.1, nf.2.2].flatMap fun v => (m.vertexFaces v).filter fun fi => !star.contains fi

/-- `thinner.hpp:218-226` - the bounding box, in the transformed frame, of the faces of the star -/
noncomputable def starBox (I : Input) (m : AbstractMesh.Mesh) : List Nat → Box ℝ
  | [] => ⟨0, 0⟩
  | fi :: fis =>
      let cs := (fi :: fis).flatMap fun fi => [(m.face fi).1, (m.face fi).2.1, (m.face fi).2.2]
      cs.foldl (fun b x => ⟨cmin b.lo (I.ap x), cmax b.hi (I.ap x)⟩) ⟨I.ap (m.face fi).1, I.ap (m.face fi).1⟩

open Classical in
/-- `thinner.hpp:213-240` - `honors_ok` -/
noncomputable def honorsOk (I : Input) (s : State) (star : List Nat) (kept : List AbstractMesh.Face) (nearby : List Nat) : Outcome (State × Bool) :=
  if ∀ c, s.sgrid.grid c = none then .ok (s, true)
  else do
    let (g, ok) ← s.sgrid.forEach I.cellOf (starBox I s.mesh star) (fun ok i =>
      if star.all (fun fi => !I.honoredBy i (s.mesh.face fi)) then (ok, true)
      else if kept.all (fun nf => !I.honoredBy i nf) && nearby.all (fun fi => !I.honoredBy i (s.mesh.face fi)) then (false, false)
      else (ok, true)) true
    return ({ s with sgrid := g }, ok)

/-- `face_grid.hpp:20-31` - the callback of `any_of`, for a test that may throw: an exception ends the walk -/
def stopAtHit (test : Nat → Outcome Bool) (r : Outcome Bool) (fi : Nat) : Outcome Bool × Bool :=
  match test fi with
  | .ok false => (r, true)
  | x => (x, false)

/-- `thinner.hpp:165-177` - whether a retargeted face hits a face outside the star; an exception thrown by the test ends the walk -/
noncomputable def hitsAny (I : Input) (star : List Nat) : List AbstractMesh.Face → State → Outcome (State × Bool)
  | [], s => .ok (s, false)
  | nf :: kept, s => do
      let (g, r) ← s.fgrid.forEach I.cellOf (bboxOf (I.triangle nf)) (stopAtHit fun fi =>
        if star.contains fi then Outcome.ok false else I.intersect nf (s.mesh.face fi)) (.ok false)
      let hit ← r
      if hit then Outcome.ok ({ s with fgrid := g }, true) else hitsAny I star kept { s with fgrid := g }

/-- `thinner.hpp:96-180` - `collapse_ok`: the deviation, or `none` if the collapse is not admissible -/
noncomputable def collapseOk (I : Input) (s : State) (h : Nat) (hs : List Nat) : Outcome (State × Option (WithTop ℝ)) := do
  let m := s.mesh
  let a := m.from_ h
  let b := m.to_ h
  if I.snapped b = false then Outcome.ok (s, none)
  else
    let c := m.apex h
    let o ← m.opposite h
    let d := o.map m.apex
    if linkOk m hs b c d = false then Outcome.ok (s, none)
    else
      let star := hs.map (· / 4)
      match keptOf I m a b hs with
      | none => Outcome.ok (s, none)
      | some kept =>
          if kept = [] then Outcome.ok (s, none)
          else if shortOk I m hs b c d = false then Outcome.ok (s, none)
          else do
            let dev := deviation I a kept
            let (s, ok) ← honorsOk I s star kept (nearbyOf m star kept)
            if ok = false then Outcome.ok (s, none)
            else do
              let (s, hit) ← hitsAny I star kept s
              if hit then Outcome.ok (s, none) else Outcome.ok (s, some dev)

open Classical in
/-- `thinner.hpp:272-280` - the least distorting admissible collapse -/
noncomputable def chooseBest (I : Input) (hs : List Nat) : List Nat → State → Option Nat → WithTop ℝ → Outcome (State × Option Nat)
  | [], s, best, _ => .ok (s, best)
  | h :: rest, s, best, bestDev => do
      let (s, r) ← collapseOk I s h hs
      match r with
      | some dev => if dev < bestDev then chooseBest I hs rest s (some h) dev else chooseBest I hs rest s best bestDev
      | none => chooseBest I hs rest s best bestDev

/-- `thinner.hpp:242` - `index_face` -/
noncomputable def indexFace (I : Input) (s : State) (fi : Nat) : State :=
  { s with fgrid := s.fgrid.insert I.cellOf ⟨0, 0⟩ fi (bboxOf (I.triangle (s.mesh.face fi))) }

/-- `thinner.hpp:286-288, 295` - removing faces from the grid -/
noncomputable def unindexAll (I : Input) : List Nat → FaceGrid ℝ → Outcome (FaceGrid ℝ)
  | [], g => .ok g
  | fi :: fis, g => do
      let g ← g.remove I.cellOf fi
      unindexAll I fis g

/-- `thinner.hpp:266-270` - whether all outgoing halfedges have an opposite -/
def interior (m : AbstractMesh.Mesh) : List Nat → Outcome Bool
  | [] => .ok true
  | h :: hs => do
      let o ← m.opposite h
      if o.isNone then Outcome.ok false else interior m hs

/-- `thinner.hpp:260-293` - `try_collapse` -/
noncomputable def tryCollapse (I : Input) (s : State) (v : Nat) : Outcome (State × Bool) := do
  let hs := s.mesh.vh v
  if hs.length < 3 then Outcome.ok (s, false)
  else do
    let inner ← interior s.mesh hs
    if inner = false then Outcome.ok (s, false)
    else do
      let (s, best) ← chooseBest I hs hs s none ⊤
      match best with
      | none => Outcome.ok (s, false)
      | some h => do
          let g ← unindexAll I (hs.map (· / 4)) s.fgrid
          match s.mesh.collapse h with
          | (m, .ok fis) => Outcome.ok (fis.foldl (indexFace I) { s with mesh := m, fgrid := g }, true)
          | (_, .throws e) => .throws e
          | (_, .ub) => .ub

/-- `thinner.hpp:73-80` - one round of the `while` loop -/
noncomputable def pass (I : Input) : List Nat → State → Bool → Outcome (State × Bool)
  | [], s, any => .ok (s, any)
  | v :: vs, s, any =>
      if I.snapped v then do
        let (s, done) ← tryCollapse I s v
        pass I vs s (any || done)
      else pass I vs s any

/-- `thinner.hpp:72-80` - the `while` loop; `none`: not finished after the given number of rounds -/
noncomputable def loop (I : Input) : Nat → State → Option (Outcome State)
  | 0, _ => none
  | n + 1, s =>
      match pass I (List.range I.vertices.length) s false with
      | .ok (s, true) => loop I n s
      | .ok (s, false) => some (.ok s)
      | .throws e => some (.throws e)
      | .ub => some .ub

/-- `spatial_grid.hpp:86-91` - the box of a ball -/
noncomputable def ballBox (c : P3) (r : ℝ) : Box ℝ := ⟨c - (r, r, r), c + (r, r, r)⟩

/-- `thinner.hpp:45, 52` - `snap_grid_` -/
noncomputable def snapGrid (I : Input) : Grid :=
  (List.range I.points.length).foldl (fun g i => g.insert I.cellOf i (ballBox (I.aPoint i) (I.tol i))) (Grid.init I.points.length)

/-- `thinner.hpp:39-71` - the state before the loop -/
noncomputable def start (I : Input) : Outcome State := do
  let m ← Mesh.ofFaces I.faces
  return (List.range m.nf).foldl (indexFace I) ⟨m, snapGrid I, FaceGrid.init ⟨0, 0⟩ I.faces.length⟩

/-- `thinner.hpp:186-204` - one corner of `emit` -/
def emitCorner (p : Nat → P3) (r : List P3 × (Nat → Option Nat)) (v : Nat) : (List P3 × (Nat → Option Nat)) × Nat :=
  match r.2 v with
  | some k => (r, k)
  | none => ((r.1 ++ [p v], fun u => if u = v then some r.1.length else r.2 u), r.1.length)

/-- `thinner.hpp:186-204` - `emit` -/
def emit (p : Nat → P3) : List AbstractMesh.Face → List P3 × (Nat → Option Nat) → List P3 × List AbstractMesh.Face
  | [], r => (r.1, [])
  | f :: fs, r =>
      let (r, x) := emitCorner p r f.1
      let (r, y) := emitCorner p r f.2.1
      let (r, z) := emitCorner p r f.2.2
      let (vs, gs) := emit p fs r
      (vs, (x, y, z) :: gs)

/-- `snap.cpp:25-32` - `thin_snapped_mesh`; `none`: the loop is not finished after `fuel` rounds -/
noncomputable def thinSnappedMesh (I : Input) (fuel : Nat) : Option (Outcome (List P3 × List AbstractMesh.Face)) :=
  if I.points.length = 0 ∨ I.faces.length = 0 then some (.ok (I.vertices, I.faces))
  else
    match start I with
    | .ok s =>
        match loop I fuel s with
        | some (.ok s) => some (.ok (emit I.p s.mesh.takeFaces ([], fun _ => none)))
        | some (.throws e) => some (.throws e)
        | some .ub => some .ub
        | none => none
    | .throws e => some (.throws e)
    | .ub => some .ub

end Verif.Thinner
