import Verif.Model.Thinner
import Verif.Model.Triangulation

/-!
# src/isosurface/snapper/snapper.hpp, and `snap_mesh` of src/isosurface/snap.cpp

Arithmetic is exact.  The arguments are those of `thin_snapped_mesh` (`Thinner.Input`).  Row `i < np` is snap point `i`, row `np + v` is vertex
`v` of the given mesh.  Positions are total functions of the row.  The order in which the unstable sorts leave equal elements is a parameter
(`Sorts`).

Simplifications: a triangulation that `patch_faces` computes on first use is not stored (it is computed again when it is asked for again; a
patch gets its stored triangulation when a placement is committed).  An edge without a chain is an edge with an empty chain.  The iteration
order of the map `changed` is the order of insertion.
-/

namespace Verif.Snapper

open Verif Verif.AbstractMesh Verif.SpatialGrid Verif.ClosestPoint Verif.Predicates
open Verif.MeshDefects hiding Face corner
open Verif.Thinner (Input toE E3 dotP crossP stopAtHit ballBox snapGrid)

/-- `snapper.hpp:62-69`; a simplex is its number (`:58-60`: vertices 0..2, edges 3..5, face 6); `l` is `none` if the coordinates are not
finite -/
structure Candidate where
  i : Nat
  fi : Nat
  aq : P3
  d2 : ℝ
  l : Option (ℝ × ℝ × ℝ)
  order : List Nat

/-- The results of the sorts (`snapper.hpp:223-226, 239-242`): the seven simplices by increasing distance of the projection from their
centroids, and the candidates by increasing distance from the mesh. -/
structure Sorts where
  order : (Nat → ℝ) → List Nat
  candidates : List Candidate → List Candidate

/-- `snapper.hpp:53` -/
def kSnapBudget : Nat := 8

/-- An edge with its smaller end first (`edge.hpp:15`). -/
def edgeOf (u v : Nat) : Nat × Nat := (min u v, max u v)

/-- `snapper.hpp:769-791` - what changes.  `interior` and `cached` (`faces`, empty until a placement in the patch is committed) and
`honored` (`none`: not valid) are the parts of `patches_`; a chain is a list of pairs of `t` and `v`. -/
structure State where
  p : Nat → P3
  ap : Nat → P3
  aq : Nat → P3
  interior : Nat → List Nat
  cached : Nat → List Face
  honored : Nat → Option (List Nat)
  chains : Nat × Nat → List (ℝ × Nat)
  sgrid : Grid
  fgrid : FaceGrid ℝ

/-- Updating a function. -/
def upd {α β : Type} [DecidableEq α] (f : α → β) (a : α) (b : β) : α → β := fun x => if x = a then b else f x

/-- `np_` -/
def np (I : Input) : Nat := I.points.length

/-- `snapper.hpp:114-115` -/
noncomputable def p0 (I : Input) (r : Nat) : P3 := if r < np I then I.points.getD r 0 else I.vertices.getD (r - np I) 0

/-- `snapper.hpp:102` - the faces of `mesh_` -/
def shifted (I : Input) : List Face := I.faces.map fun f => (f.1 + np I, f.2.1 + np I, f.2.2 + np I)

/-- `p_(f, kAll)` -/
def State.tri (s : State) (f : Face) : P3 × P3 × P3 := (s.p f.1, s.p f.2.1, s.p f.2.2)

/-- `ap_(f, kAll)` -/
def State.atri (s : State) (f : Face) : P3 × P3 × P3 := (s.ap f.1, s.ap f.2.1, s.ap f.2.2)

/-- `snapper.hpp:374-377` - `intersect` -/
noncomputable def State.intersect (s : State) (a b : Face) : Outcome Bool := trianglesIntersect (narrow kTinyFactor) (s.tri a) (s.tri b)

/-- `x.cwiseMax(lo).cwiseMin(hi)` -/
noncomputable def clampTo (b : Box ℝ) (x : P3) : P3 := cmin (cmax x b.lo) b.hi

/-- `snapper.hpp:309-319` - `honored_by` -/
noncomputable def honoredBy (I : Input) (s : State) (i : Nat) (f : Face) : Bool :=
  let ap := s.ap i
  let d := ap - clampTo (bboxOf (s.atri f)) ap
  open Classical in
  if dotP d d > I.tol i ^ 2 then false
  else
    match pointTriangleDist2 (toE ap) (toE (s.ap f.1)) (toE (s.ap f.2.1)) (toE (s.ap f.2.2)) with
    | some x => decide (x ≤ I.tol i ^ 2)
    | none => false

/-! ## The triangulation of a patch -/

/-- `snapper.hpp:78-82` -/
structure Frame where
  origin : P3
  e1 : P3
  e2 : P3

/-- `v.normalized()`; not used for the zero vector -/
noncomputable def normalized (v : P3) : P3 := (1 / √(dotP v v)) • v

open Classical in
/-- `snapper.hpp:295-305` - `frame` -/
noncomputable def frame (m : Mesh) (s : State) (fi : Nat) : Outcome Frame :=
  let f := m.face fi
  let a := s.aq f.1
  let ab := s.aq f.2.1 - a
  let ac := s.aq f.2.2 - a
  let n := crossP ab ac
  if ¬ dotP n n > 0 then .throws .runtimeError
  else .ok ⟨a, normalized ab, normalized (crossP n ab)⟩

/-- `snapper.hpp:431-434` - `project` -/
noncomputable def project (fr : Frame) (p : P3) : ℝ × ℝ := (dotP (p - fr.origin) fr.e1, dotP (p - fr.origin) fr.e2)

/-- `snapper.hpp:566-590` - the chain of the side from `a` to `b`, in this direction -/
def chainRows (s : State) (a b : Nat) : List Nat :=
  let c := (s.chains (edgeOf a b)).map (·.2)
  if a < b then c else c.reverse

/-- `snapper.hpp:558-597` - `boundary_ids` -/
def boundaryIds (s : State) (f : Face) : List Nat :=
  f.1 :: chainRows s f.1 f.2.1 ++ f.2.1 :: chainRows s f.2.1 f.2.2 ++ f.2.2 :: chainRows s f.2.2 f.1

/-- `snapper.hpp:558-597` - `boundary_edges` -/
def boundaryLabels (s : State) (f : Face) : List (Int × Int) :=
  (0, 2) :: (chainRows s f.1 f.2.1).map (fun _ => ((0 : Int), (-1 : Int))) ++
  (1, 0) :: (chainRows s f.2.1 f.2.2).map (fun _ => ((1 : Int), (-1 : Int))) ++
  (2, 1) :: (chainRows s f.2.2 f.1).map (fun _ => ((2 : Int), (-1 : Int)))

/-- `snapper.hpp:604-614` - the map from the vertices of the triangulation to rows -/
def rowOf (s : State) (f : Face) (fi : Nat) (i : Nat) : Nat := (boundaryIds s f ++ s.interior fi).getD i 0

/-- The rows of a face of the triangulation. -/
def mapFace (g : Nat → Nat) (f : Face) : Face := (g f.1, g f.2.1, g f.2.2)

/-- `snapper.hpp:543-617` - `triangulate_patch`, with `simple` -/
noncomputable def triangulatePatch (m : Mesh) (s : State) (fi : Nat) : Outcome (List Face × Bool) :=
  let f := m.face fi
  if s.interior fi = [] ∧ s.chains (edgeOf f.1 f.2.1) = [] ∧ s.chains (edgeOf f.2.1 f.2.2) = [] ∧ s.chains (edgeOf f.2.2 f.1) = [] then
    .ok ([f], true)
  else do
    let fr ← frame m s fi
    let r ← Triangulation.build (Triangulation.Input.exact ((boundaryIds s f).map fun v => project fr (s.aq v))
      ((s.interior fi).map fun v => project fr (s.aq v)) (boundaryLabels s f))
    Outcome.ok (r.faces.map (mapFace (rowOf s f fi)), r.simple)

/-- `snapper.hpp:365-371` - `patch_faces` -/
noncomputable def patchFaces (m : Mesh) (s : State) (fi : Nat) : Outcome (List Face) :=
  if s.cached fi = [] then do
    let r ← triangulatePatch m s fi
    Outcome.ok r.1
  else .ok (s.cached fi)

/-! ## Which points the surface passes -/

/-- `snapper.hpp:342-349` - `honored_by_patch` -/
noncomputable def honoredByPatch (I : Input) (m : Mesh) (s : State) (i fi : Nat) : Outcome Bool := do
  let fs ← patchFaces m s fi
  Outcome.ok (fs.any fun f => honoredBy I s i f)

/-- `snapper.hpp:322-338` - `honored_by_mesh` -/
noncomputable def honoredByMesh (I : Input) (m : Mesh) (s : State) (i : Nat) : Outcome (State × Bool) := do
  let tol := √(I.tol i ^ 2)
  let (g, r) ← s.fgrid.forEach I.cellOf (ballBox (s.ap i) tol) (stopAtHit (honoredByPatch I m s i)) (.ok false)
  let b ← r
  Outcome.ok ({ s with fgrid := g }, b)

/-- `mesh_.face(mesh_.opposite(h))`, tested (`snapper.hpp:160-164`) -/
noncomputable def satisfiedAcross (I : Input) (m : Mesh) (s : State) (c : Candidate) : List Nat → Outcome Bool
  | [] => .ok false
  | k :: ks => do
      let o ← m.opposite (4 * c.fi + k)
      match o with
      | none => satisfiedAcross I m s c ks
      | some o => do
          let b ← honoredByPatch I m s c.i (o / 4)
          if b then Outcome.ok true else satisfiedAcross I m s c ks

/-- `snapper.hpp:155-167` - `already_satisfied` -/
noncomputable def alreadySatisfied (I : Input) (m : Mesh) (s : State) (c : Candidate) : Outcome Bool := do
  let b ← honoredByPatch I m s c.i c.fi
  if b then Outcome.ok true else satisfiedAcross I m s c [0, 1, 2]

/-- A callback that collects the items passing a test; an exception ends the walk. -/
def collectHits (test : Nat → Outcome Bool) (r : Outcome (List Nat)) (i : Nat) : Outcome (List Nat) × Bool :=
  match r, test i with
  | .ok l, .ok b => (.ok (if b then l ++ [i] else l), true)
  | .ok _, .throws e => (.throws e, false)
  | .ok _, .ub => (.ub, false)
  | r, _ => (r, false)

/-- `snapper.hpp:382-397` - the points one patch honors -/
noncomputable def patchHonored (I : Input) (m : Mesh) (s : State) (fi : Nat) : Outcome (State × List Nat) :=
  match s.honored fi with
  | some l => .ok (s, l)
  | none =>
      open Classical in
      if ∀ c, s.sgrid.grid c = none then .ok ({ s with honored := upd s.honored fi (some []) }, [])
      else if fi < s.fgrid.boxSize then do
        let (g, r) ← s.sgrid.forEach I.cellOf (s.fgrid.box fi) (collectHits fun i => honoredByPatch I m s i fi) (.ok [])
        let l ← r
        Outcome.ok ({ s with sgrid := g, honored := upd s.honored fi (some l) }, l)
      else .throws .outOfRange

/-- `snapper.hpp:379-402` - `points_honored_by_patches` -/
noncomputable def pointsHonoredByPatches (I : Input) (m : Mesh) : List Nat → State → Outcome (State × List Nat)
  | [], s => .ok (s, [])
  | fi :: fis, s => do
      let (s, l) ← patchHonored I m s fi
      let (s, l') ← pointsHonoredByPatches I m fis s
      Outcome.ok (s, l ++ l')

/-- The faces of the given patches. -/
noncomputable def facesOfPatches (m : Mesh) (s : State) : List Nat → Outcome (List Face)
  | [] => .ok []
  | fi :: fis => do
      let fs ← patchFaces m s fi
      let fs' ← facesOfPatches m s fis
      Outcome.ok (fs ++ fs')

/-- `(f.array() == v).any()` -/
def hasRow (f : Face) (v : Nat) : Bool := f.1 == v || f.2.1 == v || f.2.2 == v

/-- The bounding box of the corners of some faces in the transformed frame; `none` if there are none (the code then has infinite bounds) -/
noncomputable def boxOf (ap : Nat → P3) : List Face → Option (Box ℝ)
  | [] => none
  | f :: fs => some (fs.foldl (fun b g => ⟨cmin b.lo (bboxOf (ap g.1, ap g.2.1, ap g.2.2)).lo, cmax b.hi (bboxOf (ap g.1, ap g.2.1, ap g.2.2)).hi⟩)
      (bboxOf (ap f.1, ap f.2.1, ap f.2.2)))

/-- `snapper.hpp:352-361` - `honored_by_star` -/
noncomputable def honoredByStar (I : Input) (m : Mesh) (s : State) (v i : Nat) : Outcome Bool := do
  let fs ← facesOfPatches m s (m.vertexFaces v)
  Outcome.ok (fs.any fun f => hasRow f v && honoredBy I s i f)

/-- `snapper.hpp:405-426` - `points_honored_by_star`; converting infinite bounds to cells is undefined -/
noncomputable def pointsHonoredByStar (I : Input) (m : Mesh) (s : State) (v : Nat) : Outcome (State × List Nat) := do
  let fs ← facesOfPatches m s (m.vertexFaces v)
  match boxOf s.ap (fs.filter fun f => hasRow f v) with
  | none => .ub
  | some b => do
      let (g, r) ← s.sgrid.forEach I.cellOf b (collectHits (honoredByStar I m s v)) (.ok [])
      let l ← r
      Outcome.ok ({ s with sgrid := g }, l)

/-- `snapper.hpp:247-253` - `collect_dishonored` -/
noncomputable def collectDishonored (I : Input) (m : Mesh) : List Nat → State → Outcome (State × List Nat)
  | [], s => .ok (s, [])
  | i :: is, s => do
      let (s, b) ← honoredByMesh I m s i
      let (s, l) ← collectDishonored I m is s
      Outcome.ok (s, if b then l else i :: l)

/-! ## Accepting a placement -/

/-- The tentative triangulations of some patches. -/
abbrev Changed := List (Nat × List Face)

open Classical in
/-- `snapper.hpp:280-292` - `folded` -/
noncomputable def folded (m : Mesh) (s : State) (changed : Changed) : Bool :=
  changed.any fun c =>
    let f := m.face c.1
    let n := crossP (s.aq f.2.1 - s.aq f.1) (s.aq f.2.2 - s.aq f.1)
    c.2.any fun g => decide (dotP (crossP (s.ap g.2.1 - s.ap g.1) (s.ap g.2.2 - s.ap g.1)) n < 0)

/-- Whether a face intersects one of a list; an exception ends the loop. -/
noncomputable def hitsList (s : State) (a : Face) : List Face → Outcome Bool
  | [] => .ok false
  | b :: bs => do
      let h ← s.intersect a b
      if h then Outcome.ok true else hitsList s a bs

/-- `snapper.hpp:462-468` - any two of the changed faces -/
noncomputable def hitsEachOther (s : State) : List Face → Outcome Bool
  | [] => .ok false
  | a :: as => do
      let h ← hitsList s a as
      if h then Outcome.ok true else hitsEachOther s as

/-- `snapper.hpp:476-485` - a changed face against the patch `fj` -/
noncomputable def hitsPatch (m : Mesh) (s : State) (ids : List Nat) (a : Face) (fj : Nat) : Outcome Bool :=
  if ids.contains fj then .ok false
  else do
    let fs ← patchFaces m s fj
    hitsList s a fs

/-- `snapper.hpp:471-490` - the changed faces against the other patches -/
noncomputable def hitsOthers (I : Input) (m : Mesh) (ids : List Nat) : List Face → State → Outcome (State × Bool)
  | [], s => .ok (s, false)
  | a :: as, s => do
      let (g, r) ← s.fgrid.forEach I.cellOf (bboxOf (s.atri a)) (stopAtHit (hitsPatch m s ids a)) (.ok false)
      let h ← r
      if h then Outcome.ok ({ s with fgrid := g }, true) else hitsOthers I m ids as { s with fgrid := g }

/-- `snapper.hpp:452-492` - `self_intersects` -/
noncomputable def selfIntersects (I : Input) (m : Mesh) (s : State) (changed : Changed) : Outcome (State × Bool) := do
  let fs := changed.flatMap (·.2)
  let h ← hitsEachOther s fs
  if h then Outcome.ok (s, true) else hitsOthers I m (changed.map (·.1)) fs s

/-- `snapper.hpp:436-448` - `reindex_patch` -/
noncomputable def reindexPatch (I : Input) (m : Mesh) (s : State) (fi : Nat) : Outcome State := do
  let g ← s.fgrid.remove I.cellOf fi
  let fs ← patchFaces m s fi
  match boxOf s.ap fs with
  | none => .ub
  | some b => Outcome.ok { s with fgrid := g.insert I.cellOf ⟨0, 0⟩ fi b, honored := upd s.honored fi none }

/-- Several patches. -/
noncomputable def reindexAll (I : Input) (m : Mesh) : List Nat → State → Outcome State
  | [], s => .ok s
  | fi :: fis, s => do
      let s ← reindexPatch I m s fi
      reindexAll I m fis s

/-- `patches_.at(fi).faces = changed.at(fi); reindex_patch(fi);` for each changed patch (`snapper.hpp:687-690, 714-715`) -/
noncomputable def commit (I : Input) (m : Mesh) : Changed → State → Outcome State
  | [], s => .ok s
  | c :: cs, s => do
      let s ← reindexPatch I m { s with cached := upd s.cached c.1 c.2 } c.1
      commit I m cs s

/-- What an attempt gives: the state, whether the point was placed, and the points it knocked off the surface. -/
abbrev Attempt := Outcome (State × Bool × List Nat)

/-- `triangulate_patch` of each patch until one is not simple (`snapper.hpp:675-680`) -/
noncomputable def triangulateAll (m : Mesh) (s : State) : List Nat → Outcome (Changed × Bool)
  | [] => .ok ([], true)
  | fi :: fis => do
      let (fs, simple) ← triangulatePatch m s fi
      if simple then do
        let (c, b) ← triangulateAll m s fis
        Outcome.ok ((fi, fs) :: c, b)
      else Outcome.ok ([(fi, fs)], false)

/-- `std::ranges::lower_bound` and `insert` in a chain (`snapper.hpp:666`) -/
noncomputable def insertChain (t : ℝ) (v : Nat) : List (ℝ × Nat) → List (ℝ × Nat)
  | [] => [(t, v)]
  | x :: xs => open Classical in if x.1 < t then x :: insertChain t v xs else (t, v) :: x :: xs

/-- The rest of an attempt that put the point in a chain or in a patch (`snapper.hpp:682-694, 708-717`): the test, and then what
follows a success; `back` undoes the insertion. -/
noncomputable def finish (I : Input) (m : Mesh) (s : State) (ok : Bool) (changed : Changed) (prev : List Nat) (back : State → State) : Attempt :=
  if ok = false ∨ folded m s changed = true then .ok (back s, false, [])
  else do
    let (s, hit) ← selfIntersects I m s changed
    if hit then Outcome.ok (back s, false, [])
    else do
      let s ← commit I m changed s
      let (s, dis) ← collectDishonored I m prev s
      Outcome.ok (s, true, dis)

/-- The number of the corner `k` of a face's barycentric coordinates. -/
def at3 (l : ℝ × ℝ × ℝ) (k : Nat) : ℝ := if k = 0 then l.1 else if k = 1 then l.2.1 else l.2.2

/-- `snapper.hpp:665` - on the original edge -/
noncomputable def onEdgeAt (s : State) (e : Nat × Nat) (t : ℝ) : P3 := s.aq e.1 + t • (s.aq e.2 - s.aq e.1)

open Classical in
/-- `snapper.hpp:642-695` - `try_snap_edge`; `x` is the number of the vertex opposite to the edge -/
noncomputable def trySnapEdge (I : Input) (m : Mesh) (s : State) (c : Candidate) (x : Nat) : Attempt :=
  match c.l with
  | none => .ok (s, false, [])
  | some l =>
      let f := m.face c.fi
      let j := (x + 1) % 3
      let k := (x + 2) % 3
      if ¬ at3 l j + at3 l k > 0 then .ok (s, false, [])
      else
        let e := edgeOf (corner f j) (corner f k)
        let t := if e.1 ≠ corner f j then at3 l j / (at3 l k + at3 l j) else at3 l k / (at3 l j + at3 l k)
        let inc := m.facesOf e.1 e.2
        if inc.length < 2 then .ok (s, false, [])
        else do
          let (s, prev) ← pointsHonoredByPatches I m inc s
          let s := { s with aq := upd s.aq c.i (onEdgeAt s e t), chains := upd s.chains e (insertChain t c.i (s.chains e)) }
          let (changed, simple) ← triangulateAll m s inc
          finish I m s simple changed prev fun s => { s with chains := upd s.chains e ((s.chains e).filter fun y => y.2 ≠ c.i) }

/-- `snapper.hpp:698-721` - `try_snap_face` -/
noncomputable def trySnapFace (I : Input) (m : Mesh) (s : State) (c : Candidate) : Attempt := do
  let (s, prev) ← pointsHonoredByPatches I m [c.fi] s
  let s := { s with aq := upd s.aq c.i c.aq, interior := upd s.interior c.fi (s.interior c.fi ++ [c.i]) }
  let (fs, simple) ← triangulatePatch m s c.fi
  finish I m s (simple && fs.any fun f => hasRow f c.i) [(c.fi, fs)] prev fun s => { s with interior := upd s.interior c.fi (s.interior c.fi).dropLast }

/-- `snapper.hpp:734-737` -/
noncomputable def patchesAt (m : Mesh) (s : State) : List Nat → Outcome Changed
  | [] => .ok []
  | fi :: fis => do
      let fs ← patchFaces m s fi
      let c ← patchesAt m s fis
      Outcome.ok ((fi, fs) :: c)

/-- `snapper.hpp:724-750` - `try_snap_vertex` -/
noncomputable def trySnapVertex (I : Input) (m : Mesh) (s : State) (c : Candidate) (v : Nat) : Attempt := do
  let (s, prev) ← pointsHonoredByStar I m s v
  let p := s.p v
  let ap := s.ap v
  let s := { s with p := upd s.p v (s.p c.i), ap := upd s.ap v (s.ap c.i) }
  let changed ← patchesAt m s (m.vertexFaces v)
  if folded m s changed then Outcome.ok ({ s with p := upd s.p v p, ap := upd s.ap v ap }, false, [])
  else do
    let (s, hit) ← selfIntersects I m s changed
    if hit then Outcome.ok ({ s with p := upd s.p v p, ap := upd s.ap v ap }, false, [])
    else do
      let s ← reindexAll I m (m.vertexFaces v) s
      let (s, dis) ← collectDishonored I m prev s
      Outcome.ok (s, true, dis)

open Classical in
/-- `snapper.hpp:622-637` - `try_move_nearby_vertex` -/
noncomputable def tryMoveNearbyVertex (I : Input) (m : Mesh) (s : State) (c : Candidate) : Attempt :=
  if ¬ I.tol c.i ^ 2 > 0 then .ok (s, false, [])
  else
    match c.order.find? (fun x => decide (x ≤ 2)) with
    | none => .ok (s, false, [])
    | some x =>
        let v := corner (m.face c.fi) x
        let d := s.ap v - s.ap c.i
        if dotP d d ≤ I.tol c.i ^ 2 then trySnapVertex I m s c v else .ok (s, false, [])

/-- `snapper.hpp:639-653` - `try_snap` -/
noncomputable def trySnap (I : Input) (m : Mesh) (s : State) (c : Candidate) (x : Nat) : Attempt :=
  if x ≤ 2 then trySnapVertex I m s c (corner (m.face c.fi) x)
  else if x ≤ 5 then trySnapEdge I m s c (x - 3)
  else trySnapFace I m s c

/-- `snapper.hpp:519-524` - the cascade -/
noncomputable def cascade (I : Input) (m : Mesh) (c : Candidate) : List Nat → State → Attempt
  | [], s => .ok (s, false, [])
  | x :: xs, s => do
      let (s, ok, dis) ← trySnap I m s c x
      if ok then Outcome.ok (s, true, dis) else cascade I m c xs s

/-- `snapper.hpp:517-526` - one candidate; the list is empty if nothing was placed -/
noncomputable def place (I : Input) (m : Mesh) (s : State) (c : Candidate) : Attempt := do
  let (s, ok, dis) ← tryMoveNearbyVertex I m s c
  if ok then Outcome.ok (s, true, dis)
  else do
    let sat ← alreadySatisfied I m s c
    if sat then Outcome.ok (s, false, []) else cascade I m c c.order s

/-! ## The loop -/

/-- `snapper.hpp:112, 128-131` - `candidate_of_point` -/
def candidateOf (cs : List Candidate) (i : Nat) : Option Nat := cs.findIdx? fun c => c.i == i

/-- `snapper.hpp:501-503` - the order of the queue -/
def before (cs : List Candidate) (x y : Nat) : Prop := (cs[x]?.map (·.d2)).getD 0 < (cs[y]?.map (·.d2)).getD 0 ∨
  ((cs[x]?.map (·.d2)).getD 0 = (cs[y]?.map (·.d2)).getD 0 ∧ x ≤ y)

/-- `pq.push`: the queue is kept in order; equal entries are the same -/
noncomputable def push (cs : List Candidate) (x : Nat) : List Nat → List Nat
  | [] => [x]
  | y :: ys => open Classical in if before cs x y then x :: y :: ys else y :: push cs x ys

/-- `snapper.hpp:529-536` - one point is put in the queue again -/
noncomputable def requeue (cs : List Candidate) (qb : List Nat × (Nat → Nat)) (i : Nat) : List Nat × (Nat → Nat) :=
  match candidateOf cs i with
  | none => qb
  | some ci => if qb.2 ci > 0 then (push cs ci qb.1, upd qb.2 ci (qb.2 ci - 1)) else qb

/-- `snapper.hpp:514-537` - the loop; `none`: not finished after the given number of rounds -/
noncomputable def loop (I : Input) (m : Mesh) (cs : List Candidate) : Nat → State → List Nat → (Nat → Nat) → Option (Outcome State)
  | 0, _, _, _ => none
  | _ + 1, s, [], _ => some (.ok s)
  | n + 1, s, ci :: q, b =>
      match cs[ci]? with
      | none => some (.throws .outOfRange)
      | some c =>
          match place I m s c with
          | .ok (s, _, dis) => loop I m cs n s (dis.foldl (requeue cs) (q, b)).1 (dis.foldl (requeue cs) (q, b)).2
          | .throws e => some (.throws e)
          | .ub => some .ub

/-! ## Classification -/

/-- Back from Euclidean space. -/
noncomputable def ofE (x : E3) : P3 := (x 0, x 1, x 2)

/-- `snapper.hpp:182-185` - the nearest face so far -/
structure Nearest where
  fi : Nat
  aq : P3
  d2 : ℝ

open Classical in
/-- `snapper.hpp:190-201` - the callback; `box` is `face_grid_.box(fi)` -/
noncomputable def nearer (m : Mesh) (aq0 : Nat → P3) (box : Nat → Box ℝ) (ap : P3) (best : Option Nearest) (fi : Nat) : Option Nearest :=
  let d := ap - clampTo (box fi) ap
  let close := match best with
    | none => true
    | some b => decide (dotP d d < b.d2)
  if close then
    let f := m.face fi
    match pointTriangleClosest (toE ap) (toE (aq0 f.1)) (toE (aq0 f.2.1)) (toE (aq0 f.2.2)) with
    | none => best
    | some r =>
        match best with
        | none => some ⟨fi, ofE r.closest, r.dist2⟩
        | some b => if r.dist2 < b.d2 then some ⟨fi, ofE r.closest, r.dist2⟩ else some b
  else best

/-- A callback that never stops. -/
noncomputable def nearerFn (m : Mesh) (aq0 : Nat → P3) (box : Nat → Box ℝ) (ap : P3) (best : Option Nearest) (fi : Nat) : Option Nearest × Bool :=
  (nearer m aq0 box ap best fi, true)

/-- `igl::barycentric_coordinates` (`snapper.hpp:213-214`); `none`: not finite -/
noncomputable def barycentric (q a b c : P3) : Option (ℝ × ℝ × ℝ) :=
  let v0 := b - a
  let v1 := c - a
  let v2 := q - a
  let d00 := dotP v0 v0
  let d01 := dotP v0 v1
  let d11 := dotP v1 v1
  let d20 := dotP v2 v0
  let d21 := dotP v2 v1
  let denom := d00 * d11 - d01 * d01
  open Classical in
  if denom = 0 then none
  else
    let l1 := (d11 * d20 - d01 * d21) / denom
    let l2 := (d00 * d21 - d01 * d20) / denom
    some (1 - (l1 + l2), l1, l2)

/-- `snapper.hpp:217-218` - `sites` -/
noncomputable def site (a b c : P3) (x : Nat) : P3 :=
  if x = 0 then a else if x = 1 then b else if x = 2 then c
  else if x = 3 then (1 / 2 : ℝ) • (b + c) else if x = 4 then (1 / 2 : ℝ) • (c + a) else if x = 5 then (1 / 2 : ℝ) • (a + b)
  else (1 / 3 : ℝ) • (a + b + c)

/-- `snapper.hpp:203-236` - what becomes of a point, given the nearest face -/
noncomputable def candidate (I : Input) (S : Sorts) (m : Mesh) (aq0 : Nat → P3) (i : Nat) (best : Option Nearest) : Option Candidate :=
  match best with
  | none => none
  | some b =>
      open Classical in
      if b.d2 > I.resolution * I.resolution then none
      else
        let f := m.face b.fi
        some ⟨i, b.fi, b.aq, b.d2, barycentric b.aq (aq0 f.1) (aq0 f.2.1) (aq0 f.2.2),
          S.order fun x => dotP (b.aq - site (aq0 f.1) (aq0 f.2.1) (aq0 f.2.2) x) (b.aq - site (aq0 f.1) (aq0 f.2.1) (aq0 f.2.2) x)⟩

/-- `snapper.hpp:174-238` - the candidates of the given points and the number of points skipped -/
noncomputable def classify (I : Input) (S : Sorts) (m : Mesh) : List Nat → State → Outcome (State × List Candidate × Nat)
  | [], s => .ok (s, [], 0)
  | i :: is, s => do
      let (g, best) ← s.fgrid.forEach I.cellOf (ballBox (s.ap i) I.resolution) (nearerFn m s.aq s.fgrid.box (s.ap i)) none
      let (s, cs, k) ← classify I S m is { s with fgrid := g }
      match candidate I S m s.aq i best with
      | some c => Outcome.ok (s, c :: cs, k)
      | none => Outcome.ok (s, cs, k + 1)

/-! ## The constructor -/

/-- `snap.hpp` - `Stats` -/
structure Stats where
  honored : Nat
  dishonored : Nat
  skipped : Nat

/-- `snapper.hpp:121-127` - a face of the given mesh is put in `face_grid_` -/
noncomputable def indexFace (I : Input) (m : Mesh) (s : State) (fi : Nat) : State :=
  { s with fgrid := s.fgrid.insert I.cellOf ⟨0, 0⟩ fi (bboxOf (s.aq (m.face fi).1, s.aq (m.face fi).2.1, s.aq (m.face fi).2.2)) }

/-- `snapper.hpp:98-127` - the state before the classification; the rows of `aq_` that belong to snap points are not yet set (and not read
before they are) -/
noncomputable def start (I : Input) (m : Mesh) : State :=
  (List.range m.nf).foldl (indexFace I m) ⟨p0 I, fun r => I.T (p0 I r), fun r => I.T (p0 I r), fun _ => [], fun _ => [], fun _ => none, fun _ => [],
    snapGrid I, FaceGrid.init ⟨0, 0⟩ I.faces.length⟩

/-- `snapper.hpp:133-142` - counting -/
noncomputable def count (I : Input) (m : Mesh) (cs : List Candidate) : List Nat → State → Outcome (State × Nat × Nat)
  | [], s => .ok (s, 0, 0)
  | i :: is, s =>
      match candidateOf cs i with
      | none => count I m cs is s
      | some _ => do
          let (s, b) ← honoredByMesh I m s i
          let (s, h, d) ← count I m cs is s
          Outcome.ok (s, if b then h + 1 else h, if b then d else d + 1)

/-- `snapper.hpp:255-278` - `emit`; the numbering of the rows is that of `Thinner.emit` -/
noncomputable def emit (m : Mesh) (s : State) : Outcome (List P3 × List Face) := do
  let fs ← facesOfPatches m s (List.range m.nf)
  Outcome.ok (Thinner.emit s.p fs ([], fun _ => none))

/-- The result of `snap_mesh`: the mesh and the counts. -/
structure Result where
  vertices : List P3
  faces : List Face
  stats : Stats

/-- After the loop (`snapper.hpp:133-145`). -/
noncomputable def conclude (I : Input) (m : Mesh) (cs : List Candidate) (skipped : Nat) (s : State) : Outcome Result := do
  let (s, h, d) ← count I m cs (List.range (np I)) s
  let (vs, fs) ← emit m s
  Outcome.ok ⟨vs, fs, ⟨h, d, skipped⟩⟩

/-- `snapper.hpp:98-146` - the constructor -/
noncomputable def build (I : Input) (S : Sorts) (fuel : Nat) : Option (Outcome Result) :=
  match Mesh.ofFaces (shifted I) with
  | .throws e => some (.throws e)
  | .ub => some .ub
  | .ok m =>
      if I.tolerances.length ≠ 0 ∧ I.tolerances.length ≠ np I then some (.throws .invalidArgument)
      else
        match classify I S m (List.range (np I)) (start I m) with
        | .throws e => some (.throws e)
        | .ub => some .ub
        | .ok (s, cs, skipped) =>
            let cs := S.candidates cs
            match loop I m cs fuel s ((List.range cs.length).foldl (fun q ci => push cs ci q) []) (fun _ => kSnapBudget) with
            | none => none
            | some (.throws e) => some (.throws e)
            | some .ub => some .ub
            | some (.ok s) => some (conclude I m cs skipped s)

/-- `snap.cpp:9-24` - `snap_mesh`; `none`: the loop is not finished after `fuel` rounds -/
noncomputable def snapMesh (I : Input) (S : Sorts) (fuel : Nat) : Option (Outcome Result) :=
  if I.points.length = 0 ∨ I.faces.length = 0 then some (.ok ⟨I.vertices, I.faces, ⟨0, 0, 0⟩⟩)
  else build I S fuel

end Verif.Snapper
