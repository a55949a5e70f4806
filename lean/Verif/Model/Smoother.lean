import Verif.Model.Thinner
import Mathlib.Analysis.SpecialFunctions.Trigonometric.Inverse

/-!
# src/isosurface/snapper/smoother.hpp, and `smooth_snapped_mesh` of src/isosurface/snap.cpp

Arithmetic is exact.  The arguments are those of `thin_snapped_mesh`, and so is the state (mesh and two grids).  The priority queue is a
list; which of the entries with the greatest key is taken first depends on the heap, so taking an entry is a parameter.
-/

namespace Verif.Smoother

open Verif Verif.AbstractMesh Verif.SpatialGrid Verif.MeshDefects Verif.Predicates Verif.Thinner

/-- `smoother.hpp:46-57` -/
structure Flip where
  fi0 : Nat
  fi1 : Nat
  x : Nat
  y : Nat
  c : Nat
  d : Nat
  improve : ℝ

/-- `smoother.hpp:55` -/
def Flip.newF0 (fl : Flip) : AbstractMesh.Face := (fl.c, fl.x, fl.d)

/-- `smoother.hpp:56` -/
def Flip.newF1 (fl : Flip) : AbstractMesh.Face := (fl.d, fl.y, fl.c)

/-- `smoother.hpp:61-64`; `a < b` are the ends of the edge -/
structure Item where
  a : Nat
  b : Nat
  improve : ℝ

/-- `smoother.hpp:40` - `kPi` -/
noncomputable def kPi : ℝ := 3.141592653589793

open Classical in
/-- `smoother.hpp:141-150` - `bend` -/
noncomputable def bend (I : Input) (f g : AbstractMesh.Face) : ℝ :=
  let na := I.normal f
  let nb := I.normal g
  let da := √(dotP na na)
  let db := √(dotP nb nb)
  if ¬ da > 0 ∨ ¬ db > 0 then kPi
  else Real.arccos (max (-1) (min (dotP na nb / (da * db)) 1))

/-- `smoother.hpp:153` - `bend_with` -/
noncomputable def bendWith (I : Input) (m : AbstractMesh.Mesh) (f : AbstractMesh.Face) (fi : Option Nat) : ℝ :=
  match fi with
  | none => 0
  | some fi => bend I f (m.face fi)

/-- `mesh_.face(mesh_.opposite(h))` for a valid `h` (`abstract_mesh.hpp:174, 273`) -/
def acrossOf (m : AbstractMesh.Mesh) (h : Nat) : Outcome (Option Nat) := do
  let o ← m.opposite h
  return o.map (· / 4)

/-- `smoother.hpp:275-276` - the summed bend before the flip -/
noncomputable def before (I : Input) (m : AbstractMesh.Mesh) (f0 f1 : AbstractMesh.Face) (cx yc xd dy : Option Nat) : ℝ :=
  bend I f0 f1 + bendWith I m f0 cx + bendWith I m f0 yc + bendWith I m f1 xd + bendWith I m f1 dy

/-- `smoother.hpp:277-278` - and after it -/
noncomputable def after (I : Input) (m : AbstractMesh.Mesh) (f0 f1 : AbstractMesh.Face) (cx yc xd dy : Option Nat) : ℝ :=
  bend I f0 f1 + bendWith I m f0 cx + bendWith I m f1 yc + bendWith I m f0 xd + bendWith I m f1 dy

open Classical in
/-- `smoother.hpp:246-291` - `score` of the edge with the ends `a < b` -/
noncomputable def score (I : Input) (m : AbstractMesh.Mesh) (a b : Nat) : Outcome (Option Flip) :=
  match m.halfedgeOf a b with
  | none => .ok none
  | some h => do
      let o ← m.opposite h
      match o with
      | none => Outcome.ok none
      | some o =>
          let x := m.from_ h
          let y := m.to_ h
          let c := m.apex h
          let d := m.apex o
          if c = d ∨ hasEdge m c d then Outcome.ok none
          else do
            let cx ← acrossOf m (Mesh.prev h)
            let yc ← acrossOf m (Mesh.next h)
            let xd ← acrossOf m (Mesh.next o)
            let dy ← acrossOf m (Mesh.prev o)
            let bef := before I m (m.face (h / 4)) (m.face (o / 4)) cx yc xd dy
            let aft := after I m (c, x, d) (d, y, c) cx yc xd dy
            if ¬ aft < bef - 1 / 1000000 then Outcome.ok none
            else if dotP (I.ap c - I.ap d) (I.ap c - I.ap d) > max (dotP (I.ap x - I.ap y) (I.ap x - I.ap y)) I.maxEdge2 then Outcome.ok none
            else Outcome.ok (some ⟨h / 4, o / 4, x, y, c, d, bef - aft⟩)

/-- `smoother.hpp:202-207` - `add_neighbour` -/
def neighbourFace (m : AbstractMesh.Mesh) (a b : Nat) : Outcome (List AbstractMesh.Face) :=
  match m.halfedgeOf a b with
  | none => .ok []
  | some h => do
      let g ← acrossOf m h
      return (g.map m.face).toList

/-- `smoother.hpp:212-214` - the box of the four corners -/
noncomputable def quadBox (I : Input) (fl : Flip) : Box ℝ :=
  [fl.y, fl.c, fl.d].foldl (fun b x => ⟨cmin b.lo (I.ap x), cmax b.hi (I.ap x)⟩) ⟨I.ap fl.x, I.ap fl.x⟩

open Classical in
/-- `smoother.hpp:192-229` - `honors_ok` -/
noncomputable def honorsOk (I : Input) (s : State) (fl : Flip) : Outcome (State × Bool) :=
  if ∀ c, s.sgrid.grid c = none then .ok (s, true)
  else do
    let f0 := s.mesh.face fl.fi0
    let f1 := s.mesh.face fl.fi1
    let n0 ← neighbourFace s.mesh fl.c fl.x
    let n1 ← neighbourFace s.mesh fl.y fl.c
    let n2 ← neighbourFace s.mesh fl.x fl.d
    let n3 ← neighbourFace s.mesh fl.d fl.y
    let afterFaces := [fl.newF0, fl.newF1] ++ n0 ++ n1 ++ n2 ++ n3
    let (g, ok) ← s.sgrid.forEach I.cellOf (quadBox I fl) (fun ok i =>
      if !I.honoredBy i f0 && !I.honoredBy i f1 then (ok, true)
      else if afterFaces.all (fun f => !I.honoredBy i f) then (false, false)
      else (ok, true)) true
    return ({ s with sgrid := g }, ok)

/-- `smoother.hpp:157-164, 181-183` - `guard_ok` with `crosses`; whether one of the new triangles hits another face -/
noncomputable def guardHit (I : Input) (s : State) (fl : Flip) : Outcome (State × Bool) := hitsAny I [fl.fi0, fl.fi1] [fl.newF0, fl.newF1] s

/-- `smoother.hpp:170-176` - `do_flip` -/
noncomputable def doFlip (I : Input) (s : State) (fl : Flip) : Outcome State := do
  let g ← unindexAll I [fl.fi0, fl.fi1] s.fgrid
  match s.mesh.flip fl.x fl.y with
  | (m, .ok ()) => Outcome.ok ([fl.fi0, fl.fi1].foldl (indexFace I) { s with mesh := m, fgrid := g })
  | (_, .throws e) => .throws e
  | (_, .ub) => .ub

/-- `smoother.hpp:94-98` - `enqueue` an edge -/
noncomputable def enqueue (I : Input) (m : AbstractMesh.Mesh) (u v : Nat) (q : List Item) : Outcome (List Item) := do
  let fl ← score I m (min u v) (max u v)
  match fl with
  | some fl => Outcome.ok (⟨min u v, max u v, fl.improve⟩ :: q)
  | none => Outcome.ok q

/-- `smoother.hpp:100-102` - edges with two faces, once; `o` is the opposite halfedge -/
noncomputable def enqueueIf (I : Input) (m : AbstractMesh.Mesh) (u v : Nat) (o : Option Nat) (q : List Item) : Outcome (List Item) :=
  if u < v ∧ o.isSome then enqueue I m u v q else .ok q

/-- `smoother.hpp:99-103` -/
noncomputable def enqueueAll (I : Input) (m : AbstractMesh.Mesh) : List Nat → List Item → Outcome (List Item)
  | [], q => .ok q
  | h :: hs, q => do
      let o ← m.opposite h
      let q ← enqueueIf I m (m.from_ h) (m.to_ h) o q
      enqueueAll I m hs q

/-- `smoother.hpp:125-128` - the three edges of the neighbour -/
noncomputable def rescoreFace (I : Input) (m : AbstractMesh.Mesh) (g : AbstractMesh.Face) (q : List Item) : Outcome (List Item) := do
  let q ← enqueue I m g.1 g.2.1 q
  let q ← enqueue I m g.2.1 g.2.2 q
  enqueue I m g.2.2 g.1 q

/-- `smoother.hpp:122-128` - the edges of the face across, if there is one that did not change -/
noncomputable def rescoreAcross (I : Input) (m : AbstractMesh.Mesh) (fi0 fi1 : Nat) (gi : Option Nat) (q : List Item) : Outcome (List Item) :=
  match gi with
  | some gi => if gi ≠ fi0 ∧ gi ≠ fi1 then rescoreFace I m (m.face gi) q else .ok q
  | none => .ok q

/-- `smoother.hpp:119-131` - the edges of the two changed faces and of their neighbours; `hs` are the halfedges of the two faces -/
noncomputable def rescore (I : Input) (m : AbstractMesh.Mesh) (fi0 fi1 : Nat) : List Nat → List Item → Outcome (List Item)
  | [], q => .ok q
  | h :: hs, q => do
      let q ← enqueue I m (m.from_ h) (m.to_ h) q
      let gi ← acrossOf m h
      let q ← rescoreAcross I m fi0 fi1 gi q
      rescore I m fi0 fi1 hs q

/-- `smoother.hpp:119-121` -/
def sidesOf (fi0 fi1 : Nat) : List Nat := [4 * fi0, 4 * fi0 + 1, 4 * fi0 + 2, 4 * fi1, 4 * fi1 + 1, 4 * fi1 + 2]

/-- `smoother.hpp:110-113` - whether the popped edge may be flipped, and the flip -/
noncomputable def admit (I : Input) (s : State) (e : Item) : Outcome (State × Option Flip) := do
  let fl ← score I s.mesh e.a e.b
  match fl with
  | none => Outcome.ok (s, none)
  | some fl => do
      let (s, ok) ← honorsOk I s fl
      if ok = false then Outcome.ok (s, none)
      else do
        let (s, hit) ← guardHit I s fl
        if hit then Outcome.ok (s, none) else Outcome.ok (s, some fl)

/-- Taking an entry with the greatest key from the queue. -/
abbrev Pop := List Item → Option (Item × List Item)

/-- `smoother.hpp:106` - the greatest number of flips but one -/
def cap (m : AbstractMesh.Mesh) : Nat := 50 * max m.nf 1

/-- `smoother.hpp:107-132` - the loop; `none`: not finished after the given number of rounds -/
noncomputable def loop (I : Input) (pop : Pop) : Nat → State → List Item → Nat → Option (Outcome State)
  | 0, _, _, _ => none
  | n + 1, s, q, flips =>
      match pop q with
      | none => some (.ok s)
      | some (e, q) =>
          match admit I s e with
          | .ok (s, none) => loop I pop n s q flips
          | .ok (s, some fl) =>
              match doFlip I s fl with
              | .ok s =>
                  if flips + 1 > cap s.mesh then some (.ok s)
                  else
                    match rescore I s.mesh fl.fi0 fl.fi1 (sidesOf fl.fi0 fl.fi1) q with
                    | .ok q => loop I pop n s q (flips + 1)
                    | .throws e => some (.throws e)
                    | .ub => some .ub
              | .throws e => some (.throws e)
              | .ub => some .ub
          | .throws e => some (.throws e)
          | .ub => some .ub

/-- `smoother.hpp:71-135` and `snap.cpp:34-37` - `smooth_snapped_mesh` -/
noncomputable def smoothSnappedMesh (I : Input) (pop : Pop) (fuel : Nat) : Option (Outcome (List P3 × List AbstractMesh.Face)) :=
  match start I with
  | .ok s =>
      match enqueueAll I s.mesh s.mesh.halfedges [] with
      | .ok q =>
          match loop I pop fuel s q 0 with
          | some (.ok s) => some (.ok (I.vertices, s.mesh.takeFaces))
          | some (.throws e) => some (.throws e)
          | some .ub => some .ub
          | none => none
      | .throws e => some (.throws e)
      | .ub => some .ub
  | .throws e => some (.throws e)
  | .ub => some .ub

end Verif.Smoother
