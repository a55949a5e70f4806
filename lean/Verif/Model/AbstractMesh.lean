import Verif.Model.Outcome
import Mathlib.Data.List.Nodup

/-!
# src/isosurface/abstract_mesh.hpp

Vertices, faces and halfedges are natural numbers; a halfedge is `4 * fi + k` and the invalid halfedge is `none`.  `vh_` is a total
function (a vertex beyond its size has no halfedges, `abstract_mesh.hpp:292-302`).  `opp_` is a total function; its size is always
`4 * nf_`, and the checked accesses are only ever made inside of it except in `opposite`, where the check is kept.  A call that throws
leaves a state behind, so calls return both.
-/

namespace Verif.AbstractMesh

open Verif

/-- A row of `faces_`. -/
abbrev Face := Nat × Nat × Nat

/-- `f(k)` for `k` in 0..2 -/
def corner (f : Face) (k : Nat) : Nat := if k = 0 then f.1 else if k = 1 then f.2.1 else f.2.2

/-- `abstract_mesh.hpp:360-364`; `cap` is the number of rows of `faces_`. -/
structure Mesh where
  cap : Nat
  face : Nat → Face
  nf : Nat
  deleted : Nat → Bool
  opp : Nat → Option Nat
  vh : Nat → List Nat

/-- `abstract_mesh.hpp:306` -/
def ccw (k : Nat) : Nat := if k = 2 then 0 else k + 1

/-- `abstract_mesh.hpp:307` -/
def cw (k : Nat) : Nat := if k = 0 then 2 else k - 1

/-- An assignment to a vector element. -/
def upd {α : Type} (f : Nat → α) (i : Nat) (x : α) : Nat → α := fun j => if j = i then x else f j

namespace Mesh

/-- `abstract_mesh.hpp:221` -/
def from_ (m : Mesh) (h : Nat) : Nat := corner (m.face (h / 4)) (h % 4)

/-- `abstract_mesh.hpp:290` -/
def to_ (m : Mesh) (h : Nat) : Nat := corner (m.face (h / 4)) (ccw (h % 4))

/-- `abstract_mesh.hpp:142`, for a valid halfedge -/
def apex (m : Mesh) (h : Nat) : Nat := corner (m.face (h / 4)) (cw (h % 4))

/-- `abstract_mesh.hpp:267`: `(h.i & ~3) + ccw(h.i & 3)` -/
def next (h : Nat) : Nat := 4 * (h / 4) + ccw (h % 4)

/-- `abstract_mesh.hpp:276` -/
def prev (h : Nat) : Nat := 4 * (h / 4) + cw (h % 4)

/-- `abstract_mesh.hpp:228-235` -/
def halfedgeOf (m : Mesh) (a b : Nat) : Option Nat := (m.vh a).find? (fun h => m.to_ h == b)

/-- `abstract_mesh.hpp:273` -/
def opposite (m : Mesh) (h : Nat) : Outcome (Option Nat) := if h < 4 * m.nf then .ok (m.opp h) else .throws .outOfRange

/-- `abstract_mesh.hpp:292-296` and `VertexFaceRange` (20-64) -/
def vertexFaces (m : Mesh) (v : Nat) : List Nat := (m.vh v).map (fun h => h / 4)

/-- `abstract_mesh.hpp:312-324` - one round of the first loop of `register_face`; `true` if it threw. -/
def registerEdge (fi : Nat) (m : Mesh) (k : Nat) : Mesh × Bool :=
  let h := 4 * fi + k
  let a := corner (m.face fi) k
  let b := corner (m.face fi) ((k + 1) % 3)
  if (m.halfedgeOf a b).isSome then (m, true)
  else
    match m.halfedgeOf b a with
    | some o => ({ m with opp := upd (upd m.opp h (some o)) o (some h) }, false)
    | none => ({ m with opp := upd m.opp h none }, false)

/-- `abstract_mesh.hpp:325-331` - one round of the second loop of `register_face`. -/
def pushHalfedge (fi : Nat) (m : Mesh) (k : Nat) : Mesh :=
  let v := corner (m.face fi) k
  { m with vh := upd m.vh v (m.vh v ++ [4 * fi + k]) }

/-- `abstract_mesh.hpp:309-332` -/
def registerFace (m : Mesh) (fi : Nat) : Mesh × Outcome Unit :=
  let (m, t) := registerEdge fi m 0
  if t then (m, .throws .runtimeError)
  else
    let (m, t) := registerEdge fi m 1
    if t then (m, .throws .runtimeError)
    else
      let (m, t) := registerEdge fi m 2
      if t then (m, .throws .runtimeError)
      else (pushHalfedge fi (pushHalfedge fi (pushHalfedge fi m 0) 1) 2, .ok ())

/-- `abstract_mesh.hpp:343-350` - one round of the loop of `unregister_face`. -/
def unregisterEdge (fi : Nat) (m : Mesh) (k : Nat) : Mesh :=
  let h := 4 * fi + k
  let opp := match m.opp h with
    | some o => upd (upd m.opp o none) h none
    | none => m.opp
  let v := corner (m.face fi) k
  { m with opp := opp, vh := upd m.vh v ((m.vh v).filter (fun x => x ≠ h)) }

/-- `abstract_mesh.hpp:340-352` -/
def unregisterFace (m : Mesh) (fi : Nat) : Mesh :=
  unregisterEdge fi (unregisterEdge fi (unregisterEdge fi m 0) 1) 2

/-- `faces_.row(fi) = f` -/
def setRow (m : Mesh) (fi : Nat) (f : Face) : Mesh := { m with face := upd m.face fi f }

/-- `abstract_mesh.hpp:334-338` -/
def setFace (m : Mesh) (fi : Nat) (f : Face) : Mesh × Outcome Unit := ((m.unregisterFace fi).setRow fi f).registerFace fi

/-- `abstract_mesh.hpp:129` -/
def empty (cap : Nat) : Mesh := ⟨cap, fun _ => (0, 0, 0), 0, fun _ => false, fun _ => none, fun _ => []⟩

/-- `abstract_mesh.hpp:131-138` - a row beyond the capacity is undefined behaviour. -/
def addFace (m : Mesh) (f : Face) : Mesh × Outcome Nat :=
  if m.nf < m.cap then
    let fi := m.nf
    let m := { m with nf := m.nf + 1, face := upd m.face fi f, deleted := upd m.deleted fi false,
                      opp := fun h => if h < 4 * m.nf then m.opp h else none }
    match m.registerFace fi with
    | (m, .ok ()) => (m, .ok fi)
    | (m, .throws e) => (m, .throws e)
    | (m, .ub) => (m, .ub)
  else (m, .ub)

/-- `abstract_mesh.hpp:123-125` -/
def registerAll : List Nat → Mesh → Mesh × Outcome Unit
  | [], m => (m, .ok ())
  | fi :: fis, m =>
      match m.registerFace fi with
      | (m, .ok ()) => registerAll fis m
      | r => r

/-- `abstract_mesh.hpp:121-126` - the constructor from a face list; there is no object if it throws. -/
def ofFaces (fs : List Face) : Outcome Mesh :=
  match registerAll (List.range fs.length)
    ⟨fs.length, fun i => fs.getD i (0, 0, 0), fs.length, fun _ => false, fun _ => none, fun _ => []⟩ with
  | (m, .ok ()) => .ok m
  | (_, .throws e) => .throws e
  | (_, .ub) => .ub

/-- `abstract_mesh.hpp:177-186` - `faces_of` -/
def facesOf (m : Mesh) (a b : Nat) : List Nat :=
  ((m.halfedgeOf a b).map (fun h => h / 4)).toList ++ ((m.halfedgeOf b a).map (fun h => h / 4)).toList

/-- `abstract_mesh.hpp:189-205` - `flip` of the edge with ends `a` and `b`; without both faces the rows `-1` are accessed
(undefined). -/
def flip (m : Mesh) (a b : Nat) : Mesh × Outcome Unit :=
  match m.halfedgeOf a b, m.halfedgeOf b a with
  | some h0, some h1 =>
      let fi0 := h0 / 4
      let fi1 := h1 / 4
      let c := m.apex h0
      let d := m.apex h1
      let m := (m.unregisterFace fi0).unregisterFace fi1
      let m := (m.setRow fi0 (c, a, d)).setRow fi1 (d, b, c)
      match m.registerFace fi0 with
      | (m, .ok ()) => m.registerFace fi1
      | r => r
  | _, _ => (m, .ub)

/-- `abstract_mesh.hpp:242-247` -/
def insertInFace (m : Mesh) (fi v : Nat) : Mesh × Outcome Unit :=
  let f := m.face fi
  match m.setFace fi (f.1, f.2.1, v) with
  | (m, .ok ()) =>
      match m.addFace (f.2.1, f.2.2, v) with
      | (m, .ok _) =>
          match m.addFace (f.2.2, f.1, v) with
          | (m, .ok _) => (m, .ok ())
          | (m, .throws e) => (m, .throws e)
          | (m, .ub) => (m, .ub)
      | (m, .throws e) => (m, .throws e)
      | (m, .ub) => (m, .ub)
  | r => r

/-- `abstract_mesh.hpp:255-260` - the side of the face on the edge; 0 if there is none. -/
def sideOn (f : Face) (a b : Nat) : Nat :=
  ((List.range 3).find? (fun k => (corner f k == a && corner f ((k + 1) % 3) == b) ||
    (corner f k == b && corner f ((k + 1) % 3) == a))).getD 0

/-- `abstract_mesh.hpp:252-264` - one round of the loop. -/
def splitSide (m : Mesh) (a b v fi : Nat) : Mesh × Outcome Unit :=
  let f := m.face fi
  let i := sideOn f a b
  match m.setFace fi (corner f i, v, corner f ((i + 2) % 3)) with
  | (m, .ok ()) =>
      match m.addFace (v, corner f ((i + 1) % 3), corner f ((i + 2) % 3)) with
      | (m, .ok _) => (m, .ok ())
      | (m, .throws e) => (m, .throws e)
      | (m, .ub) => (m, .ub)
  | r => r

def splitSides (a b v : Nat) : List Nat → Mesh → Mesh × Outcome Unit
  | [], m => (m, .ok ())
  | fi :: fis, m =>
      match m.splitSide a b v fi with
      | (m, .ok ()) => splitSides a b v fis m
      | r => r

/-- `abstract_mesh.hpp:250-264` -/
def insertOnEdge (m : Mesh) (a b v : Nat) : Mesh × Outcome Unit := splitSides a b v (m.facesOf a b) m

/-- `(f.array() == v).any()` -/
def hasCorner (f : Face) (v : Nat) : Bool := f.1 == v || f.2.1 == v || f.2.2 == v

/-- `(f.array() == v).select(w, f)` -/
def retarget (f : Face) (v w : Nat) : Face :=
  (if f.1 = v then w else f.1, if f.2.1 = v then w else f.2.1, if f.2.2 = v then w else f.2.2)

/-- `abstract_mesh.hpp:157-168` -/
def retargetAll (v w : Nat) : List Nat → Mesh → Mesh × Outcome (List Nat)
  | [], m => (m, .ok [])
  | fi :: fis, m =>
      if hasCorner (m.face fi) w then retargetAll v w fis { m with deleted := upd m.deleted fi true }
      else
        match (m.setRow fi (retarget (m.face fi) v w)).registerFace fi with
        | (m, .ok ()) =>
            match retargetAll v w fis m with
            | (m, .ok l) => (m, .ok (fi :: l))
            | r => r
        | (m, .throws e) => (m, .throws e)
        | (m, .ub) => (m, .ub)

/-- `abstract_mesh.hpp:147-169` -/
def collapse (m : Mesh) (h : Nat) : Mesh × Outcome (List Nat) :=
  let v := m.from_ h
  let w := m.to_ h
  let star := m.vertexFaces v
  retargetAll v w star (star.foldl unregisterFace m)

/-- `abstract_mesh.hpp:208-218` - the halfedges visited by `for_each_halfedge`, in order. -/
def halfedges (m : Mesh) : List Nat :=
  ((List.range m.nf).filter (fun fi => !m.deleted fi)).flatMap fun fi => [4 * fi, 4 * fi + 1, 4 * fi + 2]

/-- `abstract_mesh.hpp:278-287` -/
def takeFaces (m : Mesh) : List Face := ((List.range m.nf).filter (fun fi => !m.deleted fi)).map m.face

end Mesh

end Verif.AbstractMesh
