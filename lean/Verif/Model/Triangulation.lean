import Verif.Model.AbstractMesh
import Verif.Model.Thinner
import Verif.Model.Predicates

/-!
# src/isosurface/snapper/triangulation.hpp

The class asks the arithmetic for signs and sizes of a few expressions only.  The model takes their computed values as parameters (`Input`):
what is proved for every `Input` holds whatever the rounding does.  `Input.exact` has the values of exact arithmetic.  Not modelled: NaN and
infinite values.
-/

namespace Verif.Triangulation

open Verif Verif.AbstractMesh

/-- The arguments of the constructor (`triangulation.hpp:31-32`), with the values that are computed from the coordinates. -/
structure Input where
  /-- the number of boundary vertices -/
  nb : Nat
  /-- the number of interior points -/
  ni : Nat
  /-- `boundary_edges` -/
  labels : List (Int × Int)
  /-- `orient2d` of three vertices -/
  orient : Nat → Nat → Nat → ℝ
  /-- `incircle` of four vertices -/
  incircle : Nat → Nat → Nat → Nat → ℝ
  /-- `signed_area2` -/
  area2 : ℝ
  /-- division -/
  quot : ℝ → ℝ → ℝ
  /-- the tolerance of `ear_clip` -/
  earTol : ℝ
  /-- the tolerances of `make_delaunay` -/
  incircleTol : ℝ
  areaTol : ℝ

/-- `predicates.hpp:38-53` - the determinant, expanded along the first row -/
def incircle (a b c d : ℝ × ℝ) : ℝ :=
  let m00 := a.1 - d.1
  let m01 := a.2 - d.2
  let m02 := m00 * m00 + m01 * m01
  let m10 := b.1 - d.1
  let m11 := b.2 - d.2
  let m12 := m10 * m10 + m11 * m11
  let m20 := c.1 - d.1
  let m21 := c.2 - d.2
  let m22 := m20 * m20 + m21 * m21
  m00 * (m11 * m22 - m12 * m21) - m01 * (m10 * m22 - m12 * m20) + m02 * (m10 * m21 - m11 * m20)

/-- `triangulation.hpp:38-43` - `points_.row(i)` -/
def row (pts : List (ℝ × ℝ)) (i : Nat) : ℝ × ℝ := pts.getD i (0, 0)

/-- `triangulation.hpp:45-47` - the diagonal of the box of the points -/
noncomputable def scale (pts : List (ℝ × ℝ)) : ℝ :=
  match pts with
  | [] => 0
  | p :: ps =>
      let lo := ps.foldl (fun a q => (min a.1 q.1, min a.2 q.2)) p
      let hi := ps.foldl (fun a q => (max a.1 q.1, max a.2 q.2)) p
      √((hi.1 - lo.1) ^ 2 + (hi.2 - lo.2) ^ 2)

/-- `triangulation.hpp:88-93` -/
def signedArea2 (pts : List (ℝ × ℝ)) (nb : Nat) : ℝ :=
  (List.range nb).foldl (fun s i => s + ((row pts i).1 * (row pts ((i + 1) % nb)).2 - (row pts ((i + 1) % nb)).1 * (row pts i).2)) 0

/-- Exact arithmetic (`triangulation.hpp:97, 206-208` for the tolerances). -/
noncomputable def Input.exact (boundary interior : List (ℝ × ℝ)) (labels : List (Int × Int)) : Input where
  nb := boundary.length
  ni := interior.length
  labels := labels
  orient u v w := Predicates.orient2d (row (boundary ++ interior) u) (row (boundary ++ interior) v) (row (boundary ++ interior) w)
  incircle u v w x :=
    Triangulation.incircle (row (boundary ++ interior) u) (row (boundary ++ interior) v) (row (boundary ++ interior) w) (row (boundary ++ interior) x)
  area2 := signedArea2 (boundary ++ interior) boundary.length
  quot x y := x / y
  earTol := 1e-14 * scale (boundary ++ interior) * scale (boundary ++ interior)
  incircleTol := 1e-10 * (scale (boundary ++ interior) * scale (boundary ++ interior)) * (scale (boundary ++ interior) * scale (boundary ++ interior))
  areaTol := 1e-12 * (scale (boundary ++ interior) * scale (boundary ++ interior))

/-- The mesh after a call on it. -/
def after {α : Type} (r : Mesh × Outcome α) : Outcome Mesh :=
  match r with
  | (m, .ok _) => .ok m
  | (_, .throws e) => .throws e
  | (_, .ub) => .ub

/-- `triangulation.hpp:264-283` - `shares_edge`; an `Edge` has its smaller end first (`edge.hpp:15`). -/
def sharesEdge (I : Input) (u v : Nat) : Outcome Bool :=
  let i := min u v
  let j := max u v
  if I.labels = [] ∨ I.nb ≤ i ∨ I.nb ≤ j then .ok false
  else
    match I.labels[i]? with
    | none => .throws .outOfRange
    | some a =>
        if a.1 < 0 ∧ a.2 < 0 then .ok false
        else
          match I.labels[j]? with
          | none => .throws .outOfRange
          | some b => .ok (decide ((0 ≤ a.1 ∧ (a.1 = b.1 ∨ a.1 = b.2)) ∨ (0 ≤ a.2 ∧ (a.2 = b.1 ∨ a.2 = b.2))))

open Classical in
/-- `triangulation.hpp:146-148` - `in_triangle` -/
noncomputable def inTriangle (I : Input) (x a b c : Nat) : Bool :=
  decide (I.orient a b x ≥ 0 ∧ I.orient b c x ≥ 0 ∧ I.orient c a x ≥ 0)

/-- `triangulation.hpp:102` -/
def curOf (ring : List Nat) (i : Nat) : Nat := ring.getD i 0

/-- `triangulation.hpp:103` -/
def prevOf (ring : List Nat) (i : Nat) : Nat := ring.getD ((i + ring.length - 1) % ring.length) 0

/-- `triangulation.hpp:104` -/
def nextOf (ring : List Nat) (i : Nat) : Nat := ring.getD ((i + 1) % ring.length) 0

open Classical in
/-- `triangulation.hpp:101-125` - whether the vertex number `i` of the ring is an ear -/
noncomputable def isEar (I : Input) (ring : List Nat) (i : Nat) : Outcome Bool :=
  let cur := curOf ring i
  let prev := prevOf ring i
  let next := nextOf ring i
  if ¬ I.orient prev cur next > I.earTol then .ok false
  else do
    let s ← sharesEdge I prev next
    if s then Outcome.ok false
    else Outcome.ok (ring.all fun vj => decide (vj = prev ∨ vj = cur ∨ vj = next) || !inTriangle I vj prev cur next)

/-- `triangulation.hpp:101-130` - the first ear among the given numbers -/
noncomputable def findEar (I : Input) (ring : List Nat) : List Nat → Outcome (Option Nat)
  | [] => .ok none
  | i :: is => do
      let e ← isEar I ring i
      if e then Outcome.ok (some i) else findEar I ring is

/-- `triangulation.hpp:134-136` - the fan around the first vertex; the list is the rest of the ring -/
def fan (r0 : Nat) : List Nat → Mesh → Outcome Mesh
  | a :: b :: t, m => do
      let m ← after (m.addFace (r0, a, b))
      fan r0 (b :: t) m
  | _, m => .ok m

/-- `triangulation.hpp:98-143` - the loop and what follows it; the result has the mesh and `simple_`.  Every round that goes on takes a vertex
out of the ring, so the number of rounds is the length of the ring at most. -/
noncomputable def earLoop (I : Input) : Nat → List Nat → Mesh → Outcome (Mesh × Bool)
  | 0, _, _ => .ub
  | n + 1, ring, m =>
      if 3 < ring.length then do
        let e ← findEar I ring (List.range ring.length)
        match e with
        | some i => do
            let m ← after (m.addFace (prevOf ring i, curOf ring i, nextOf ring i))
            earLoop I n (ring.eraseIdx i) m
        | none => do
            let m ← fan (ring.getD 0 0) ring.tail m
            Outcome.ok (m, false)
      else if ring.length = 3 then do
        let m ← after (m.addFace (ring.getD 0 0, ring.getD 1 0, ring.getD 2 0))
        Outcome.ok (m, true)
      else .ok (m, true)

open Classical in
/-- `triangulation.hpp:84-96` - the ring -/
noncomputable def ring (I : Input) : List Nat := if I.area2 < 0 then (List.range I.nb).reverse else List.range I.nb

/-- `triangulation.hpp:84-144` - `ear_clip` -/
noncomputable def earClip (I : Input) (m : Mesh) : Outcome (Mesh × Bool) := earLoop I (I.nb + 1) (ring I) m

/-- `triangulation.hpp:155-158` - the best face so far: its number, the smallest coordinate and the coordinates -/
structure Best where
  fi : Nat
  mn : ℝ
  l : ℝ × ℝ × ℝ

open Classical in
/-- `triangulation.hpp:160-175` - one round of the search -/
noncomputable def locateStep (I : Input) (m : Mesh) (v : Nat) (best : Option Best) (fi : Nat) : Option Best :=
  let f := m.face fi
  let a := I.orient f.1 f.2.1 f.2.2
  if ¬ a > 0 then best
  else
    let l := (I.quot (I.orient v f.2.1 f.2.2) a, I.quot (I.orient f.1 v f.2.2) a, I.quot (I.orient f.1 f.2.1 v) a)
    let mn := min (min l.1 l.2.1) l.2.2
    match best with
    | none => some ⟨fi, mn, l⟩
    | some b => if mn > b.mn then some ⟨fi, mn, l⟩ else some b

/-- `triangulation.hpp:155-175` -/
noncomputable def locate (I : Input) (m : Mesh) (v : Nat) : Option Best := (List.range m.nf).foldl (locateStep I m v) none

/-- `triangulation.hpp:180` -/
noncomputable def kOnEdge : ℝ := 1e-9

open Classical in
/-- `triangulation.hpp:187` - `std::ranges::min_element` -/
noncomputable def minIndex (l : ℝ × ℝ × ℝ) : Nat := if l.1 ≤ l.2.1 ∧ l.1 ≤ l.2.2 then 0 else if l.2.1 ≤ l.2.2 then 1 else 2

/-- `bl.at(k)` -/
def at3 (l : ℝ × ℝ × ℝ) (k : Nat) : ℝ := if k = 0 then l.1 else if k = 1 then l.2.1 else l.2.2

/-- `triangulation.hpp:50-54, 200` - `is_constraint`; a binary search in the sorted list answers whether the edge is in it -/
def isConstraint (I : Input) (u v : Nat) : Bool :=
  ((List.range I.nb).map fun i => (min i ((i + 1) % I.nb), max i ((i + 1) % I.nb))).contains (min u v, max u v)

open Classical in
/-- `triangulation.hpp:154-197` - one round of `insert_interior` -/
noncomputable def insertPoint (I : Input) (m : Mesh) (v : Nat) : Outcome Mesh :=
  match locate I m v with
  | none => .ok m
  | some b =>
      if b.mn < -1e-9 then .ok m
      else if b.mn > kOnEdge then after (m.insertInFace b.fi v)
      else
        let kmin := minIndex b.l
        if at3 b.l ((kmin + 1) % 3) < kOnEdge ∨ at3 b.l ((kmin + 2) % 3) < kOnEdge then .ok m
        else
          let u := corner (m.face b.fi) ((kmin + 1) % 3)
          let w := corner (m.face b.fi) ((kmin + 2) % 3)
          if isConstraint I u w then .ok m else after (m.insertOnEdge (min u w) (max u w) v)

/-- `triangulation.hpp:153-198` - `insert_interior`, for the given vertices -/
noncomputable def insertAll (I : Input) : List Nat → Mesh → Outcome Mesh
  | [], m => .ok m
  | v :: vs, m => do
      let m ← insertPoint I m v
      insertAll I vs m

/-- `triangulation.hpp:215-219` - the halfedges that are collected -/
def collect (m : Mesh) : List Nat → Outcome (List Nat)
  | [] => .ok []
  | h :: hs => do
      let o ← m.opposite h
      let l ← collect m hs
      Outcome.ok (if m.from_ h < m.to_ h ∧ o.isSome then h :: l else l)

/-- `triangulation.hpp:220-222` - the order of the edges -/
def before (m : Mesh) (g h : Nat) : Bool := decide (m.from_ g < m.from_ h ∨ (m.from_ g = m.from_ h ∧ m.to_ g ≤ m.to_ h))

/-- `mesh_`, `flipped` and `changed` in a pass -/
structure Pass where
  mesh : Mesh
  flipped : Nat → Bool
  changed : Bool

open Classical in
/-- `triangulation.hpp:225-265` - one round of the loop over the edges -/
noncomputable def lawsonStep (I : Input) (s : Pass) (h : Nat) : Outcome Pass :=
  let x := s.mesh.from_ h
  let y := s.mesh.to_ h
  if isConstraint I x y then .ok s
  else do
    let o ← s.mesh.opposite h
    match o with
    | none => Outcome.ok s
    | some o =>
        if s.flipped (h / 4) || s.flipped (o / 4) then Outcome.ok s
        else do
          let c := s.mesh.apex h
          let d := s.mesh.apex o
          let sh ← sharesEdge I c d
          if sh then Outcome.ok s
          else if ¬ I.incircle x y c d > I.incircleTol then Outcome.ok s
          else if ¬ (I.orient x d c > I.areaTol ∧ I.orient d y c > I.areaTol) then Outcome.ok s
          else if Thinner.hasEdge s.mesh c d then Outcome.ok s
          else do
            let m ← after (s.mesh.flip (min x y) (max x y))
            Outcome.ok ⟨m, upd (upd s.flipped (h / 4) true) (o / 4) true, true⟩

/-- `triangulation.hpp:225-266` -/
noncomputable def lawsonEdges (I : Input) : List Nat → Pass → Outcome Pass
  | [], s => .ok s
  | h :: hs, s => do
      let s ← lawsonStep I s h
      lawsonEdges I hs s

/-- `triangulation.hpp:212-266` - one pass -/
noncomputable def lawsonPass (I : Input) (m : Mesh) : Outcome (Mesh × Bool) := do
  let hs ← collect m m.halfedges
  let s ← lawsonEdges I (hs.mergeSort (before m)) ⟨m, fun _ => false, false⟩
  Outcome.ok (s.mesh, s.changed)

/-- `triangulation.hpp:211-267` - the passes; the result has the mesh and `changed` -/
noncomputable def lawson (I : Input) : Nat → Mesh → Outcome (Mesh × Bool)
  | 0, m => .ok (m, true)
  | n + 1, m => do
      let (m, changed) ← lawsonPass I m
      if changed then lawson I n m else Outcome.ok (m, false)

/-- `triangulation.hpp:204-268` - `make_delaunay` -/
noncomputable def makeDelaunay (I : Input) (m : Mesh) : Outcome (Mesh × Bool) := lawson I (10 + 3 * m.nf) m

/-- What `faces()` and `simple()` return.  `stable` tells whether the last pass of flips changed nothing; it cannot be asked for. -/
structure Result where
  faces : List Face
  simple : Bool
  stable : Bool

/-- `triangulation.hpp:31-64` - the constructor; the early return leaves `faces_` empty. -/
noncomputable def build (I : Input) : Outcome Result :=
  if I.nb < 3 then .throws .invalidArgument
  else do
    let (m, simple) ← earClip I (Mesh.empty (I.nb - 2 + 2 * I.ni))
    if !simple then Outcome.ok ⟨[], false, false⟩
    else do
      let m ← insertAll I ((List.range I.ni).map (I.nb + ·)) m
      let (m, changed) ← makeDelaunay I m
      Outcome.ok ⟨m.takeFaces, true, !changed⟩

end Verif.Triangulation
