import Verif.Model.DisjointSets
import Verif.Model.Tetrahedron
import Verif.Model.Refiner

/-!
# src/isosurface/vertex_clusterer.hpp, src/isosurface/quadric_position.hpp, and `cluster_vertices` of src/isosurface/cluster.cpp

Arithmetic is exact.  The transformation by `aniso` and that by its inverse are maps `T` and `Tinv`; Eigen's solver for the eigenvalues of a
symmetric matrix is an arbitrary function `es` (its contract is a hypothesis of the theorems about the merged vertices' places).  The schedule of the
parallel loops of the defect finder is arbitrary in every round, and so is the order `ord` in which the hash set of flagged vertices is gone
through.
-/

namespace Verif.Clusterer

open Verif Verif.AbstractMesh Verif.Predicates Verif.PrimLattice.Prim
open Verif.PrimLattice (Prim)
open Verif.Lattice (LC)
open Verif.Thinner (dotP crossP)

/-- `Mat3`: the three rows -/
abbrev M3 := P3 × P3 × P3

/-- The arguments of `cluster_vertices` (`cluster.cpp:7`), and what is left open. -/
structure Input where
  vertices : List P3
  faces : List Face
  L : Prim
  resolution : ℝ
  T : P3 → P3
  Tinv : P3 → P3
  es : M3 → (Nat → ℝ) × (Nat → P3)
  schedV : Nat → Nat → List (List Nat)
  schedF : Nat → Nat → List (List Nat)
  ord : List Nat → List Nat

/-- `v_.row(v)` -/
noncomputable def vrow (I : Input) (v : Nat) : P3 := I.vertices.getD v 0

/-- `vertex_clusterer.hpp:65-68` - `vertex_node` -/
noncomputable def node (I : Input) (v : Nat) : LC := I.L.rounded (vrow I v)

/-- `f(k)`, `f((k + 1) % 3)` for `k = 0, 1, 2` -/
def sidesOf (f : Face) : List (Nat × Nat) := [(f.1, f.2.1), (f.2.1, f.2.2), (f.2.2, f.1)]

/-- What a call of `DisjointSets` does to the rest of the constructor. -/
def uniteO (s : DisjointSets.DS) (u v : Nat) : Outcome DisjointSets.DS :=
  match DisjointSets.unite s u v with
  | (s', .ok _) => .ok s'
  | (_, .throws e) => .throws e
  | (_, .ub) => .ub

open Classical in
/-- `vertex_clusterer.hpp:72-80` - the sides in order; `vertex_node.at` has been checked by `vf_.at` before -/
noncomputable def uniteAll (I : Input) : List (Nat × Nat) → DisjointSets.DS → Outcome DisjointSets.DS
  | [], s => .ok s
  | (u, v) :: es, s =>
      if node I u = node I v then do
        let s ← uniteO s u v
        uniteAll I es s
      else uniteAll I es s

/-! ## quadric_position.hpp -/

/-- `quadric_position.hpp:30` - `a_anchor.colwise().mean()` -/
noncomputable def centroid (T : P3 → P3) (anchor : List P3) : P3 := (1 / (anchor.length : ℝ)) • (anchor.map T).sum

/-- `w * n.transpose() * n`, a matrix -/
def outer (w : ℝ) (n : P3) : M3 := ((w * n.1) • n, (w * n.2.1) • n, (w * n.2.2) • n)

/-- `p * a` for a row vector -/
def vecMul (p : P3) (a : M3) : P3 := p.1 • a.1 + p.2.1 • a.2.1 + p.2.2 • a.2.2

open Classical in
/-- `quadric_position.hpp:34-46` - what a triangle adds to `a` and `b` -/
noncomputable def term (T : P3 → P3) (t : P3 × P3 × P3) : M3 × P3 :=
  let p0 := T t.1
  let p1 := T t.2.1
  let p2 := T t.2.2
  let n := crossP (p1 - p0) (p2 - p0)
  let w := √(dotP n n)
  if w = 0 then (0, 0)
  else
    let n := (1 / w) • n
    (outer w n, (w * dotP n p0) • n)

/-- `quadric_position.hpp:32-46` - `a` and `b` -/
noncomputable def system (T : P3 → P3) (ts : List (P3 × P3 × P3)) : M3 × P3 := (ts.map (term T)).foldl (· + ·) (0, 0)

open Classical in
/-- `quadric_position.hpp:56-60` - one eigenvector's part of `y` -/
noncomputable def part (es : (Nat → ℝ) × (Nat → P3)) (floor : ℝ) (r : P3) (k : Nat) : P3 :=
  if es.1 k > floor then (dotP r (es.2 k) / es.1 k) • es.2 k else 0

open Classical in
/-- `quadric_position.hpp:48-63` - `x` -/
noncomputable def solve (es : (Nat → ℝ) × (Nat → P3)) (a : M3) (b c : P3) : P3 :=
  let floor := 1e-3 * es.1 2
  let y := if es.1 1 > floor then
      let r := b - vecMul c a
      part es floor r 0 + part es floor r 1 + part es floor r 2
    else 0
  c + y

/-- `quadric_position.hpp:21-65` -/
noncomputable def quadricPosition (I : Input) (anchor : List P3) (ts : List (P3 × P3 × P3)) (lc : LC) : P3 :=
  let (a, b) := system I.T ts
  I.L.clampToNode (I.Tinv (solve (I.es a) a b (centroid I.T anchor))) lc

/-! ## The clusters -/

/-- `vertex_clusterer.hpp:38-43`; `deleted` is kept apart -/
structure Cluster where
  vertices : List Nat
  rep : Nat
  position : P3

/-- `f_(fi, k)` as positions -/
noncomputable def tri (I : Input) (fi : Nat) : P3 × P3 × P3 :=
  let f := I.faces.getD fi (0, 0, 0)
  (vrow I f.1, vrow I f.2.1, vrow I f.2.2)

/-- `vertex_clusterer.hpp:200-217` - `clustered_position`; the order of the hash set `fis` only changes the order of a sum.
`utility.hpp:17-27` - `snap_to_bbox` -/
noncomputable def clusteredPosition (I : Input) (vf : Nat → List Nat) (cluster : List Nat) (lc : LC) : P3 :=
  let fis := (cluster.flatMap vf).dedup
  let p := quadricPosition I (cluster.map (vrow I)) (fis.map (tri I)) lc
  let q := ClosestPoint.snapToBbox ![p.1, p.2.1, p.2.2] ![I.L.lo.1, I.L.lo.2.1, I.L.lo.2.2] ![I.L.hi.1, I.L.hi.2.1, I.L.hi.2.2] I.resolution
  (q 0, q 1, q 2)

open Classical in
/-- `vertex_clusterer.hpp:89-97` - the node is on or outside the box; `p` is its position -/
noncomputable def onOrOutside (I : Input) (p : P3) : Prop :=
  (p.1 ≤ (I.L.extLo 1).1 ∨ p.1 ≥ (I.L.extHi 1).1) ∨ (p.2.1 ≤ (I.L.extLo 1).2.1 ∨ p.2.1 ≥ (I.L.extHi 1).2.1) ∨
    (p.2.2 ≤ (I.L.extLo 1).2.2 ∨ p.2.2 ≥ (I.L.extHi 1).2.2)

/-- `std::min_element` of a vector that is not empty -/
def minElement : List Nat → Nat
  | [] => 0
  | a :: l => l.foldl min a

open Classical in
/-- `vertex_clusterer.hpp:84-103` - one component -/
noncomputable def clusterOfComponent (I : Input) (vf : Nat → List Nat) (component : List Nat) : Option Cluster :=
  if component.length < 2 then none
  else if onOrOutside I (I.L.position (node I (component.headD 0))) then none
  else
    let rep := minElement component
    some ⟨component, rep, clusteredPosition I vf component (node I rep)⟩

/-- `vertex_clusterer.hpp:84-104` - `clusters_` -/
noncomputable def makeClusters (I : Input) (vf : Nat → List Nat) (components : List (List Nat)) : List Cluster :=
  components.filterMap (clusterOfComponent I vf)

/-- What changes: `cluster_of_` and the marks `deleted`. -/
structure State where
  clusterOf : Nat → Option Nat
  deleted : Nat → Bool

/-- `vertex_clusterer.hpp:219-223` - `register_cluster` (`some ci`) and `:295-299` - `unregister_cluster` (`none`) -/
def assign (vs : List Nat) (x : Option Nat) (m : Nat → Option Nat) : Nat → Option Nat := fun v => if v ∈ vs then x else m v

/-- `vertex_clusterer.hpp:102` for all clusters, from number `ci` on -/
def registerAll : List Cluster → Nat → (Nat → Option Nat) → Nat → Option Nat
  | [], _, m => m
  | c :: cs, ci, m => registerAll cs (ci + 1) (assign c.vertices (some ci) m)

/-! ## The clustered mesh -/

/-- `vertex_clusterer.hpp:166-170` - `vertices` (up to `nv`), `vv`, and the faces so far -/
structure QState where
  verts : List P3
  vv : Nat → Option Nat

/-- `vertex_clusterer.hpp:176-181` - the new number of `v`, whose place is `p` if it is new -/
def number (s : QState) (v : Nat) (p : P3) : QState × Nat :=
  match s.vv v with
  | some n => (s, n)
  | none => (⟨s.verts ++ [p], fun x => if x = v then some s.verts.length else s.vv x⟩, s.verts.length)

/-- `vertex_clusterer.hpp:174-181` - one corner -/
noncomputable def mapCorner (I : Input) (cs : List Cluster) (co : Nat → Option Nat) (s : QState) (v : Nat) : Outcome (QState × Nat) :=
  if v < I.vertices.length then
    match co v with
    | none => .ok (number s v (vrow I v))
    | some ci =>
        match cs[ci]? with
        | some c => if c.rep < I.vertices.length then .ok (number s c.rep c.position) else .throws .outOfRange
        | none => .throws .outOfRange
  else .throws .outOfRange

/-- `vertex_clusterer.hpp:172-183` - one face -/
noncomputable def mapFace (I : Input) (cs : List Cluster) (co : Nat → Option Nat) (s : QState) (f : Face) : Outcome (QState × Face) := do
  let (s, a) ← mapCorner I cs co s f.1
  let (s, b) ← mapCorner I cs co s f.2.1
  let (s, c) ← mapCorner I cs co s f.2.2
  Outcome.ok (s, (a, b, c))

/-- `vertex_clusterer.hpp:184` -/
def collapsed (g : Face) : Prop := g.1 = g.2.1 ∨ g.2.1 = g.2.2 ∨ g.2.2 = g.1

instance (g : Face) : Decidable (collapsed g) := by unfold collapsed; infer_instance

/-- `vertex_clusterer.hpp:171-189` -/
noncomputable def mapFaces (I : Input) (cs : List Cluster) (co : Nat → Option Nat) : List Face → QState → Outcome (QState × List Face)
  | [], s => .ok (s, [])
  | f :: fs, s => do
      let (s, g) ← mapFace I cs co s f
      let (s, gs) ← mapFaces I cs co fs s
      Outcome.ok (s, if collapsed g then gs else g :: gs)

/-- `vertex_clusterer.hpp:191-198` - `vertex_ci`, from cluster number `ci` on; the key `-1` is never looked up -/
def vertexCi (deleted : Nat → Bool) (vv : Nat → Option Nat) : List Cluster → Nat → (Nat → Option Nat) → Nat → Option Nat
  | [], _, m => m
  | c :: cs, ci, m =>
      vertexCi deleted vv cs (ci + 1) (if deleted ci then m else fun x => if vv c.rep = some x then some ci else m x)

/-! ## Back-to-back faces -/

/-- `edge.hpp:15` -/
def edgeOf (e : Nat × Nat) : Nat × Nat := if e.1 < e.2 then e else (e.2, e.1)

/-- `vertex_clusterer.hpp:233-238` - `edge_faces`: how often the edge was counted -/
def edgeFaces (fs : List Face) (e : Nat × Nat) : Nat := ((fs.flatMap sidesOf).map edgeOf).count (edgeOf e)

/-- `vertex_clusterer.hpp:243-244` - the sorted corners -/
def key (f : Face) : List Nat := [f.1, f.2.1, f.2.2].insertionSort (· ≤ ·)

/-- `f.row(fi)` -/
def faceOf (fs : List Face) (fi : Nat) : Face := fs.getD fi (0, 0, 0)

/-- `vertex_clusterer.hpp:242-246` - `by_vertices`: the faces with a key, ascending -/
def byVertices (fs : List Face) (k : List Nat) : List Nat := (List.range fs.length).filter fun fi => key (faceOf fs fi) = k

/-- `vertex_clusterer.hpp:286-293` -/
def sameWinding (a b : Face) : Bool := a = b || a = (b.2.1, b.2.2, b.1) || a = (b.2.2, b.1, b.2.1)

/-- `vertex_clusterer.hpp:253-258` -/
def safe (fs : List Face) (f : Face) : Bool := (sidesOf f).all fun e => edgeFaces fs e = 2 || edgeFaces fs e = 4

/-- `vertex_clusterer.hpp:248-263` - whether the faces with a key are dropped; the keys do not interfere with each other -/
def drops (fs : List Face) (k : List Nat) : Bool :=
  match byVertices fs k with
  | [a, b] => !sameWinding (faceOf fs a) (faceOf fs b) && safe fs (faceOf fs a)
  | _ => false

/-- `vertex_clusterer.hpp:231-283` - `remove_back_to_back`; the vertices stay -/
def removeBackToBack (fs : List Face) : List Face := fs.filter fun f => !drops fs (key f)

/-! ## The loop -/

/-- `spatial_grid.hpp:116` - one coordinate of `cell_of`; the range of `int` is not modelled -/
noncomputable def cellOf (I : Input) (x : ℝ) : Int := ⌊x / I.resolution⌋

/-- `vertex_clusterer.hpp:116-124` - `flagged` -/
noncomputable def flagged (I : Input) (round : Nat) (vs : List P3) (fs : List Face) : Outcome (List Nat) := do
  let M ← MeshDefects.mk vs fs
  let vis ← MeshDefects.singularVertices M (I.schedV round vs.length)
  let fis ← MeshDefects.intersectingFaces (cellOf I) ⟨0, 0⟩ (narrow kTinyFactor) M (I.schedF round)
  Outcome.ok (I.ord (vis ++ fis.flatMap fun fi => [(faceOf fs fi).1, (faceOf fs fi).2.1, (faceOf fs fi).2.2]))

/-- `vertex_clusterer.hpp:127-136` - the clusters in `incident[v]` -/
def incident (vci : Nat → Option Nat) (fs : List Face) (v : Nat) : List Nat :=
  fs.flatMap fun f =>
    (if f.2.1 = v ∨ f.2.2 = v then (vci f.1).toList else []) ++ (if f.2.2 = v ∨ f.1 = v then (vci f.2.1).toList else []) ++
      (if f.1 = v ∨ f.2.1 = v then (vci f.2.2).toList else [])

/-- `vertex_clusterer.hpp:138-146` - `rollback`, with `changed` -/
def rollback (cs : List Cluster) (s : State × Bool) (ci : Nat) : Outcome (State × Bool) :=
  match cs[ci]? with
  | some c => if s.1.deleted ci then .ok s else .ok (⟨assign c.vertices none s.1.clusterOf, fun x => if x = ci then true else s.1.deleted x⟩, true)
  | none => .throws .outOfRange

/-- A loop of calls of `rollback`. -/
def rollbackAll (cs : List Cluster) : List Nat → State × Bool → Outcome (State × Bool)
  | [], s => .ok s
  | ci :: cis, s => do
      let s ← rollback cs s ci
      rollbackAll cs cis s

/-- `vertex_clusterer.hpp:150-158` - the clusters rolled back for the flagged vertex `v` -/
def behind (vci : Nat → Option Nat) (fs : List Face) (v : Nat) : List Nat :=
  match vci v with
  | some ci => [ci]
  | none => incident vci fs v

/-- The mesh that is returned. -/
structure Out where
  vertices : List P3
  faces : List Face

/-- `vertex_clusterer.hpp:112-158` - one round: the mesh, and the state and `changed` afterwards -/
noncomputable def round (I : Input) (cs : List Cluster) (n : Nat) (s : State) : Outcome (Out × State × Bool) := do
  let (q, gs) ← mapFaces I cs s.clusterOf I.faces ⟨[], fun _ => none⟩
  let vci := vertexCi s.deleted q.vv cs 0 (fun _ => none)
  let fs := removeBackToBack gs
  let fl ← flagged I n q.verts fs
  let r ← rollbackAll cs (fl.flatMap (behind vci fs)) (s, false)
  Outcome.ok (⟨q.verts, fs⟩, r)

/-- `vertex_clusterer.hpp:110-164` - `cluster`; the loop is given up (as if it were endless) after `fuel` rounds -/
noncomputable def clusterLoop (I : Input) (cs : List Cluster) : Nat → State → Outcome Out
  | 0, _ => .ub
  | fuel + 1, s => do
      let (out, s, changed) ← round I cs fuel s
      if changed then clusterLoop I cs fuel s else Outcome.ok out

/-- What `groups` does to the rest of the constructor. -/
def groupsO (s : DisjointSets.DS) : Outcome (List (List Nat)) := (DisjointSets.groups s).2

/-- `vertex_clusterer.hpp:46-106`, `cluster.cpp:7-9` - `cluster_vertices`.  `vertex_clusterer.hpp:57-61` is the same loop as that of the defect
finder. -/
noncomputable def clusterVertices (I : Input) : Outcome Out := do
  let vf ← MeshDefects.fillVf I.vertices.length I.faces 0 (fun _ => [])
  let sets ← uniteAll I (I.faces.flatMap sidesOf) (DisjointSets.init I.vertices.length)
  let components ← groupsO sets
  let cs := makeClusters I vf components
  clusterLoop I cs (cs.length + 1) ⟨registerAll cs 0 (fun _ => none), fun _ => false⟩

end Verif.Clusterer
