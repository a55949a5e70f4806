import Verif.Model.Bits

/-!
# isosurface/rmt: edge.hpp, neighbor.hpp, node_list.hpp, tetrahedron.hpp and the mesh generation of lattice.hpp

Simplifications: lattice coordinates are unbounded integers; the field enters only by the sign of `value - isovalue` at
each lattice point (`neg`, true for negative; `sign.hpp:7`) and by which end of a crossed edge is nearer
(`near lc0 lc1`, the test `t < 0.5`); vertex positions are not part of this file.
-/

namespace Verif.Lattice

open Verif Bits

/-- `lattice_coordinates.hpp:8` -/
structure LC where
  x : Int
  y : Int
  z : Int
  deriving DecidableEq, Repr

namespace LC

def add (a b : LC) : LC := ⟨a.x + b.x, a.y + b.y, a.z + b.z⟩
instance : Add LC := ⟨add⟩
def sub (a b : LC) : LC := ⟨a.x - b.x, a.y - b.y, a.z - b.z⟩
instance : Sub LC := ⟨sub⟩

/-- `lattice_coordinates.hpp:20-24` -/
def less (a b : LC) : Bool := decide (a.x < b.x) ||
  (decide (a.x = b.x) && (decide (a.y < b.y) || (decide (a.y = b.y) && decide (a.z < b.z))))

end LC

/-- `neighbor.hpp:9-24` -/
def deltas : List LC :=
  [⟨1, 0, 0⟩, ⟨1, 0, 1⟩, ⟨0, 0, 1⟩, ⟨1, 1, 0⟩, ⟨1, 1, 1⟩, ⟨0, 1, 1⟩, ⟨0, 1, 0⟩,
   ⟨-1, 0, 0⟩, ⟨-1, 0, -1⟩, ⟨0, 0, -1⟩, ⟨-1, -1, 0⟩, ⟨-1, -1, -1⟩, ⟨0, -1, -1⟩, ⟨0, -1, 0⟩]

/-- an entry of the table; `array::at` never fails for the edge indices 0 to 13 used -/
def delta (e : Nat) : LC := deltas.getD e ⟨0, 0, 0⟩

/-- `neighbor.hpp:26-28` -/
def neighbor (lc : LC) (e : Nat) : LC := lc + delta e

/-- `edge.hpp:27-29` -/
def oppositeEdges : List Nat := [7, 8, 9, 10, 11, 12, 13, 0, 1, 2, 3, 4, 5, 6]

def oppositeEdge (e : Nat) : Nat := oppositeEdges.getD e 0

/-- `tetrahedron.hpp:19-25` -/
def edgeIndices : List (Nat × Nat × Nat) := [(4, 5, 2), (4, 2, 1), (4, 1, 0), (4, 0, 3), (4, 3, 6), (4, 6, 5)]

/-- `tetrahedron.hpp:35-41` -/
def outerEdgeIndices : List (Nat × Nat × Nat) :=
  [(7, 13, 3), (10, 0, 6), (13, 9, 5), (12, 6, 2), (9, 7, 1), (8, 2, 0)]

def tetEdges (k : Nat) : Nat × Nat × Nat := edgeIndices.getD k (0, 0, 0)
def tetOuterEdges (k : Nat) : Nat × Nat × Nat := outerEdgeIndices.getD k (0, 0, 0)

/-- `tetrahedron.hpp:75-131` - the faces for the signs of `n, n0, n1, n2` (`true` is negative), as triples of the
numbers of `v0` to `v5`. -/
def faceTable : Bool → Bool → Bool → Bool → List (Nat × Nat × Nat)
  | false, false, false, false => []
  | true, true, true, true => []
  | true, false, false, false => [(0, 1, 2)]
  | false, true, true, true => [(0, 2, 1)]
  | false, true, false, false => [(0, 5, 3)]
  | true, false, true, true => [(0, 3, 5)]
  | false, false, true, false => [(1, 3, 4)]
  | true, true, false, true => [(1, 4, 3)]
  | false, false, false, true => [(2, 4, 5)]
  | true, true, true, false => [(2, 5, 4)]
  | true, true, false, false => [(5, 3, 1), (5, 1, 2)]
  | false, false, true, true => [(5, 1, 3), (5, 2, 1)]
  | true, false, true, false => [(0, 3, 4), (0, 4, 2)]
  | false, true, false, true => [(0, 4, 3), (0, 2, 4)]
  | true, false, false, true => [(5, 0, 1), (5, 1, 4)]
  | false, true, true, false => [(5, 1, 0), (5, 4, 1)]

/-- `node.hpp:72-87`: the sign of the value (`none` until it is set) and the vertices. -/
structure Node where
  neg : Option Bool
  v : NodeV
  deriving DecidableEq

/-- `node_list.hpp:9-15`: an unordered map; the order of the list stands for its (arbitrary) iteration order. -/
abbrev NodeList := List (LC × Node)

/-- `node_list.hpp:11-14`, `unordered_map::find` -/
def NodeList.ptr (nl : NodeList) (lc : LC) : Option Node := (nl.find? (fun p => p.1 == lc)).map Prod.snd

/-- `unordered_map::contains` -/
def NodeList.has (nl : NodeList) (lc : LC) : Bool := (nl.ptr lc).isSome

/-- `unordered_map::at` -/
def NodeList.at (nl : NodeList) (lc : LC) : Outcome Node :=
  match nl.ptr lc with
  | some n => .ok n
  | none => .throws .outOfRange

/-- change the node at `lc` (through a reference into the map) -/
def NodeList.upd (nl : NodeList) (lc : LC) (f : Node → Node) : NodeList :=
  nl.map (fun p => if p.1 == lc then (p.1, f p.2) else p)

/-- `unordered_map::emplace` - keeps an existing entry -/
def NodeList.emplace (nl : NodeList) (lc : LC) (n : Node) : NodeList := if nl.has lc then nl else nl ++ [(lc, n)]

/-- `unordered_map::erase` -/
def NodeList.erase (nl : NodeList) (lc : LC) : NodeList := nl.filter (fun p => !(p.1 == lc))

/-- `node.hpp:62` - `std::optional::value` throws if the value was not set. -/
def Node.valueSign (n : Node) : Outcome Bool :=
  match n.neg with
  | some b => .ok b
  | none => .throws .badOptionalAccess

/-- `tetrahedron.hpp:137-149` -/
def vertexOnEdge (n : Node) (e : Nat) (opp : Node) : Outcome (Option Int) :=
  if n.v.hasVertex e then (n.v.vertex e).bind (fun v => .ok (some v))
  else if opp.v.hasVertex (oppositeEdge e) then (opp.v.vertex (oppositeEdge e)).bind (fun v => .ok (some v))
  else .ok none

/-- `v.value()` -/
def optValue (v : Option Int) : Outcome Int :=
  match v with
  | some i => .ok i
  | none => .throws .badOptionalAccess

/-- a face: three vertex indices -/
abbrev Face := Int × Int × Int

/-- look the three numbered vertices up -/
def mkFace (vs : List (Option Int)) (f : Nat × Nat × Nat) : Outcome Face := do
  let a ← optValue (vs.getD f.1 none)
  let b ← optValue (vs.getD f.2.1 none)
  let c ← optValue (vs.getD f.2.2 none)
  return (a, b, c)

def mapO (f : α → Outcome β) : List α → Outcome (List β)
  | [] => .ok []
  | x :: xs => do
      let y ← f x
      let ys ← mapO f xs
      return y :: ys

/-- `tetrahedron.hpp:48-132` -/
def getFaces (nl : NodeList) (lc : LC) (k : Nat) : Outcome (List Face) := do
  let (ei0, ei1, ei2) := tetEdges k
  let n ← nl.at lc
  let n0 ← nl.at (neighbor lc ei0)
  let n1 ← nl.at (neighbor lc ei1)
  let n2 ← nl.at (neighbor lc ei2)
  let (oei0, oei1, oei2) := tetOuterEdges k
  let v0 ← vertexOnEdge n ei0 n0
  let v1 ← vertexOnEdge n ei1 n1
  let v2 ← vertexOnEdge n ei2 n2
  let v3 ← vertexOnEdge n0 oei0 n1
  let v4 ← vertexOnEdge n1 oei1 n2
  let v5 ← vertexOnEdge n2 oei2 n0
  let s ← n.valueSign
  let s0 ← n0.valueSign
  let s1 ← n1.valueSign
  let s2 ← n2.valueSign
  mapO (mkFace [v0, v1, v2, v3, v4, v5]) (faceTable s s0 s1 s2)

/-- `tetrahedron.hpp:198-202` -/
def tetExists (nl : NodeList) (lc : LC) (k : Nat) : Bool :=
  let (ei0, ei1, ei2) := tetEdges k
  nl.has (neighbor lc ei0) && nl.has (neighbor lc ei1) && nl.has (neighbor lc ei2)

/-- `lattice.hpp:259-267` - the loop over the nodes and `TetrahedronIterator` (`tetrahedron.hpp:156-207`): the indices
0 to 5 of the tetrahedra that exist, in order. -/
def getMeshFaces (nl : NodeList) : Outcome (List Face) := do
  let fs ← mapO (fun p => do
    let gs ← mapO (getFaces nl p.1) ((List.range 6).filter (tetExists nl p.1))
    return gs.flatten) nl
  return fs.flatten

/-! ## Construction of the node list (lattice.hpp) -/

/-- `lattice.hpp:617-619`; a vertex by the node and the edge it is stored at. -/
structure Lat where
  nodes : NodeList
  toEval : List LC
  verts : List (LC × Nat)

/-- `lattice.hpp:352-363` - `inBox` is membership in the second extended bounding box. -/
def Lat.addNodeUnchecked (inBox : LC → Bool) (l : Lat) (lc : LC) : Lat × Bool :=
  if !inBox lc then (l, false)
  else ({ l with nodes := l.nodes.emplace lc ⟨none, NodeV.new⟩, toEval := l.toEval ++ [lc] }, true)

/-- `lattice.hpp:343-349` -/
def Lat.addNode (inBox : LC → Bool) (l : Lat) (lc : LC) : Lat × Bool :=
  if l.nodes.has lc then (l, false) else l.addNodeUnchecked inBox lc

/-- `lattice.hpp:416-441` - the field at a lattice point by its sign `σ`. -/
def Lat.evaluateField (σ : LC → Bool) (l : Lat) : Outcome Lat :=
  if l.toEval.all (fun lc => l.nodes.has lc) then
    .ok { l with nodes := l.toEval.foldl (fun nl lc => nl.upd lc (fun n => { n with neg := some (σ lc) })) l.nodes,
                 toEval := [] }
  else .throws .outOfRange

/-- `lattice.hpp:444-451` -/
structure Crossing where
  lc0 : LC
  lc1 : LC
  e : Nat

/-- `lattice.hpp:464-488` - one node of the parallel loop; it only reads the node list. -/
def crossingsOf (nl : NodeList) (lc0 : LC) : Outcome (List Crossing) := do
  let n0 ← nl.at lc0
  let s0 ← n0.valueSign
  let cs ← mapO (fun e =>
    let lc1 := neighbor lc0 e
    if !(lc1.less lc0) then .ok []
    else match nl.ptr lc1 with
      | none => .ok []
      | some n1 => do
          let s1 ← n1.valueSign
          if s0 == s1 then .ok [] else .ok [⟨lc0, lc1, e⟩]) (List.range 14)
  return cs.flatten

/-- `lattice.hpp:492-508` - one crossing. -/
def Lat.addCrossing (near : LC → LC → Bool) (l : Lat) (c : Crossing) : Outcome Lat := do
  let _ ← l.nodes.at c.lc0
  let _ ← l.nodes.at c.lc1
  let vi : Int := l.verts.length
  let opp := oppositeEdge c.e
  let l :=
    if near c.lc0 c.lc1 then
      { l with nodes := l.nodes.upd c.lc0 (fun n => { n with v := n.v.insertVertex vi c.e }),
               verts := l.verts ++ [(c.lc0, c.e)] }
    else
      { l with nodes := l.nodes.upd c.lc1 (fun n => { n with v := n.v.insertVertex vi opp }),
               verts := l.verts ++ [(c.lc1, opp)] }
  let l := { l with nodes := l.nodes.upd c.lc0 (fun n => { n with v := n.v.setIntersection c.e }) }
  return { l with nodes := l.nodes.upd c.lc1 (fun n => { n with v := n.v.setIntersection opp }) }

def foldO (f : σ → α → Outcome σ) : σ → List α → Outcome σ
  | s, [] => .ok s
  | s, x :: xs => do
      let s ← f s x
      foldO f s xs

/-- `lattice.hpp:443-510` -/
def Lat.generateVertices (near : LC → LC → Bool) (l : Lat) (lcs : List LC) : Outcome Lat := do
  let all ← mapO (crossingsOf l.nodes) lcs
  foldO (fun l cs => foldO (Lat.addCrossing near) l cs) l all

/-- `lattice.hpp:608-615` - dereferencing the end iterator is undefined. -/
def Lat.removeFreeNodes (l : Lat) (lcs : List LC) : Outcome Lat :=
  foldO (fun l lc =>
    match l.nodes.ptr lc with
    | none => .ub
    | some n => .ok (if n.v.isFree then { l with nodes := l.nodes.erase lc } else l)) l lcs

/-- `lattice.hpp:43-54` - adding the candidates of one layer; returns the new nodes. -/
def Lat.addLayer (inBox : LC → Bool) (l : Lat) (layer : List LC) : Lat × List LC :=
  layer.foldl (fun (l, new) lc =>
    let (l', added) := l.addNodeUnchecked inBox lc
    (l', if added then new ++ [lc] else new)) (l, [])

/-- `lattice.hpp:43-65` - the loop over the layers; `prev` is the variable `nodes`, the last layer is recognised by the
rest being empty. -/
def Lat.layers (inBox : LC → Bool) (σ : LC → Bool) (near : LC → LC → Bool) :
    Lat → List LC → List (List LC) → Outcome Lat
  | l, _, [] => .ok l
  | l, prev, layer :: rest => do
      let (l, new) := l.addLayer inBox layer
      let l ← l.evaluateField σ
      let l ← l.generateVertices near new
      let l ← l.removeFreeNodes prev
      let l ← if rest.isEmpty then l.removeFreeNodes new else .ok l
      Lat.layers inBox σ near l new rest

/-- `lattice.hpp:37-66` on a cleared lattice; `ls` are the candidates of the successive values of the third
coordinate. -/
def addAllNodes (inBox : LC → Bool) (σ : LC → Bool) (near : LC → LC → Bool) (ls : List (List LC)) : Outcome Lat :=
  Lat.layers inBox σ near ⟨[], [], []⟩ [] ls

/-- `lattice.hpp:566-575` -/
def isSurfaceNode (nl : NodeList) (lc : LC) : Outcome Bool := do
  let n ← nl.at lc
  let s ← n.valueSign
  let bs ← mapO (fun e =>
    match nl.ptr (neighbor lc e) with
    | none => .ok false
    | some m => do
        let t ← m.valueSign
        return !(t == s)) (List.range 14)
  return bs.any id

end Verif.Lattice
