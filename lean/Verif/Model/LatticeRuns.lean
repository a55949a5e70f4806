import Verif.Model.Lattice

/-!
# isosurface/rmt/lattice.hpp: the two ways of filling a lattice, and the mesh

The three loops over the lattice coordinates, `complete_surface`, and what `add_nodes_from_seed_points` does to the node
list.  The ranges of the loops (`primitive_lattice.hpp`) are parameters here.
-/

namespace Verif.Lattice

open Verif Bits

/-- `for (auto x = r.first; x <= r.second; x++)` -/
def loopRange (r : Int × Int) : List Int := (List.range (r.2 - r.1 + 1).toNat).map (fun i : Nat => r.1 + (i : Int))

/-- `lattice.hpp:43-53` - the candidates of one value of the third coordinate -/
def candidates (r1 : Int → Int × Int) (r0 : Int → Int → Int × Int) (lc2 : Int) : List LC :=
  (loopRange (r1 lc2)).flatMap fun lc1 => (loopRange (r0 lc1 lc2)).map fun lc0 => ⟨lc0, lc1, lc2⟩

/-- `lattice.hpp:37-66` - on a cleared lattice -/
def addAllNodesOf (inBox σ : LC → Bool) (near : LC → LC → Bool) (r2 : Int × Int) (r1 : Int → Int × Int) (r0 : Int → Int → Int × Int) : Outcome Lat :=
  addAllNodes inBox σ near ((loopRange r2).map (candidates r1 r0))

/-- `for (lc : lcs) if (add_node(lc)) added.push_back(lc)` -/
def Lat.addNodes (inBox : LC → Bool) : Lat → List LC → Lat × List LC
  | l, [] => (l, [])
  | l, lc :: lcs =>
      let (l, b) := l.addNode inBox lc
      let (l, added) := Lat.addNodes inBox l lcs
      (l, if b then lc :: added else added)

/-- `for (lc : lcs) if (is_surface_node(lc)) frontier.push_back(lc)` (`lattice.hpp:380-384, 405-409`) -/
def surfaceNodes (nl : NodeList) : List LC → Outcome (List LC)
  | [] => .ok []
  | lc :: lcs => do
      let b ← isSurfaceNode nl lc
      let r ← surfaceNodes nl lcs
      return if b then lc :: r else r

/-- `lattice.hpp:391-398` - all neighbours of the frontier, in order -/
def allNeighbors (frontier : List LC) : List LC := frontier.flatMap fun lc => (List.range 14).map (neighbor lc)

/-- `lattice.hpp:386-411` - `fuel` bounds the rounds of the while loop; `none` when they are used up. -/
def Lat.completeLoop (inBox σ : LC → Bool) : Nat → Lat → List LC → Outcome (Option Lat)
  | _, l, [] => .ok (some l)
  | 0, _, _ :: _ => .ok none
  | fuel + 1, l, frontier => do
      let (l, added) := l.addNodes inBox (allNeighbors frontier)
      let l ← l.evaluateField σ
      let frontier ← surfaceNodes l.nodes added
      Lat.completeLoop inBox σ fuel l frontier

/-- `lattice.hpp:378-413`; `ord` is the order in which the loop over the hash map sees the nodes. -/
def Lat.completeSurface (inBox σ : LC → Bool) (ord : List LC → List LC) (fuel : Nat) (l : Lat) : Outcome (Option Lat) := do
  let frontier ← surfaceNodes l.nodes (ord (l.nodes.map Prod.fst))
  l.completeLoop inBox σ fuel frontier

/-- `lattice.hpp:74-233` - the tracking from the seed points touches the node list only by `add_node` and
`evaluate_field`.  Which nodes it asks for is left open: `batches` are the nodes of the successive rounds, each ending with
an evaluation. -/
def Lat.addBatches (inBox σ : LC → Bool) : Lat → List (List LC) → Outcome Lat
  | l, [] => .ok l
  | l, b :: bs => do
      let l ← (l.addNodes inBox b).1.evaluateField σ
      Lat.addBatches inBox σ l bs

/-- `lattice.hpp:68-244` on a cleared lattice -/
def addFromSeeds (inBox σ : LC → Bool) (near : LC → LC → Bool) (ord : List LC → List LC) (fuel : Nat) (batches : List (List LC)) : Outcome (Option Lat) := do
  let l ← Lat.addBatches inBox σ ⟨[], [], []⟩ batches
  match ← l.completeSurface inBox σ ord fuel with
  | none => .ok none
  | some l => do
      let all := ord (l.nodes.map Prod.fst)
      let l ← l.generateVertices near all
      let l ← l.removeFreeNodes all
      return some l

end Verif.Lattice
