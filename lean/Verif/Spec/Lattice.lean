import Verif.Model.Lattice

/-!
# The marching-tetrahedra surface of a sign field, stated on the lattice itself

The lattice is `ℤ³`; tetrahedron `k` of the cell at `lc` has the corners `lc` and `lc + d` for the three deltas of
row `k`.  A mesh vertex is identified with the lattice edge (unordered pair of corners) it lies on.
-/

namespace Verif.Lattice

/-- an undirected lattice edge, smaller end first -/
abbrev UEdge := LC × LC

def mkEdge (p q : LC) : UEdge := if p.less q then (p, q) else (q, p)

/-- Corner `i` of tetrahedron `k`, relative to the cell: 0 is the cell's own node. -/
def corner (k : Nat) : Nat → LC
  | 0 => ⟨0, 0, 0⟩
  | 1 => delta (tetEdges k).1
  | 2 => delta (tetEdges k).2.1
  | _ => delta (tetEdges k).2.2

/-- Corner `i` of tetrahedron `k` of the cell at `lc`. -/
def tetNode (lc : LC) (k i : Nat) : LC := lc + corner k i

/-- The two corners joined by the `s`-th edge of a tetrahedron. -/
def slotEnds : Nat → Nat × Nat
  | 0 => (0, 1) | 1 => (0, 2) | 2 => (0, 3) | 3 => (1, 2) | 4 => (2, 3) | _ => (3, 1)

/-- The `s`-th edge of tetrahedron `k` of the cell at `lc`. -/
def tetEdge (lc : LC) (k s : Nat) : UEdge := mkEdge (tetNode lc k (slotEnds s).1) (tetNode lc k (slotEnds s).2)

/-- All four corners belong to `S`. -/
def tetIn (S : LC → Bool) (lc : LC) (k : Nat) : Bool := (List.range 4).all (fun i => S (tetNode lc k i))

/-- The faces of one tetrahedron. -/
def tetFaces (σ : LC → Bool) (lc : LC) (k : Nat) : List (UEdge × UEdge × UEdge) :=
  (faceTable (σ (tetNode lc k 0)) (σ (tetNode lc k 1)) (σ (tetNode lc k 2)) (σ (tetNode lc k 3))).map
    (fun f => (tetEdge lc k f.1, tetEdge lc k f.2.1, tetEdge lc k f.2.2))

/-- The surface: the faces of all tetrahedra whose corners are all among the nodes. -/
def surface (nodes : List LC) (σ : LC → Bool) : List (UEdge × UEdge × UEdge) :=
  nodes.flatMap (fun lc => (((List.range 6).filter (tetIn (fun p => decide (p ∈ nodes)) lc)).flatMap (tetFaces σ lc)))

/-- The three directed edges of a face. -/
def dirEdges (f : α × α × α) : List (α × α) := [(f.1, f.2.1), (f.2.1, f.2.2), (f.2.2, f.1)]

/-- `p` and `q` are joined by a lattice edge that the surface crosses. -/
def Crossed (σ : LC → Bool) (e : UEdge) : Prop :=
  (∃ i < 14, e.2 = neighbor e.1 i) ∧ e.1.less e.2 = true ∧ σ e.1 ≠ σ e.2

end Verif.Lattice
