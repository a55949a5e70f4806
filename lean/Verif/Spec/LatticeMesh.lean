import Verif.Spec.Lattice

/-!
# What it means for an indexed mesh to be the marching-tetrahedra surface of a set of nodes
-/

namespace Verif.Lattice

/-- the lattice edge of a vertex, given by a node and one of its 14 edges -/
def edgeOf (p : LC × Nat) : UEdge := mkEdge p.1 (neighbor p.1 p.2)

/-- the lattice edge of a vertex index -/
def edgeAt (V : List (LC × Nat)) (v : Int) : UEdge := edgeOf (V.getD v.toNat (⟨0, 0, 0⟩, 0))

/-- a valid vertex index -/
def ValidIdx (V : List (LC × Nat)) (v : Int) : Prop := 0 ≤ v ∧ v < V.length

/-- apply a map to the three vertices of a face -/
def map3 (g : α → β) (f : α × α × α) : β × β × β := (g f.1, g f.2.1, g f.2.2)

/-- all three vertices satisfy `Q` -/
def All3 (Q : α → Prop) (f : α × α × α) : Prop := Q f.1 ∧ Q f.2.1 ∧ Q f.2.2

/-- The vertices `V` and the faces `fs` are the surface of the signs `σ` on the nodes `R`: one vertex for every lattice edge
between nodes that the surface crosses and no others, and the faces, read through their vertices, are exactly the faces of
the surface, each as often as it occurs there and with its orientation. -/
structure MeshOf (σ : LC → Bool) (R : List LC) (V : List (LC × Nat)) (fs : List Face) : Prop where
  once : (V.map edgeOf).Nodup
  vertices : ∀ u, u ∈ V.map edgeOf ↔ Crossed σ u ∧ u.1 ∈ R ∧ u.2 ∈ R
  valid : ∀ f ∈ fs, All3 (ValidIdx V) f
  faces : (fs.map (map3 (edgeAt V))).Perm (surface R σ)

end Verif.Lattice
