import Verif.Model.DisjointSets
import Mathlib.Logic.Relation

/-! # Specification: the equivalence generated by the united pairs, and its classes -/

namespace Verif.DisjointSets.Spec

/-- The pairs of in-range indices passed to `unite` in a history over `n` elements. -/
def united (n : Nat) : List Op → List (Nat × Nat)
  | [] => []
  | .unite i j :: ops => if i < n ∧ j < n then (i, j) :: united n ops else united n ops
  | .groups :: ops => united n ops

/-- Connected by united pairs. -/
def Conn (us : List (Nat × Nat)) : Nat → Nat → Prop := Relation.EqvGen (fun a b => (a, b) ∈ us)

/-- `gs` lists the classes of `Conn us` on `0 .. n-1`: every element is in exactly one group, two elements share a group
iff they are connected, each group is non-empty and increasing, and groups are ordered by their smallest member. -/
structure IsClasses (n : Nat) (us : List (Nat × Nat)) (gs : List (List Nat)) : Prop where
  cover : gs.flatten.Perm (List.range n)
  same : ∀ i j, i < n → j < n → ((∃ g ∈ gs, i ∈ g ∧ j ∈ g) ↔ Conn us i j)
  increasing : ∀ g ∈ gs, g.Pairwise (· < ·)
  nonempty : ∀ g ∈ gs, g ≠ []
  ordered : (gs.map (fun g => g.headD 0)).Pairwise (· < ·)

end Verif.DisjointSets.Spec
