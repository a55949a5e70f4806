import Mathlib.Logic.Relation

/-! # Specification: multigraphs given by a list of edges -/

namespace Verif.Graph.Spec

/-- `a` and `b` are joined by an added edge. -/
def Adj (es : List (Nat × Nat)) (a b : Nat) : Prop := (a, b) ∈ es ∨ (b, a) ∈ es

/-- Joined by a path. -/
def Reach (es : List (Nat × Nat)) : Nat → Nat → Prop := Relation.ReflTransGen (Adj es)

/-- Number of edges incident to `v` (a loop counts once). -/
def degree (es : List (Nat × Nat)) (v : Nat) : Nat := es.countP (fun e => e.1 = v ∨ e.2 = v)

/-- Number of edges between `a` and `b`. -/
def multiplicity (es : List (Nat × Nat)) (a b : Nat) : Nat :=
  es.countP (fun e => (e.1 = a ∧ e.2 = b) ∨ (e.1 = b ∧ e.2 = a))

/-- No loops, no parallel edges. -/
def Simple (es : List (Nat × Nat)) : Prop :=
  (∀ v, (v, v) ∉ es) ∧ ∀ a b, multiplicity es a b ≤ 1

/-- `gs` lists the classes of an equivalence `R` on `0 .. n-1`. -/
structure IsClasses (n : Nat) (R : Nat → Nat → Prop) (gs : List (List Nat)) : Prop where
  cover : gs.flatten.Perm (List.range n)
  same : ∀ i j, i < n → j < n → ((∃ g ∈ gs, i ∈ g ∧ j ∈ g) ↔ R i j)
  increasing : ∀ g ∈ gs, g.Pairwise (· < ·)
  nonempty : ∀ g ∈ gs, g ≠ []
  ordered : (gs.map (fun g => g.headD 0)).Pairwise (· < ·)

end Verif.Graph.Spec
