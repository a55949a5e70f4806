import Verif.Lemmas.DisjointSets

/-!
# C08: DisjointSets computes the equivalence generated by the united pairs
-/

namespace Verif.DisjointSets

open Verif Spec

/-- **C08.** After every history of `unite` and `groups` calls (including rejected ones), `groups()` terminates
normally and returns exactly the classes of the equivalence generated by the pairs united so far. -/
theorem C08_groups_are_classes (n : Nat) (ops : List Op) :
    ∃ gs, (groups (run (init n) ops)).2 = .ok gs ∧ IsClasses n (united n ops) gs := by
  obtain ⟨gs, h1, h2, _⟩ := groups_inv (run_inv (inv_init n) ops)
  exact ⟨gs, h1, by simpa using h2⟩

/-- **C08, termination and errors.** After every history, `unite i j` succeeds iff both indices are in range and throws
`out_of_range` otherwise; it never loops. -/
theorem C08_unite_total (n : Nat) (ops : List Op) (i j : Nat) :
    (unite (run (init n) ops) i j).2 = if i < n ∧ j < n then .ok () else .throws .outOfRange := by
  have h := unite_inv (run_inv (inv_init n) ops) i j
  by_cases hb : i < n ∧ j < n
  · rw [if_pos hb]; exact (h.1 hb).1
  · rw [if_neg hb]; exact (h.2 hb).1

/-- Non-vacuity: a history with chains, a redundant and a rejected call. -/
example : (groups (run (init 6) [.unite 0 4, .unite 4 2, .groups, .unite 2 0, .unite 9 1, .unite 5 3])).2
    = .ok [[0, 2, 4], [1], [3, 5]] := by decide

end Verif.DisjointSets
