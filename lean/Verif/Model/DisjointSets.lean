import Verif.Model.Outcome

/-!
# src/isosurface/disjoint_sets.hpp : DisjointSets

The vector `parent_` is a size and a function; an access `.at(i)` with `i ≥ n` throws `out_of_range` (a negative
`Index` converts to a huge unsigned position and throws as well; it is represented by any `i ≥ n`).
-/

namespace Verif.DisjointSets

open Verif

/-- `disjoint_sets.hpp:44` -/
structure DS where
  n : Nat
  parent : Nat → Nat

/-- `disjoint_sets.hpp:13-15` - `std::iota`. -/
def init (n : Nat) : DS := ⟨n, fun i => i⟩

/-- Assignment to one element of `parent_`. -/
def DS.set (s : DS) (i v : Nat) : DS := { s with parent := fun x => if x = i then v else s.parent x }

/-- `disjoint_sets.hpp:36-42` - `find`, with path halving.  Returns the state even when an exception ends the call.
The recursion is bounded by `fuel`; running out of fuel is reported as `ub` (an endless loop); `find` starts it
with `n + 1`, and the theorems show that it never runs out. -/
def findLoop : Nat → DS → Nat → DS × Outcome Nat
  | 0, s, _ => (s, .ub)
  | fuel + 1, s, i =>
      if i < s.n then
        if s.parent i = i then (s, .ok i)
        else if s.parent i < s.n then
          let s' := s.set i (s.parent (s.parent i))
          findLoop fuel s' (s'.parent i)
        else (s, .throws .outOfRange)
      else (s, .throws .outOfRange)

def find (s : DS) (i : Nat) : DS × Outcome Nat := findLoop (s.n + 1) s i

/-- `disjoint_sets.hpp:32` - `parent_.at(find(i)) = find(j)`: C++17 evaluates the right operand first. -/
def unite (s : DS) (i j : Nat) : DS × Outcome Unit :=
  match find s j with
  | (s1, .ok rj) =>
      match find s1 i with
      | (s2, .ok ri) => if ri < s2.n then (s2.set ri rj, .ok ()) else (s2, .throws .outOfRange)
      | (s2, .throws e) => (s2, .throws e)
      | (s2, .ub) => (s2, .ub)
  | (s1, .throws e) => (s1, .throws e)
  | (s1, .ub) => (s1, .ub)

/-- `disjoint_sets.hpp:21-27` - the loop of `groups` from index `i` for `k` more indices; `groupOf` is the map
`group_of` (a set's root to its position in `result`). -/
def groupsLoop : Nat → Nat → DS → (Nat → Option Nat) → List (List Nat) → DS × Outcome (List (List Nat))
  | 0, _, s, _, result => (s, .ok result)
  | k + 1, i, s, groupOf, result =>
      match find s i with
      | (s1, .ok r) =>
          match groupOf r with
          | none =>
              groupsLoop k (i + 1) s1 (fun x => if x = r then some result.length else groupOf x)
                (result ++ [[i]])
          | some pos =>
              if pos < result.length then
                groupsLoop k (i + 1) s1 groupOf (result.modify pos (fun g => g ++ [i]))
              else (s1, .throws .outOfRange)
      | (s1, .throws e) => (s1, .throws e)
      | (s1, .ub) => (s1, .ub)

/-- `disjoint_sets.hpp:18-29` -/
def groups (s : DS) : DS × Outcome (List (List Nat)) := groupsLoop s.n 0 s (fun _ => none) []

/-- Public operations. -/
inductive Op where
  | unite (i j : Nat)
  | groups

inductive Out where
  | united (r : Outcome Unit)
  | groups (r : Outcome (List (List Nat)))

def step (s : DS) : Op → DS × Out
  | .unite i j => let (s', r) := unite s i j; (s', .united r)
  | .groups => let (s', r) := groups s; (s', .groups r)

/-- The state after a history of calls. -/
def run (s : DS) : List Op → DS
  | [] => s
  | op :: ops => run (step s op).1 ops

end Verif.DisjointSets
