import Verif.Model.Outcome

/-!
# src/isosurface/dense_undirected_graph.hpp : DenseUndirectedGraph

The matrix is an order and an entry function (entries are natural numbers; overflow of `int` is not modelled).
Accesses of `m_(i, j)` outside of the matrix are unchecked in release builds and hence `ub`.
The two graph searches are loops; they are modelled with a fuel argument, and running out of fuel is reported as
`ub` (endless loop).  The theorems show that this never happens.
-/

namespace Verif.Graph

open Verif

/-- `dense_undirected_graph.hpp:130` - `m_`; only the upper triangle is used. -/
structure G where
  order : Nat
  m : Nat → Nat → Nat

/-- `dense_undirected_graph.hpp:18-22` -/
def mk (order : Nat) : Outcome G :=
  if order = 0 then .throws .invalidArgument else .ok ⟨order, fun _ _ => 0⟩

/-- `dense_undirected_graph.hpp:24-29` -/
def addEdge (g : G) (i j : Nat) : Outcome G :=
  let (i, j) := if i > j then (j, i) else (i, j)
  if i < g.order ∧ j < g.order then
    .ok { g with m := fun a b => if a = i ∧ b = j then g.m i j + 1 else g.m a b }
  else .ub

/-- `dense_undirected_graph.hpp:123-128` -/
def hasEdge (g : G) (i j : Nat) : Bool :=
  let (i, j) := if i > j then (j, i) else (i, j)
  g.m i j ≠ 0

/-- `dense_undirected_graph.hpp:73-78` - the inner loop of `is_connected`: pushes unvisited neighbours (stack top
first, so the last pushed is the head). -/
def pushNbrs (g : G) (i : Nat) (visited : Nat → Bool) (stack : List Nat) : List Nat :=
  (List.range g.order).foldl (fun st j => if hasEdge g i j && !visited j then j :: st else st) stack

/-- `dense_undirected_graph.hpp:67-78` - the DFS loop of `is_connected`; note that a vertex is marked when popped, so it
may be on the stack several times. -/
def dfs (g : G) : Nat → (Nat → Bool) → List Nat → Outcome (Nat → Bool)
  | 0, _, _ => .ub
  | _ + 1, visited, [] => .ok visited
  | fuel + 1, visited, i :: stack =>
      let visited' := fun x => if x = i then true else visited x
      dfs g fuel visited' (pushNbrs g i visited' stack)

/-- `dense_undirected_graph.hpp:61-81` -/
def isConnected (g : G) : Outcome Bool := do
  let visited ← dfs g (g.order * (g.order + 1) + 2) (fun _ => false) [0]
  return (List.range g.order).all visited

/-- `dense_undirected_graph.hpp:45-50` - the inner loop of `connected_components`: marks and pushes unmarked
neighbours.  `component j = none` stands for `-1`. -/
def markNbrs (g : G) (i count : Nat) (component : Nat → Option Nat) (stack : List Nat) :
    (Nat → Option Nat) × List Nat :=
  (List.range g.order).foldl
    (fun (st : (Nat → Option Nat) × List Nat) j =>
      if hasEdge g i j && (st.1 j).isNone then
        (fun x => if x = j then some count else st.1 x, j :: st.2)
      else st)
    (component, stack)

/-- `dense_undirected_graph.hpp:42-51` -/
def flood (g : G) (count : Nat) : Nat → (Nat → Option Nat) → List Nat → Outcome (Nat → Option Nat)
  | 0, _, _ => .ub
  | _ + 1, component, [] => .ok component
  | fuel + 1, component, i :: stack =>
      let (c, st) := markNbrs g i count component stack
      flood g count fuel c st

/-- `dense_undirected_graph.hpp:35-53` - the loop over start vertices, from `s` for `k` more vertices. -/
def componentsLoop (g : G) : Nat → Nat → Nat → (Nat → Option Nat) → Outcome ((Nat → Option Nat) × Nat)
  | 0, _, count, component => .ok (component, count)
  | k + 1, s, count, component =>
      if (component s).isSome then componentsLoop g k (s + 1) count component
      else do
        let c ← flood g count (g.order + 2) (fun x => if x = s then some count else component x) [s]
        componentsLoop g k (s + 1) (count + 1) c

/-- `dense_undirected_graph.hpp:54-58` - distributes the vertices; `.at` throws on a bad component number. -/
def distribute (component : Nat → Option Nat) : List Nat → List (List Nat) → Outcome (List (List Nat))
  | [], result => .ok result
  | i :: is, result =>
      match component i with
      | none => .throws .outOfRange
      | some c =>
          if c < result.length then distribute component is (result.modify c (fun g => g ++ [i]))
          else .throws .outOfRange

/-- `dense_undirected_graph.hpp:32-59` -/
def connectedComponents (g : G) : Outcome (List (List Nat)) := do
  let (component, count) ← componentsLoop g g.order 0 0 (fun _ => none)
  distribute component (List.range g.order) (List.replicate count [])

/-- `dense_undirected_graph.hpp:83-97` -/
def isSimple (g : G) : Bool :=
  (List.range g.order).all (fun i =>
    g.m i i = 0 && (List.range' (i + 1) (g.order - (i + 1))).all (fun j => !(g.m i j > 1)))

/-- `dense_undirected_graph.hpp:118-121` - column sum plus row sum minus the diagonal entry (so loops count once). -/
def degree (g : G) (i : Nat) : Int :=
  (((List.range g.order).map (fun k => g.m k i)).sum : Int)
    + (((List.range g.order).map (fun k => g.m i k)).sum : Int) - (g.m i i : Int)

/-- `dense_undirected_graph.hpp:99-105` -/
def maxDegree (g : G) : Int := (List.range g.order).foldl (fun d i => max d (degree g i)) 0

/-- `dense_undirected_graph.hpp:107-113` -/
def minDegree (g : G) : Int :=
  (List.range' 1 (g.order - 1)).foldl (fun d i => min d (degree g i)) (degree g 0)

/-- Adding a list of edges to a new graph. -/
def addEdges (g : G) : List (Nat × Nat) → Outcome G
  | [] => .ok g
  | (i, j) :: es => do
      let g' ← addEdge g i j
      addEdges g' es

def build (order : Nat) (es : List (Nat × Nat)) : Outcome G := do
  let g ← mk order
  addEdges g es

end Verif.Graph
