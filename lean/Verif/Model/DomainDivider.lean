import Verif.Model.Outcome
import Mathlib.Data.Rat.Floor
import Mathlib.Data.List.Basic

/-!
# preconditioner/domain.hpp, preconditioner/domain_divider.hpp

`Index` values are natural numbers where they index points and integers in the partition arithmetic.  A `Domain` keeps
the two parallel vectors `point_indices`, `inner_point` as one list of pairs (the code pushes to both in lock step; same
for the gradient points).  `std::sort` with the geometric comparator, and the choice of the cluster centre (the point
nearest to the centre of the bounding box) are parameters.
-/

namespace Verif.DomainDivider

open Verif

/-- `domain.hpp:16-25` -/
structure Domain where
  pts : List (Nat × Bool)
  grads : List (Nat × Bool)
  deriving DecidableEq, Repr

/-- `domain_divider.hpp:132-142` -/
structure MixedPoint where
  index : Nat
  inner : Bool
  grad : Bool
  deriving DecidableEq, Repr

/-- `domain_divider.hpp:137` -/
def MixedPoint.mult (dim : Nat) (p : MixedPoint) : Nat := if p.grad then dim else 1

/-- `domain_divider.hpp:27` -/
def kMaxLeafSize : Nat := 1024

/-- `domain_divider.hpp:256` - `d.num_points() + kDim * d.num_grad_points()` -/
def Domain.dof (dim : Nat) (d : Domain) : Nat := d.pts.length + dim * d.grads.length

/-- What the code takes from the standard library and from floating-point arithmetic. -/
structure Env where
  /-- `kDim` -/
  dim : Nat
  /-- `std::sort` of mixed points along the axes (`domain_divider.hpp:174-190`, `295-308`) -/
  sort : List MixedPoint → List MixedPoint
  /-- `round_half_to_even((1.0 + q) / 2.0 * n)` in floating point (`domain_divider.hpp:198-200`) -/
  nsub : Nat → Int
  /-- `std::sort` by index (`domain.hpp:31-32`) -/
  sortIdx : List (Nat × Bool) → List (Nat × Bool)
  /-- `*std::min_element` by distance to the centre of the bounding box (`domain_divider.hpp:288-293`) -/
  center : List MixedPoint → MixedPoint

variable (env : Env)

/-- `domain_divider.hpp:311-313` (exact arithmetic) -/
def roundHalfToEven (d : ℚ) : Int := ⌈(d - 1 / 2) / 2⌉ + ⌊(d + 1 / 2) / 2⌋

/-- `domain_divider.hpp:198-200` in exact arithmetic: `q = 0.5 * 1024 / n` -/
def nsubExact (n : Nat) : Int :=
  let q : ℚ := 1 / 2 * (kMaxLeafSize : ℚ) / (n : ℚ)
  roundHalfToEven ((1 + q) / 2 * (n : ℚ))

/-- `domain_divider.hpp:192-195` and `82-85` - running sums `0, m1, m1 + m2, ...` -/
def prefixSumsFrom (dim : Nat) : Nat → List MixedPoint → List Nat
  | acc, [] => [acc]
  | acc, p :: ps => acc :: prefixSumsFrom dim (acc + p.mult dim) ps

/-- `std::upper_bound` on a sorted range, as an offset -/
def upperBound (l : List Nat) (v : Int) : Nat := (l.takeWhile (fun (x : Nat) => decide ((x : Int) ≤ v))).length

/-- `for (i = a; i < b; i++)` -/
def intRange (a b : Int) : List Int := (List.range (b - a).toNat).map (fun (k : Nat) => a + (k : Int))

/-- `std::vector::at` with a signed index -/
def at? (l : List α) (i : Int) : Outcome α :=
  if i < 0 then .throws .outOfRange
  else match l[i.toNat]? with
    | some x => .ok x
    | none => .throws .outOfRange

/-- pushing a point with its flag to a domain (`domain_divider.hpp:225-231`, `238-244`) -/
def Domain.push (d : Domain) (p : MixedPoint) (inner : Bool) : Domain :=
  if p.grad then { d with grads := d.grads ++ [(p.index, inner)] }
  else { d with pts := d.pts ++ [(p.index, inner)] }

/-- one of the loops `domain_divider.hpp:221-232`, `234-245` -/
def fillLoop (ms : List MixedPoint) (flag : Int → Bool) : List Int → Domain → Outcome Domain
  | [], d => .ok d
  | i :: is, d => do
      let p ← at? ms i
      fillLoop ms flag is (d.push p (p.inner && flag i))

/-- `domain_divider.hpp:166-172` -/
def mixedPoints (d : Domain) : List MixedPoint :=
  d.pts.map (fun p => ⟨p.1, p.2, false⟩) ++ d.grads.map (fun p => ⟨p.1, p.2, true⟩)

/-- `domain_divider.hpp:161-249` - returns the two new domains in the order they are appended -/
def divideDomain (d : Domain) : Outcome (Domain × Domain) := do
  let mu := d.pts.length
  let sigma := d.grads.length
  let ms := env.sort (mixedPoints d)
  let sums := prefixSumsFrom env.dim 0 ms
  let nMult := mu + env.dim * sigma
  let nSub := env.nsub nMult
  let leftMult : Int := (nMult : Int) - nSub
  let rightMult : Int := nSub
  let midMult : Int := roundHalfToEven (((leftMult + rightMult : Int) : ℚ) / 2)
  let nPoints : Int := mu + sigma
  let leftPartition : Int := (upperBound sums leftMult : Int) - 1
  let rightPartition : Int := (upperBound sums rightMult : Int) - 1
  let mid : Int := (upperBound sums midMult : Int) - 1
  let left ← fillLoop ms (fun i => decide (i < mid)) (intRange 0 rightPartition) ⟨[], []⟩
  let right ← fillLoop ms (fun i => decide (i ≥ mid)) (intRange leftPartition nPoints) ⟨[], []⟩
  return (left, right)

/-- `domain_divider.hpp:251-264` - the part of the list before the iterator, and the part from it on; `none` when the
given number of iterations is not enough -/
def divideLoop : Nat → List Domain → List Domain → Option (Outcome (List Domain))
  | 0, _, _ => none
  | _ + 1, done, [] => some (.ok done)
  | n + 1, done, d :: rest =>
      if d.dof env.dim ≤ kMaxLeafSize then divideLoop n (done ++ [d]) rest
      else match divideDomain env d with
        | .ok (l, r) => divideLoop n done (rest ++ [l, r])
        | .throws e => some (.throws e)
        | .ub => some .ub

/-- `std::lower_bound` by index on the sorted tail (`domain.hpp:40`), as an offset -/
def lowerBound (tail : List (Nat × Bool)) (idx : Nat) : Nat := (tail.takeWhile (fun p => decide (p.1 < idx))).length

/-- `domain.hpp:38-50` - flags of the polynomial points found so far, and the tail -/
def mergeLoop : List Nat → List (Nat × Bool) → List (Nat × Bool)
  | [], tail => tail
  | idx :: poly, tail =>
      let pos := lowerBound tail idx
      match tail[pos]? with
      | some (j, f) =>
          if j = idx then (idx, f) :: mergeLoop poly (tail.eraseIdx pos)
          else (idx, false) :: mergeLoop poly tail
      | none => (idx, false) :: mergeLoop poly tail

/-- `domain.hpp:30-51` -/
def Domain.mergePolyPoints (d : Domain) (poly : List Nat) : Domain :=
  { d with pts := mergeLoop poly (env.sortIdx d.pts) }

/-- `domain_divider.hpp:41-49` -/
def root (pts grads : List Nat) : Domain := ⟨pts.map (fun i => (i, true)), grads.map (fun i => (i, true))⟩

/-- `domain_divider.hpp:251-269` -/
def divideDomains (fuel : Nat) (poly : List Nat) (r : Domain) : Option (Outcome (List Domain)) :=
  (divideLoop env fuel [] [r]).map (fun o => o >>= fun ds => .ok (ds.map (fun d => d.mergePolyPoints env poly)))

/-- `domain_divider.hpp:31-52` followed by `domains()` (`127`) -/
def domains (fuel : Nat) (pts grads poly : List Nat) : Option (Outcome (List Domain)) :=
  divideDomains env fuel poly (root pts grads)

/-! ## choose_coarse_points -/

/-- `domain_divider.hpp:144-159`; the bounding box only breaks ties between clusters of the same level -/
structure Cluster where
  level : Int
  points : List MixedPoint
  center : MixedPoint
  deriving DecidableEq, Repr

/-- `domain_divider.hpp:278-309` - dereferences the past-the-end iterator of an empty vector -/
def initCluster (level : Int) (points : List MixedPoint) : Outcome Cluster :=
  match points with
  | [] => .ub
  | _ => .ok ⟨level, env.sort points, env.center points⟩

/-- `domain_divider.hpp:89-93` - the comparison of `std::min_element` -/
def midLess (sums : List Nat) (size : Int) (i j : Nat) : Bool :=
  let dl := |2 * ((sums.getD i 0 : Nat) : Int) - size|
  let dr := |2 * ((sums.getD j 0 : Nat) : Int) - size|
  decide (dl < dr) || (decide (dl = dr) && decide (i % 2 = 0))

/-- `std::min_element` as the standard library implements it -/
def minElement (less : Nat → Nat → Bool) : Nat → List Nat → Nat
  | best, [] => best
  | best, i :: is => minElement less (if less i best then i else best) is

/-- `domain_divider.hpp:82-94` for a cluster with at least one point -/
def findMid (dim : Nat) (points : List MixedPoint) : Nat :=
  let sums := prefixSumsFrom dim 0 points
  let size : Int := ((sums.getLast?.getD 0 : Nat) : Int)
  minElement (midLess sums size) 0 ((List.range points.length).drop 1)

/-- What `std::priority_queue` does: `top` is the position of an element of highest priority (smallest level; ties are
resolved by volume and by the heap's history), `stale` is what is read from `cluster.level` after the last element was
popped (`domain_divider.hpp:100-110` reads through a reference to the popped element: a destroyed object if the queue is
empty, else the new top). -/
structure Queue where
  top : List Cluster → Nat
  stale : List Cluster → Int

/-- the smallest level in a non-empty queue, which is the level of the element at the front of the heap -/
def frontLevel (q : Queue) (cs : List Cluster) : Int :=
  match cs with
  | [] => q.stale cs
  | c :: cs => cs.foldl (fun m c => min m c.level) c.level

/-- `domain_divider.hpp:79-114` - one pass of the loop; the first component is `current_size` -/
def splitStep (q : Queue) (size : Int) (cs : List Cluster) : Outcome (Int × List Cluster) :=
  match cs[q.top cs]? with
  | none => .ub
  | some cluster => do
      let mid := findMid env.dim cluster.points
      let leftPoints := cluster.points.take mid
      let rightPoints := cluster.points.drop mid
      let size := size - (cluster.center.mult env.dim : Nat)
      let cs := cs.eraseIdx (q.top cs)
      let (size, cs) ←
        if leftPoints.isEmpty then Outcome.ok (size, cs)
        else do
          let left ← initCluster env (frontLevel q cs + 1) leftPoints
          Outcome.ok (size + (left.center.mult env.dim : Nat), cs ++ [left])
      if rightPoints.isEmpty then Outcome.ok (size, cs)
      else do
        let right ← initCluster env (frontLevel q cs + 1) rightPoints
        Outcome.ok (size + (right.center.mult env.dim : Nat), cs ++ [right])

/-- `domain_divider.hpp:78-115`; `none` when the given number of iterations is not enough -/
def coarseLoop (q : Queue) (n : Int) : Nat → Int → List Cluster → Option (Outcome (List Cluster))
  | 0, _, _ => none
  | fuel + 1, size, cs =>
      if size < n then
        match splitStep env q size cs with
        | .ok (size, cs) => coarseLoop q n fuel size cs
        | .throws e => some (.throws e)
        | .ub => some .ub
      else some (.ok cs)

/-- `domain_divider.hpp:60-69` -/
def coarseRoot (pts grads poly : List Nat) : List MixedPoint :=
  (pts.filter (fun i => i ∉ poly)).map (fun i => ⟨i, true, false⟩) ++ grads.map (fun i => ⟨i, true, true⟩)

/-- `domain_divider.hpp:117-124`; the order in which the queue is emptied is `drain`, a permutation -/
def collect (poly : List Nat) (cs : List Cluster) : List Nat × List Nat :=
  (poly ++ ((cs.filter (fun c => !c.center.grad)).map (fun c => c.center.index)),
    (cs.filter (fun c => c.center.grad)).map (fun c => c.center.index))

/-- `domain_divider.hpp:54-125` -/
def chooseCoarsePoints (q : Queue) (drain : List Cluster → List Cluster) (fuel : Nat) (pts grads poly : List Nat)
    (n : Int) : Option (Outcome (List Nat × List Nat)) :=
  match initCluster env 0 (coarseRoot pts grads poly) with
  | .ub => some .ub
  | .throws e => some (.throws e)
  | .ok root =>
      (coarseLoop env q n fuel (root.center.mult env.dim : Nat) [root]).map
        (fun o => o >>= fun cs => .ok (collect poly (drain cs)))

end Verif.DomainDivider
