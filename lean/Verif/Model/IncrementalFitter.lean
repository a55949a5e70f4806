import Verif.Model.DistanceFilter

/-!
# interpolation/incremental_fitter.hpp : IncrementalFitter

Exact real arithmetic.  Points are numbered; the solver and the evaluator are parameters (the evaluator by the value and
the gradient components it gives at each point for given centers and weights).  `sortP` and `sortG` are the two calls of
`zip_sort` with ascending order (C01).  `complementary_indices` is used through its specification C02.
-/

namespace Verif.Incremental

open Verif DistanceFilter

structure Problem where
  /-- `mu_full_`, `sigma_full_`, `kDim`, `l_`, `poly_degree() == 1` -/
  muF : Nat
  sigF : Nat
  dim : Nat
  l : Nat
  deg1 : Bool
  valuesFull : List ℝ
  tol : ℝ
  gtol : ℝ
  /-- `bbox_.width().norm()` -/
  d0 : ℝ
  searchP : ℝ → Nat → List Nat
  searchG : ℝ → Nat → List Nat
  /-- centers, gradient centers, values at these, initial weights -/
  solve : List Nat → List Nat → List ℝ → List ℝ → Outcome (List ℝ)
  /-- the fitted value at a point, for centers, gradient centers and weights -/
  evalP : List Nat → List Nat → List ℝ → Nat → ℝ
  /-- the `k`-th component of the fitted gradient at a gradient point -/
  evalG : List Nat → List Nat → List ℝ → Nat → Nat → ℝ
  sortP : List (Nat × ℝ) → List (Nat × ℝ)
  sortG : List (Nat × ℝ) → List (Nat × ℝ)

variable (pb : Problem)

/-- `values_full.head(mu_full_)(i)` -/
def Problem.value (i : Nat) : ℝ := pb.valuesFull.getD i 0

/-- `values_full.tail(kDim * sigma_full_).reshaped<RowMajor>(sigma_full_, kDim)(i, k)` -/
def Problem.gradValue (i k : Nat) : ℝ :=
  pb.valuesFull.getD (pb.valuesFull.length - pb.dim * pb.sigF + (pb.dim * i + k)) 0

/-- `incremental_fitter.hpp:85-89` - the right-hand side for the chosen centers -/
def Problem.values (centers grads : List Nat) : List ℝ :=
  centers.map pb.value ++ grads.flatMap (fun i => (List.range pb.dim).map (pb.gradValue i))

/-- `complementary_indices(indices, n)` for distinct indices in range (C02); other inputs count as undefined. -/
def compl (indices : List Nat) (n : Nat) : Outcome (List Nat) :=
  if indices.Nodup ∧ ∀ i ∈ indices, i < n then .ok ((List.range n).filter (fun i => !indices.contains i)) else .ub

/-- The state at the head of the loop. -/
structure St where
  centers : List Nat
  grads : List Nat
  weights : List ℝ
  fd : ℝ

/-- `incremental_fitter.hpp:53-69` -/
noncomputable def init : St :=
  let centers := if pb.deg1 ∧ pb.muF = 1 ∧ pb.sigF ≥ 1 then [0] else []
  ⟨centers, [], List.replicate (centers.length + pb.dim * 0 + pb.l) 0, max pb.d0 kMinDistance⟩

/-- `incremental_fitter.hpp:83` -/
def enough (mu sigma : Nat) : Bool := decide (mu ≥ pb.l) || (pb.deg1 && decide (mu = 1) && decide (sigma ≥ 1))

/-- `incremental_fitter.hpp:83-91` -/
def solveStep (s : St) : Outcome (List ℝ) :=
  if enough pb s.centers.length s.grads.length then pb.solve s.centers s.grads (pb.values s.centers s.grads) s.weights
  else .ok s.weights

/-- `incremental_fitter.hpp:108` - `evaluate` at the remaining points: values, then gradients row by row. -/
def fitAt (s : St) (w : List ℝ) (cc cg : List Nat) : List ℝ :=
  cc.map (pb.evalP s.centers s.grads w) ++
    cg.flatMap (fun i => (List.range pb.dim).map (pb.evalG s.centers s.grads w i))

/-- `incremental_fitter.hpp:185-197` -/
def residuals (cc : List Nat) (fit : List ℝ) : List ℝ :=
  List.zipWith (fun f i => |f - pb.value i|) (fit.take cc.length) cc

/-- `incremental_fitter.hpp:199-216`; `tail(kDim * c_sigma)` reshaped to rows, the largest absolute difference of each. -/
def gradResiduals (cg : List Nat) (fit : List ℝ) : List ℝ :=
  let tail := fit.drop (fit.length - pb.dim * cg.length)
  cg.zipIdx.map (fun (i, r) => ((List.range pb.dim).map (fun k =>
    |tail.getD (pb.dim * r + k) 0 - pb.gradValue i k|)).foldl max 0)

/-- `incremental_fitter.hpp:122-134` - `lower_bound` in the ascending residuals, distance to the end. -/
noncomputable def needFitting (sorted : List (Nat × ℝ)) (tol : ℝ) : Nat :=
  sorted.length - (sorted.takeWhile (fun p => decide (p.2 < tol))).length

/-- `incremental_fitter.hpp:145-155, 157-168` - the new centers of one kind, largest residual first. -/
noncomputable def additions (n : Nat) (search : ℝ → Nat → List Nat) (fd : ℝ) (centers : List Nat)
    (sorted : List (Nat × ℝ)) (need : Nat) : Outcome (List Nat) :=
  let desc := (sorted.map Prod.fst).reverse
  match (DF.new n).filter search (some fd) (centers ++ desc) with
  | (f, .ok ()) => do
      let kept ← f.filteredIndices
      return (desc.take need).filter (fun i => kept.contains i)
  | (_, .throws e) => .throws e
  | (_, .ub) => .ub

/-- `incremental_fitter.hpp:173-177` -/
def relayout (last : List ℝ) (lastMu lastSigma mu sigma : Nat) : List ℝ :=
  last.take lastMu ++ List.replicate (mu - lastMu) 0 ++ (last.drop lastMu).take (pb.dim * lastSigma) ++
    List.replicate (pb.dim * (sigma - lastSigma)) 0 ++ last.drop (last.length - pb.l)

/-- `incremental_fitter.hpp:71-180` - one pass of the loop: the result, or the state for the next pass. -/
noncomputable def round (s : St) : Outcome ((List Nat × List Nat × List ℝ) ⊕ St) := do
  let w ← solveStep pb s
  if s.centers.length = pb.muF ∧ s.grads.length = pb.sigF then return .inl (s.centers, s.grads, w)
  else
    let cc ← compl s.centers pb.muF
    let cg ← compl s.grads pb.sigF
    let fit := fitAt pb s w cc cg
    let sp := pb.sortP (cc.zip (residuals pb cc fit))
    let sg := pb.sortG (cg.zip (gradResiduals pb cg fit))
    let np := needFitting sp pb.tol
    let ng := needFitting sg pb.gtol
    if np = 0 ∧ ng = 0 then return .inl (s.centers, s.grads, w)
    else
      let ap ← additions pb.muF pb.searchP s.fd s.centers sp np
      let ag ← additions pb.sigF pb.searchG s.fd s.grads sg ng
      let centers := s.centers ++ ap
      let grads := s.grads ++ ag
      return .inr ⟨centers, grads, relayout pb w s.centers.length s.grads.length centers.length grads.length,
        max (1 / 2 * s.fd) kMinDistance⟩

/-- The `while (true)` loop run for at most `fuel` passes; `none` if it has not ended by then. -/
noncomputable def loop : Nat → St → Option (Outcome (List Nat × List Nat × List ℝ))
  | 0, _ => none
  | fuel + 1, s =>
      match round pb s with
      | .ok (.inl r) => some (.ok r)
      | .ok (.inr s') => loop fuel s'
      | .throws e => some (.throws e)
      | .ub => some .ub

/-- `incremental_fitter.hpp:46-183` -/
noncomputable def fit (fuel : Nat) : Option (Outcome (List Nat × List Nat × List ℝ)) := loop pb fuel (init pb)

end Verif.Incremental
