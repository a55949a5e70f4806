import Verif.Model.FineGrid
import Mathlib.Algebra.BigOperators.Group.Finset.Basic
import Mathlib.Analysis.SpecialFunctions.Pow.Real
import Mathlib.Analysis.SpecialFunctions.Log.Base

/-!
# preconditioner/ras_preconditioner.hpp: the levels and the application of the preconditioner

Arithmetic is exact.  A vector is a function from offsets; entries beyond its size are not part of it.  The factorisations of the
subgrids are functions from right-hand sides to solutions (`Model/FineGrid.lean` has the reduced systems).  The cached evaluators
(`:255-269`) are functions of the weights: each is constructed once for its pair of levels, and what it returns depends on the latest weights
only (C54).
-/

namespace Verif.Ras

open Verif DomainDivider FineGrid

/-- `ras_preconditioner.hpp:338-341` - dimension, numbers of points and size of the polynomial basis; `K i j` is what a unit weight in row `j`
contributes to row `i` when evaluated (`interpolation/evaluator.hpp:65-82`, C27), `P` the monomials in the rows. -/
structure Sys where
  dim : Nat
  mu : Nat
  sigma : Nat
  l : Nat
  K : Nat → Nat → ℝ
  P : Nat → Nat → ℝ

/-- the number of rows: `mu_ + kDim * sigma_` -/
def Sys.N (s : Sys) : Nat := s.mu + s.dim * s.sigma

/-- `ras_preconditioner.hpp:349-350` - the points of a level -/
structure Level where
  pts : List Nat
  grads : List Nat

/-- the rows of the points of a level, in order -/
def rows (s : Sys) (lv : Level) : List Nat := lv.pts ++ lv.grads.flatMap fun g => (List.range s.dim).map fun k => s.mu + s.dim * g + k

/-- the parts of a `RasPreconditioner`: `ras_preconditioner.hpp:348-357` -/
structure Pre where
  /-- `n_levels_` -/
  n : Nat
  lv : Nat → Level
  /-- `coarse_grid.hpp:102-131`: the values at the points of level 0 to `lambda_c_` -/
  coarse : List ℝ → List ℝ
  /-- `fine_grid.hpp:112-142`: the subgrids of a level, with the map from the values at their points to `lambda_` -/
  fine : Nat → List (Domain × (List ℝ → Nat → ℝ))
  /-- the order in which the threads of the parallel loop make their assignments -/
  sched : Nat → List (List (Nat × ℝ)) → List (Nat × ℝ)
  /-- `p_`, by row and column -/
  p : Nat → Nat → ℝ
  /-- `ap_` -/
  ap : Nat → Nat → ℝ

/-- `coarse_grid.hpp:103-107` -/
def coarseValues (s : Sys) (lv : Level) (r : Nat → ℝ) : List ℝ :=
  lv.pts.map r ++ lv.grads.flatMap fun g => (List.range s.dim).map fun k => r (s.mu + s.dim * g + k)

/-- `fine_grid.hpp:113-117` -/
def fineValues (s : Sys) (d : Domain) (r : Nat → ℝ) : List ℝ :=
  d.pts.map (fun q => r q.1) ++ d.grads.flatMap fun g => (List.range s.dim).map fun k => r (s.mu + s.dim * g.1 + k)

/-- `coarse_grid.hpp:92-100` -/
def coarseWrites (s : Sys) (lv : Level) (lam : List ℝ) : List (Nat × ℝ) := (rows s lv ++ (List.range s.l).map fun t => s.N + t).zip lam

/-- `ras_preconditioner.hpp:280-298` -/
def solve (s : Sys) (c : Pre) (level : Nat) (r : Nat → ℝ) : Nat → ℝ :=
  if level = 0 then assignAll (fun _ => 0) (coarseWrites s (c.lv 0) (c.coarse (coarseValues s (c.lv 0) r)))
  else assignAll (fun _ => 0) (c.sched level ((c.fine level).map fun f => writes s.dim s.mu f.1 (f.2 (fineValues s f.1 r))))

/-- `ras_preconditioner.hpp:301-313` -/
def srcWeights (s : Sys) (src : Level) (w : Nat → ℝ) : List ℝ :=
  src.pts.map w ++ (src.grads.flatMap fun g => (List.range s.dim).map fun k => w (s.mu + s.dim * g + k)) ++ (List.range s.l).map fun t => w (s.N + t)

/-- `ras_preconditioner.hpp:314-316` - the evaluator with the points of `src` as sources and those of `trg` as targets -/
def evaluate (s : Sys) (src trg : Level) (x : List ℝ) : List ℝ :=
  (rows s trg).map fun i =>
    (List.zipWith (fun j y => s.K i j * y) (rows s src) x).sum + ((List.range s.l).map fun t => s.P i t * x.getD ((rows s src).length + t) 0).sum

/-- `ras_preconditioner.hpp:318-328` -/
def subtractAt (r : Nat → ℝ) (is : List Nat) (fit : List ℝ) : Nat → ℝ := (is.zip fit).foldl (fun r q => Function.update r q.1 (r q.1 - q.2)) r

/-- `ras_preconditioner.hpp:300-329` -/
def updateResiduals (s : Sys) (c : Pre) (src trg : Nat) (w r : Nat → ℝ) : Nat → ℝ :=
  subtractAt r (rows s (c.lv trg)) (evaluate s (c.lv src) (c.lv trg) (srcWeights s (c.lv src) w))

/-- `ras_preconditioner.hpp:271-278` - with `dot`, the weights and the residuals are changed; without polynomials the sums are empty. -/
noncomputable def orthogonalize (s : Sys) (c : Pre) (w r : Nat → ℝ) : (Nat → ℝ) × (Nat → ℝ) :=
  let dot := fun t => ∑ i ∈ Finset.range s.N, c.p i t * w i
  (fun i => if i < s.N then w i - ∑ t ∈ Finset.range s.l, c.p i t * dot t else w i,
   fun i => if i < s.N then r i + ∑ t ∈ Finset.range s.l, c.ap i t * dot t else r i)

/-- total weights and residuals -/
abbrev St := (Nat → ℝ) × (Nat → ℝ)

/-- `ras_preconditioner.hpp:206-211`, `221-226`, `239-242` -/
def coarseStep (s : Sys) (c : Pre) (trg : Nat) (st : St) : St :=
  let w := solve s c 0 st.2
  (st.1 + w, updateResiduals s c 0 trg w st.2)

/-- `ras_preconditioner.hpp:214-219`, `230-235` -/
noncomputable def fineStep (s : Sys) (c : Pre) (level trg : Nat) (st : St) : St :=
  let w := solve s c level st.2
  orthogonalize s c (st.1 + w) (updateResiduals s c level trg w st.2)

/-- `ras_preconditioner.hpp:213-227` -/
noncomputable def upStep (s : Sys) (c : Pre) (st : St) (level : Nat) : St := coarseStep s c (c.n - 1) (fineStep s c level (c.n - 1) st)

/-- `ras_preconditioner.hpp:229-246` - on level 1 the residuals are not updated any more. -/
noncomputable def downStep (s : Sys) (c : Pre) (st : St) (level : Nat) : St :=
  let st := fineStep s c level (level - 1) st
  if level > 1 then coarseStep s c (level - 1) st else (st.1 + solve s c 0 st.2, st.2)

/-- `ras_preconditioner.hpp:191-249` - the levels 1, …, n - 2 and then n - 1, …, 1 -/
noncomputable def apply (s : Sys) (c : Pre) (v : Nat → ℝ) : Nat → ℝ :=
  if c.n = 1 then solve s c 0 v
  else
    let st := coarseStep s c (c.n - 1) (fun _ => 0, v)
    let st := ((List.range (c.n - 1)).drop 1).foldl (upStep s c) st
    let st := ((List.range c.n).drop 1).reverse.foldl (downStep s c) st
    st.1

/-! ## The levels -/

/-- `ras_preconditioner.hpp:67-72` - `n` is the number of rows -/
noncomputable def nLevels (n : Nat) : Nat := (max ⌈Real.log ((n : ℝ) / 2048) / Real.log 10⌉ 0 + 1).toNat

/-- `ras_preconditioner.hpp:134-137` -/
noncomputable def nCoarsePoints (n levels level : Nat) : Nat :=
  let finest := Real.log n / Real.log 10
  let coarsest := Real.log 2048 / Real.log 10
  ⌊(10 : ℝ) ^ (coarsest + ((level : ℝ) - 1) * (finest - coarsest) / ((levels : ℝ) - 1))⌋₊

/-- `ras_preconditioner.hpp:94-108` - the points of the finest level; `poly` is sorted (C49), so that `std::binary_search` is membership. -/
def finestLevel (mu sigma : Nat) (poly : List Nat) : Level := ⟨poly ++ (List.range mu).filter (fun i => i ∉ poly), List.range sigma⟩

/-- `ras_preconditioner.hpp:126-150` - the levels 0, …, `level` with their domains, from the points of `level` down; `asked k` points are asked for when
the level `k - 1` is chosen.  `none`: the given number of iterations is not enough. -/
def buildLevels (env : Env) (q : Queue) (drain : List Cluster → List Cluster) (fuel : Nat) (asked : Nat → Int) (poly : List Nat) :
    Nat → Level → Option (Outcome (List (Level × List Domain)))
  | 0, lv => some (.ok [(lv, [])])
  | level + 1, lv =>
    match domains env fuel lv.pts lv.grads poly with
    | none => none
    | some (.throws e) => some (.throws e)
    | some .ub => some .ub
    | some (.ok ds) =>
      match chooseCoarsePoints env q drain fuel lv.pts lv.grads poly (asked (level + 1)) with
      | none => none
      | some (.throws e) => some (.throws e)
      | some .ub => some .ub
      | some (.ok (p, g)) =>
        (buildLevels env q drain fuel asked poly level ⟨p, g⟩).map fun o => o >>= fun ls => .ok (ls ++ [(lv, ds)])

/-- `ras_preconditioner.hpp:55-162` - all levels, coarsest first -/
noncomputable def build (env : Env) (q : Queue) (drain : List Cluster → List Cluster) (fuel mu sigma : Nat) (poly : List Nat) :
    Option (Outcome (List (Level × List Domain))) :=
  let n := mu + env.dim * sigma
  buildLevels env q drain fuel (fun level => (nCoarsePoints n (nLevels n) level : Nat)) poly (nLevels n - 1) (finestLevel mu sigma poly)

/-! ## The coarse grid -/

open Matrix in
/-- `coarse_grid.hpp:108-130` - `values` at the points of the coarse grid to `lambda_c_`; `a` is the matrix of the grid (`coarse_grid.hpp:45-47`), `lag` the rows
of the Lagrange matrix below the first `l` (`:49-60`), `ldlt` and `lu` the solutions with the factorisations.  Without polynomials, or without points beyond the
polynomial ones, the sums are empty. -/
def coarseSolve (l r : Nat) (a : Matrix (Fin l ⊕ Fin r) (Fin l ⊕ Fin r) ℝ) (lag : Matrix (Fin r) (Fin l) ℝ) (ldlt : (Fin r → ℝ) → Fin r → ℝ)
    (lu : (Fin l → ℝ) → Fin l → ℝ) (values : List ℝ) : List ℝ :=
  let d : Fin l ⊕ Fin r → ℝ := Sum.elim (fun i => values.getD i 0) (fun i => values.getD (l + i) 0)
  let gamma := ldlt (qtd (qTop lag) d)
  let lambda := lambdaOf (qTop lag) gamma
  List.ofFn (fun i => lambda (Sum.inl i)) ++ List.ofFn (fun i => lambda (Sum.inr i)) ++ List.ofFn (lu (polyRhs a d lambda))

end Verif.Ras
