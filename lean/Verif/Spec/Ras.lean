import Verif.Model.Ras

/-!
# What applying the preconditioner means: a multiplicative sweep over the levels in which the residual is computed afresh from all weights in
# every step
-/

namespace Verif.Ras

open Verif DomainDivider FineGrid

/-- what all weights evaluate to in row `i` -/
noncomputable def full (s : Sys) (w : Nat → ℝ) (i : Nat) : ℝ :=
  ∑ j ∈ Finset.range s.N, s.K i j * w j + ∑ t ∈ Finset.range s.l, s.P i t * w (s.N + t)

/-- the residual of all weights -/
noncomputable def residual (s : Sys) (v w : Nat → ℝ) : Nat → ℝ := fun i => v i - full s w i

/-- the weights without their part in the span of the columns of `p` -/
noncomputable def project (s : Sys) (c : Pre) (w : Nat → ℝ) : Nat → ℝ :=
  fun i => if i < s.N then w i - ∑ t ∈ Finset.range s.l, c.p i t * ∑ k ∈ Finset.range s.N, c.p k t * w k else w i

/-- one correction on a level -/
noncomputable def correct (s : Sys) (c : Pre) (v w : Nat → ℝ) (level : Nat) : Nat → ℝ :=
  let w' := w + solve s c level (residual s v w)
  if level = 0 then w' else project s c w'

/-- the order of the levels -/
def order (n : Nat) : List Nat :=
  0 :: (((List.range (n - 1)).drop 1).flatMap (fun level => [level, 0]) ++ ((List.range n).drop 1).reverse.flatMap fun level => [level, 0])

/-- the sweep -/
noncomputable def sweep (s : Sys) (c : Pre) (v : Nat → ℝ) : Nat → ℝ := (order c.n).foldl (correct s c v) (fun _ => 0)

/-- What the constructor sets up: on every level distinct points of the data set, the points of a level among those of the next one and all points
on the last one; the subgrids of a level cover its points, each inner in exactly one of them; the products of `K` with the columns of `p`. -/
structure Built (s : Sys) (c : Pre) : Prop where
  pos : 1 ≤ c.n
  pts : ∀ k < c.n, (c.lv k).pts.Nodup ∧ ∀ i ∈ (c.lv k).pts, i < s.mu
  grads : ∀ k < c.n, (c.lv k).grads.Nodup ∧ ∀ i ∈ (c.lv k).grads, i < s.sigma
  nested : ∀ k, k + 1 < c.n → (∀ i ∈ (c.lv k).pts, i ∈ (c.lv (k + 1)).pts) ∧ ∀ i ∈ (c.lv k).grads, i ∈ (c.lv (k + 1)).grads
  finest : (∀ i < s.mu, i ∈ (c.lv (c.n - 1)).pts) ∧ ∀ i < s.sigma, i ∈ (c.lv (c.n - 1)).grads
  domains : ∀ k, 1 ≤ k → k < c.n → ∀ f ∈ c.fine k, (∀ q ∈ f.1.pts, q.1 ∈ (c.lv k).pts) ∧ ∀ q ∈ f.1.grads, q.1 ∈ (c.lv k).grads
  inner : ∀ k, 1 ≤ k → k < c.n → (∀ i, ((c.fine k).map fun f => f.1.pts.count (i, true)).sum = if i ∈ (c.lv k).pts then 1 else 0) ∧
    ∀ i, ((c.fine k).map fun f => f.1.grads.count (i, true)).sum = if i ∈ (c.lv k).grads then 1 else 0
  sched : ∀ k ts, Interleaving ts (c.sched k ts)
  ap : ∀ i < s.N, ∀ t < s.l, c.ap i t = ∑ j ∈ Finset.range s.N, s.K i j * c.p j t

/-- The weights satisfy the side conditions: they are orthogonal to the polynomials. -/
def SideConditions (s : Sys) (w : Nat → ℝ) : Prop := ∀ t < s.l, ∑ i ∈ Finset.range s.N, s.P i t * w i = 0

/-- The columns of `p` are orthonormal and span the columns of `P` (C45). -/
structure Orthonormal (s : Sys) (c : Pre) : Prop where
  unit : ∀ t < s.l, ∀ u < s.l, ∑ i ∈ Finset.range s.N, c.p i t * c.p i u = if t = u then 1 else 0
  span : ∃ C : Nat → Nat → ℝ, ∀ i < s.N, ∀ t < s.l, s.P i t = ∑ u ∈ Finset.range s.l, c.p i u * C u t

/-- The coarse grid solves its system: for values `d` at the points of level 0 the weights `lam` and coefficients `co` reproduce `d`, with the nugget
on the diagonal of the value points, and satisfy the side conditions there (C26). -/
def CoarseSolves (s : Sys) (c : Pre) (nugget : ℝ) : Prop :=
  ∀ d : List ℝ, d.length = (rows s (c.lv 0)).length → ∃ lam co, c.coarse d = lam ++ co ∧ lam.length = (rows s (c.lv 0)).length ∧ co.length = s.l ∧
    (∀ k : Nat, k < (rows s (c.lv 0)).length → let row := fun k => (rows s (c.lv 0)).getD k 0
      ∑ j ∈ Finset.range (rows s (c.lv 0)).length, s.K (row k) (row j) * lam.getD j 0 + (if row k < s.mu then nugget * lam.getD k 0 else 0) +
        ∑ t ∈ Finset.range s.l, s.P (row k) t * co.getD t 0 = d.getD k 0) ∧
    ∀ t < s.l, ∑ k ∈ Finset.range (rows s (c.lv 0)).length, s.P ((rows s (c.lv 0)).getD k 0) t * lam.getD k 0 = 0

/-- the linear combination of two lists -/
def comb (a b : ℝ) (x y : List ℝ) : List ℝ := List.zipWith (fun p q => a * p + b * q) x y

/-- The solves are linear maps. -/
structure LinearSolves (s : Sys) (c : Pre) : Prop where
  length : ∀ d, (c.coarse d).length = (rows s (c.lv 0)).length + s.l
  coarse : ∀ a b x y, x.length = y.length → c.coarse (comb a b x y) = comb a b (c.coarse x) (c.coarse y)
  fine : ∀ k, ∀ f ∈ c.fine k, ∀ a b x y, x.length = y.length → ∀ i, f.2 (comb a b x y) i = a * f.2 x i + b * f.2 y i

end Verif.Ras
