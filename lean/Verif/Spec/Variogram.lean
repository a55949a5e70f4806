import Verif.Model.Variogram

/-!
# What a variogram is (C29, C30)

Everything here is stated with sums over all pairs of points; no loops, no bins being updated.
-/

namespace Verif.Variogram.Spec

open Verif BigOperators Classical

variable {dim : Nat}

/-- The pairs of positions `i < j`. -/
def pairs (n : Nat) : List (Nat × Nat) :=
  (List.range n).flatMap (fun i => (List.range' (i + 1) (n - (i + 1))).map (fun j => (i, j)))

/-- Distance and semivariance of a pair. -/
noncomputable def sample (pts : List (Vec dim)) (vals : List ℝ) (ij : Nat × Nat) : ℝ × ℝ :=
  let p := fun k => pts.getD k 0
  let v := fun k => vals.getD k 0
  (norm (p ij.2 - p ij.1), (v ij.2 - v ij.1) ^ 2 / 2)

/-- The samples whose distance is within `tol` of the `b`-th lag. -/
noncomputable def inBin (lag tol : ℝ) (b : Nat) (S : List (ℝ × ℝ)) : List (ℝ × ℝ) :=
  S.filter (fun s => decide (|s.1 - b * lag| ≤ tol))

/-- Arithmetic mean. -/
noncomputable def mean (l : List ℝ) : ℝ := l.sum / l.length

/-- The lags, below `n`, that have a sample. -/
noncomputable def bins (lag tol : ℝ) (n : Nat) (S : List (ℝ × ℝ)) : List Nat :=
  (List.range n).filter (fun b => decide (inBin lag tol b S ≠ []))

/-- The empirical variogram of a list of samples. -/
noncomputable def vario (lag tol : ℝ) (n : Nat) (u : Vec dim) (S : List (ℝ × ℝ)) : Vario dim :=
  ⟨(bins lag tol n S).map (fun b => mean ((inBin lag tol b S).map Prod.fst)),
   (bins lag tol n S).map (fun b => mean ((inBin lag tol b S).map Prod.snd)),
   (bins lag tol n S).map (fun b => (inBin lag tol b S).length), u⟩

/-- The samples of the pairs counted in direction `k`. -/
noncomputable def samples (select : Vec dim → List Nat) (pts : List (Vec dim)) (vals : List ℝ) (k : Nat) :
    List (ℝ × ℝ) :=
  ((pairs pts.length).filter (fun ij => decide (k ∈ select (pts.getD ij.2 0 - pts.getD ij.1 0)))).map (sample pts vals)

/-- The variogram set: one variogram for every direction in which some bin has a sample. -/
noncomputable def variograms (select : Vec dim → List Nat) (lag tol : ℝ) (n : Nat) (dirs : List (Vec dim))
    (pts : List (Vec dim)) (vals : List ℝ) : List (Vario dim) :=
  ((List.range dirs.length).filter (fun k => decide (bins lag tol n (samples select pts vals k) ≠ []))).map
    (fun k => vario lag tol n (dirs.getD k 0) (samples select pts vals k))

end Verif.Variogram.Spec
