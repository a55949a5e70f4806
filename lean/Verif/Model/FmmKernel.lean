import Verif.Model.Kernel
import Verif.Model.FmmEvaluator

/-!
# include/polatory/fmm/{kernel, gradient_kernel, gradient_transpose_kernel, hessian_kernel}.hpp

The four kernels evaluators are made of, for points that are already transformed by the anisotropy.  A kernel returns an array of
`kn * km` numbers, modelled as a function on indices.  Where a derivative is not finite, or is not implemented (`throws`), the
definitions `entries` below say so; `array` is then zero, and theorems about sums assume that this does not occur.
-/

namespace Verif.FmmKernel

open Verif Kernel

variable {d : Nat}

/-- A covariance function: its kind, its two parameters and its anisotropy (`rbf_base.hpp:104-106`). -/
structure Cov (d : Nat) where
  k : Kern
  p : ℝ
  q : ℝ
  a : Matrix (Fin d) (Fin d) ℝ

/-- `cov_spheroidal3.hpp:118-128` - `direct_part()` and `fast_part()`: the same parameters and anisotropy. -/
def Cov.part (c : Cov d) (o : Spheroid) (part : Part) : Cov d := ⟨.spheroidal o part, c.p, c.q, c.a⟩

/-- The four kernel classes. -/
inductive Kind where
  | value | gradient | gradientT | hessian
  deriving DecidableEq

/-- the number of inputs: `kernel.hpp:26`, `gradient_kernel.hpp:28`, `gradient_transpose_kernel.hpp:29`, `hessian_kernel.hpp:28` -/
abbrev Kind.km (d : Nat) : Kind → Nat
  | .value => 1
  | .gradient => d
  | .gradientT => 1
  | .hessian => d

/-- the number of outputs: `kernel.hpp:27`, `gradient_kernel.hpp:29`, `gradient_transpose_kernel.hpp:30`, `hessian_kernel.hpp:29` -/
abbrev Kind.kn (d : Nat) : Kind → Nat
  | .value => 1
  | .gradient => 1
  | .gradientT => d
  | .hessian => d

/-- `kernel.hpp:38-41` and the like - `mutual_coefficient()`, the same number for all entries:
`gradient_kernel.hpp:40-43`, `gradient_transpose_kernel.hpp:41-45`, `hessian_kernel.hpp:40-44`. -/
def Kind.mutual : Kind → ℝ
  | .value => 1
  | .gradient => -1
  | .gradientT => -1
  | .hessian => 1

/-- `evaluate_gradient_isotropic(diff) * anisotropy()` (`gradient_kernel.hpp:53`); `none` if not finite. -/
noncomputable def Cov.gradIso (c : Cov d) (diff : Fin d → ℝ) : Option (Fin d → ℝ) :=
  match grad c.k c.p c.q (sq diff) with
  | .nan => none
  | .num g => some (Matrix.vecMul (g • diff) c.a)

/-- `a.transpose() * evaluate_hessian_isotropic(diff) * a` (`hessian_kernel.hpp:54-55`) -/
noncomputable def Cov.hessIso (c : Cov d) (diff : Fin d → ℝ) : Outcome (Option (Matrix (Fin d) (Fin d) ℝ)) :=
  match hess c.k c.p c.q (sq diff) with
  | .throws => .throws .runtimeError
  | .nan => .ok none
  | .num g h => .ok (some (c.a.transpose * hessMatrix g h diff * c.a))

/-- What is written into the array, in the order of the loops: the index and the value.  `kernel.hpp:43-52`,
`gradient_kernel.hpp:45-61`, `gradient_transpose_kernel.hpp:47-63`, `hessian_kernel.hpp:46-65`. -/
noncomputable def entries (c : Cov d) (kind : Kind) (x y : Fin d → ℝ) : Outcome (Option (List (Nat × ℝ))) :=
  let diff : Fin d → ℝ := fun i => x i - y i
  match kind with
  | .value => .ok (some [(0, value c.k c.p c.q (sq diff))])
  | .gradient => .ok ((c.gradIso diff).map (fun g => (List.finRange d).map (fun (i : Fin d) => (i.val, -g i))))
  | .gradientT => .ok ((c.gradIso diff).map (fun g => (List.finRange d).map (fun (i : Fin d) => (i.val, g i))))
  | .hessian =>
      match c.hessIso diff with
      | .throws e => .throws e
      | .ub => .ub
      | .ok h => .ok (h.map (fun h => (List.finRange d).flatMap (fun (i : Fin d) =>
          (List.finRange d).map (fun (j : Fin d) => (d * i.val + j.val, -h i j)))))

/-- The array after some writes. -/
def write (l : List (Nat × ℝ)) (arr : Nat → ℝ) : Nat → ℝ := l.foldl (fun arr w => Function.update arr w.1 w.2) arr

/-- The array a kernel returns; zero if it does not return one of finite numbers. -/
noncomputable def array (c : Cov d) (kind : Kind) (x y : Fin d → ℝ) : Nat → ℝ :=
  match entries c kind x y with
  | .ok (some l) => write l 0
  | _ => 0

/-- `full_direct.hpp:22-26` - the entry an evaluator reads for output `i` and input `j`: `k.at(km * i + j)`. -/
noncomputable def block (c : Cov d) (kind : Kind) (x y : Fin d → ℝ) (i : Fin (kind.kn d)) (j : Fin (kind.km d)) : ℝ :=
  array c kind x y (kind.km d * i + j)

/-- One lane of the vectorised version: the entries are written at `v.at(entry).at(lane)`, an array of four lanes.
`kernel.hpp:54-69`, `gradient_kernel.hpp:63-88`, `gradient_transpose_kernel.hpp:65-90`, `hessian_kernel.hpp:67-96`. -/
noncomputable def batchLane (c : Cov d) (kind : Kind) {n : Nat} (x y : Fin d → Fin n → ℝ) (v : Nat → Nat → ℝ) (lane : Fin n) :
    Outcome (Nat → Nat → ℝ) :=
  if (lane : Nat) < 4 then
    .ok (fun entry l => if l = lane then array c kind (fun j => x j lane) (fun j => y j lane) entry else v entry l)
  else .throws .outOfRange

/-- The vectorised version for batches of `n` lanes; the result is loaded from the first `n` lanes of the array. -/
noncomputable def batch (c : Cov d) (kind : Kind) {n : Nat} (x y : Fin d → Fin n → ℝ) : Outcome (Nat → Fin n → ℝ) := do
  let v ← (List.finRange n).foldlM (batchLane c kind x y) (fun _ _ => 0)
  Outcome.ok (fun entry lane => v entry lane)

end Verif.FmmKernel
