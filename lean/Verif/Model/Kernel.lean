import Verif.Model.Outcome
import Mathlib.Data.Matrix.Mul
import Mathlib.Analysis.SpecialFunctions.Log.Basic
import Mathlib.Analysis.SpecialFunctions.Sqrt

/-!
# include/polatory/rbf/*.hpp

Doubles are real numbers; a division by zero that makes a coefficient infinite or NaN is recorded as `nan` (all uses multiply it by
a zero vector or add it, so the result is NaN).  All kernels depend on the displacement through its squared norm: the values are
functions of it, gradients are a coefficient times the displacement, and Hessians are `coeff * (I + h * diff^T diff)`, kept as the
pair of `coeff` and `coeff * h`.
-/

namespace Verif.Kernel

open Verif

/-- A coefficient: a number, or not finite. -/
inductive Coef where
  | num (c : ℝ)
  | nan

/-- A Hessian: a pair of numbers `(c, w)` for `c * I + w * diff^T diff`, not finite, or not implemented (throws). -/
inductive Hess where
  | num (c w : ℝ)
  | nan
  | throws

/-- `covariance_function_base.hpp`, the three versions of a spheroidal function. -/
inductive Part where
  | full | direct | fast
  deriving DecidableEq

/-- The constants of a spheroidal function (`cov_spheroidal3.hpp:27-32` and the like). -/
structure Spheroid where
  /-- the exponent is `2 * m + 1` halves -/
  m : Nat
  rho0 : ℝ
  a : ℝ
  b : ℝ
  c : ℝ
  d : ℝ
  e : ℝ

/-- `cov_spheroidal3.hpp:27-32` -/
noncomputable def sp3 : Spheroid := ⟨1, 0.18657871684006438, 2.009875543958482, 0.8734640537108553, 7.181510581693163,
  18.81837403335934, 0.1392464703107397⟩

/-- `cov_spheroidal5.hpp:27-32` -/
noncomputable def sp5 : Spheroid := ⟨2, 0.2580127411803573, 1.6149073288415876, 0.8575980168032007, 2.5036086535164204,
  10.735449080535068, 0.39942344766841226⟩

/-- `cov_spheroidal7.hpp:27-32` -/
noncomputable def sp7 : Spheroid := ⟨3, 0.2944149476843637, 1.4859979204216045, 0.8494862533016855, 1.44208314742683,
  8.57520866899984, 0.6934412913598931⟩

/-- `cov_spheroidal9.hpp:27-30` - the constants `c` and `e` are one and left out in the code. -/
noncomputable def sp9 : Spheroid := ⟨4, 0.31622776601683794, 1.4230249470757708, 0.8445585690332554, 1, 7.601027121299299, 1⟩

/-- The kernels.  `cauchy m a` has exponent `2 * m + 1` halves; `even k` is the polyharmonic function of degree `k + 2`, `odd k`
that of degree `2 * k + 1`. -/
inductive Kern where
  | exponential
  | gaussian
  | spherical
  | cubic
  | cauchy (m : Nat) (a : ℝ)
  | spheroidal (s : Spheroid) (part : Part)
  | even (k : Nat)
  | odd (k : Nat)

/-- `cov_generalized_cauchy3.hpp:24`, `5.hpp:24`, `7.hpp:24`; `9.hpp` has the constant one, left out in the code. -/
noncomputable def cauchies : List Kern :=
  [.cauchy 1 7, .cauchy 2 2.4822022531844965, .cauchy 3 1.438027308408951, .cauchy 4 1]

/-- `rbf_base.hpp:126-146` - `sqrt_pow<2 m + 1>` -/
noncomputable def sqrtPow (m : Nat) (x : ℝ) : ℝ := x ^ m * Real.sqrt x

/-- `polyharmonic_even.hpp:22` for `K = k + 2`: `(K / 2 + 1) % 2 == 0 ? 1 : -1` -/
def evenSign (k : Nat) : ℝ := if ((k + 2) / 2 + 1) % 2 = 0 then 1 else -1

/-- `polyharmonic_odd.hpp:21` for `K = 2 k + 1`: `((K + 1) / 2) % 2 == 0 ? 1 : -1` -/
def oddSign (k : Nat) : ℝ := if ((2 * k + 1 + 1) / 2) % 2 = 0 then 1 else -1

/-- The linear part of a spheroidal function (`cov_spheroidal3.hpp:50`). -/
noncomputable def Spheroid.lin (q : Spheroid) (psill rho : ℝ) : ℝ := psill * (1 - q.a * rho)

/-- The inverse multiquadric part of a spheroidal function (`cov_spheroidal3.hpp:51`). -/
noncomputable def Spheroid.imq (q : Spheroid) (psill rho : ℝ) : ℝ := psill * q.b / sqrtPow q.m (1 + q.c * rho * rho)

/-- Gradient coefficient of the inverse multiquadric part (`cov_spheroidal3.hpp:72-75`). -/
noncomputable def Spheroid.imqGrad (q : Spheroid) (psill range rho : ℝ) : ℝ :=
  -psill * q.d / (sqrtPow (q.m + 1) (1 + q.c * rho * rho) * range * range)

/-- Gradient coefficient of the linear part (`cov_spheroidal3.hpp:68-71`). -/
noncomputable def Spheroid.linGrad (q : Spheroid) (psill range r : ℝ) : ℝ := -psill * q.a / (r * range)

/-- Second coefficient of the Hessian of the inverse multiquadric part (`cov_spheroidal3.hpp:96-100`). -/
noncomputable def Spheroid.imqHess (q : Spheroid) (range r : ℝ) : ℝ := -((2 * q.m + 3) / (r * r + q.e * range * range))

open Classical in
/-- `evaluate_isotropic` of each kernel, as a function of `diff.squaredNorm()`; `p` and `q` are the parameters (`psill` and `range`,
or `scale` and `c`).  `cov_exponential.hpp:35-42`, `cov_gaussian.hpp:35-42`, `cov_spherical.hpp:36-43`, `cov_cubic.hpp:36-45`,
`cov_generalized_cauchy3.hpp:35-42`, `cov_spheroidal3.hpp:44-60`, `polyharmonic_even.hpp:34-45`, `polyharmonic_odd.hpp:33-40`. -/
noncomputable def value (k : Kern) (p q s : ℝ) : ℝ :=
  let r := Real.sqrt s
  let rho := r / q
  match k with
  | .exponential => p * Real.exp (-3 * rho)
  | .gaussian => p * Real.exp (-3 * rho * rho)
  | .spherical => if r < q then p * (1 + rho * (-1.5 + 0.5 * rho * rho)) else 0
  | .cubic =>
      let rho2 := rho * rho
      if r < q then p * (1 + rho2 * (-7 + rho * (8.75 + rho2 * (-3.5 + 0.75 * rho2)))) else 0
  | .cauchy m a => p / sqrtPow m (1 + a * rho * rho)
  | .spheroidal o .direct => if rho < o.rho0 then o.lin p rho - o.imq p rho else 0
  | .spheroidal o .fast => o.imq p rho
  | .spheroidal o .full => if rho < o.rho0 then o.lin p rho else o.imq p rho
  | .even k =>
      let rho := Real.sqrt (s + q * q)
      if rho = 0 then 0 else evenSign k * p * rho ^ (k + 2) * Real.log rho
  | .odd k => oddSign k * p * Real.sqrt (s + q * q) ^ (2 * k + 1)

open Classical in
/-- The coefficient of `evaluate_gradient_isotropic`, as a function of `diff.squaredNorm()`.  `cov_exponential.hpp:44-52`,
`cov_gaussian.hpp:44-52`, `cov_spherical.hpp:45-53`, `cov_cubic.hpp:47-58`, `cov_generalized_cauchy3.hpp:44-52`,
`cov_spheroidal3.hpp:62-85`, `polyharmonic_even.hpp:47-59`, `polyharmonic_odd.hpp:42-54`. -/
noncomputable def grad (k : Kern) (p q s : ℝ) : Coef :=
  let r := Real.sqrt s
  let rho := r / q
  match k with
  | .exponential => if r = 0 then .nan else .num (-3 * p * Real.exp (-3 * rho) / (q * r))
  | .gaussian => .num (-6 * p * Real.exp (-3 * rho * rho) / (q * q))
  | .spherical =>
      if r < q then (if r = 0 then .nan else .num (p * (-1.5 / rho + 1.5 * rho) / (q * q))) else .num 0
  | .cubic =>
      let rho2 := rho * rho
      if r < q then .num (p * (-14 + rho * (26.25 + rho2 * (-17.5 + 5.25 * rho2))) / (q * q)) else .num 0
  | .cauchy m a => .num (-a * (2 * m + 1) * p / (sqrtPow (m + 1) (1 + a * rho * rho) * q * q))
  | .spheroidal o .direct =>
      if rho < o.rho0 then (if r = 0 then .nan else .num (o.linGrad p q r - o.imqGrad p q rho)) else .num 0
  | .spheroidal o .fast => .num (o.imqGrad p q rho)
  | .spheroidal o .full =>
      if rho < o.rho0 then (if r = 0 then .nan else .num (o.linGrad p q r)) else .num (o.imqGrad p q rho)
  | .even k =>
      let rho := Real.sqrt (s + q * q)
      if rho = 0 then .num 0 else .num (evenSign k * p * rho ^ k * (1 + ((k + 2 : ℕ) : ℝ) * Real.log rho))
  | .odd k =>
      let rho := Real.sqrt (s + q * q)
      if rho = 0 then .num 0 else .num (oddSign k * ((2 * k + 1 : ℕ) : ℝ) * p * rho ^ ((2 * k + 1 : ℤ) - 2))

open Classical in
/-- `evaluate_hessian_isotropic`, as a function of `diff.squaredNorm()`.  `cov_exponential.hpp:54-63`, `cov_gaussian.hpp:54-62`,
`cov_spherical.hpp:55-57`, `cov_cubic.hpp:60-62`, `cov_generalized_cauchy3.hpp:54-63`, `cov_spheroidal3.hpp:87-111`,
`polyharmonic_even.hpp:61-74`, `polyharmonic_odd.hpp:56-68`.  For the direct part the code subtracts two matrices. -/
noncomputable def hess (k : Kern) (p q s : ℝ) : Hess :=
  let r := Real.sqrt s
  let rho := r / q
  match k with
  | .exponential =>
      let coeff := -3 * p * Real.exp (-3 * rho) / (q * r)
      if r = 0 then .nan else .num coeff (coeff * -(1 / (r * r) + 3 / (q * r)))
  | .gaussian =>
      let coeff := -6 * p * Real.exp (-3 * rho * rho) / (q * q)
      .num coeff (coeff * -(6 / (q * q)))
  | .spherical => .throws
  | .cubic => .throws
  | .cauchy m a =>
      let coeff := -a * (2 * m + 1) * p / (sqrtPow (m + 1) (1 + a * rho * rho) * q * q)
      .num coeff (coeff * -(a * (2 * m + 3) / (a * r * r + q * q)))
  | .spheroidal o .fast => .num (o.imqGrad p q rho) (o.imqGrad p q rho * o.imqHess q r)
  | .spheroidal o .full =>
      if rho < o.rho0 then (if r = 0 then .nan else .num (o.linGrad p q r) (o.linGrad p q r * -(1 / (r * r))))
      else .num (o.imqGrad p q rho) (o.imqGrad p q rho * o.imqHess q r)
  | .spheroidal o .direct =>
      if rho < o.rho0 then
        (if r = 0 then .nan
        else .num (o.linGrad p q r - o.imqGrad p q rho)
          (o.linGrad p q r * -(1 / (r * r)) - o.imqGrad p q rho * o.imqHess q r))
      else .num 0 0
  | .even k =>
      let rho2 := s + q * q
      let rho := Real.sqrt rho2
      let coeff := evenSign k * p * rho ^ k * (1 + ((k + 2 : ℕ) : ℝ) * Real.log rho)
      if rho = 0 then .num 0 0
      else if 1 + ((k + 2 : ℕ) : ℝ) * Real.log rho = 0 then .nan
      else .num coeff
        (coeff * ((((k + 2 : ℕ) : ℝ) - 2 + ((k + 2 : ℕ) : ℝ) / (1 + ((k + 2 : ℕ) : ℝ) * Real.log rho)) / rho2))
  | .odd k =>
      let rho2 := s + q * q
      let rho := Real.sqrt rho2
      let coeff := oddSign k * ((2 * k + 1 : ℕ) : ℝ) * p * rho ^ ((2 * k + 1 : ℤ) - 2)
      if rho = 0 then .num 0 0 else .num coeff (coeff * ((((2 * k + 1 : ℕ) : ℝ) - 2) / rho2))

/-- `support_radius_isotropic()`: the range for the spherical and cubic functions, a part of it for the direct part of a spheroidal
function, infinite (`none`) otherwise (`rbf_base.hpp:94-96`, `cov_spherical.hpp:61`, `cov_cubic.hpp:66`,
`cov_spheroidal3.hpp:115-118`). -/
noncomputable def supportRadius (k : Kern) (q : ℝ) : Option ℝ :=
  match k with
  | .spherical => some q
  | .cubic => some q
  | .spheroidal o .direct => some (o.rho0 * q)
  | _ => none

variable {d : Nat}

/-- `diff.squaredNorm()` -/
def sq (x : Fin d → ℝ) : ℝ := ∑ j, x j * x j

/-- `rbf_base.hpp:41-44` - `evaluate`; `a` is the anisotropy. -/
noncomputable def evaluate (k : Kern) (p q : ℝ) (a : Matrix (Fin d) (Fin d) ℝ) (x : Fin d → ℝ) : ℝ := value k p q (sq (a.mulVec x))

/-- `rbf_base.hpp:46-49` - `evaluate_gradient`; `none` if not finite. -/
noncomputable def evaluateGradient (k : Kern) (p q : ℝ) (a : Matrix (Fin d) (Fin d) ℝ) (x : Fin d → ℝ) : Option (Fin d → ℝ) :=
  match grad k p q (sq (a.mulVec x)) with
  | .nan => none
  | .num c => some (Matrix.vecMul (c • a.mulVec x) a)

/-- `c * I + w * diff^T diff` -/
def hessMatrix (c w : ℝ) (x : Fin d → ℝ) : Matrix (Fin d) (Fin d) ℝ := c • 1 + w • Matrix.vecMulVec x x

/-- `rbf_base.hpp:51-54` - `evaluate_hessian`; inner `none` if not finite. -/
noncomputable def evaluateHessian (k : Kern) (p q : ℝ) (a : Matrix (Fin d) (Fin d) ℝ) (x : Fin d → ℝ) :
    Outcome (Option (Matrix (Fin d) (Fin d) ℝ)) :=
  match hess k p q (sq (a.mulVec x)) with
  | .throws => .throws .runtimeError
  | .nan => .ok none
  | .num c h => .ok (some (a.transpose * hessMatrix c h (a.mulVec x) * a))

end Verif.Kernel
