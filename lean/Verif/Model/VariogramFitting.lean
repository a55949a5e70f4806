import Verif.Model.FmmKernel
import Mathlib.Analysis.SpecialFunctions.Pow.Real
import Mathlib.Analysis.SpecialFunctions.Trigonometric.Basic
import Mathlib.LinearAlgebra.Matrix.Determinant.Basic
import Mathlib.LinearAlgebra.Matrix.Notation
import Mathlib.Data.EReal.Basic

/-!
# kriging/variogram_fitting{,_1d,_2d,_3d}.hpp, kriging/weight_function.hpp

Doubles are real numbers, upper bounds may be infinite.  The least squares solver (Ceres) is an arbitrary function that turns the initial
parameter blocks into the final ones; it may evaluate the residuals at any parameter blocks on its way.
-/

namespace Verif.VariogramFitting

open Verif Kernel FmmKernel

variable {d : Nat}

/-- The part of `model.hpp` used here: the covariance functions and the nugget. -/
structure Mdl (d : Nat) where
  rbfs : List (Cov d)
  nugget : ℝ

/-- `model.hpp:81-87` - every function has two parameters. -/
def Mdl.numParameters (m : Mdl d) : Nat := m.rbfs.foldl (fun np _ => np + 2) 1

/-- `model.hpp:117-123` -/
def Mdl.parameters (m : Mdl d) : List ℝ := m.rbfs.foldl (fun l c => l ++ [c.p, c.q]) [m.nugget]

/-- `model.hpp:91-98`, `covariance_function_base.hpp:23-26`, `polyharmonic_even.hpp:77-80`, `polyharmonic_odd.hpp` -/
def Mdl.lowerBounds (m : Mdl d) : List ℝ := m.rbfs.foldl (fun l _ => l ++ [0, 0]) [0]

/-- `model.hpp:108-115`, `covariance_function_base.hpp:33-37` -/
noncomputable def Mdl.upperBounds (m : Mdl d) : List EReal := m.rbfs.foldl (fun l _ => l ++ [⊤, ⊤]) [⊤]

/-- `model.hpp:151-158`, the loop: two parameters for each function. -/
def setLoop : List (Cov d) → List ℝ → Outcome (List (Cov d))
  | [], _ => .ok []
  | c :: cs, p :: q :: ps => (setLoop cs ps).bind (fun cs' => .ok ({ c with p := p, q := q } :: cs'))
  | _ :: _, _ => .ub

/-- `model.hpp:135-158` -/
noncomputable def Mdl.setParameters (m : Mdl d) (params : List ℝ) : Outcome (Mdl d) :=
  if params.length ≠ m.numParameters then .throws .invalidArgument
  else match params with
    | [] => .throws .outOfRange
    | nugget :: ps =>
        if ¬ 0 ≤ nugget then .throws .invalidArgument
        else (setLoop m.rbfs ps).bind (fun cs => .ok ⟨cs, nugget⟩)

/-- `rbf_base.hpp:73-79` -/
noncomputable def setAnisotropy (a : Matrix (Fin d) (Fin d) ℝ) (c : Cov d) : Outcome (Cov d) :=
  if 0 < a.det then .ok { c with a := a } else .throws .invalidArgument

/-- `std::clamp` -/
noncomputable def clamp (x lo : ℝ) (hi : EReal) : ℝ := if x < lo then lo else if hi < (x : EReal) then hi.toReal else x

/-- `variogram_fitting.hpp:22-24`, one iteration -/
noncomputable def clampStep (lbs : List ℝ) (ubs : List EReal) (params : List ℝ) (i : Nat) : Outcome (List ℝ) :=
  match params[i]?, lbs[i]?, ubs[i]? with
  | some x, some lo, some hi => .ok (params.set i (clamp x lo hi))
  | _, _, _ => .throws .outOfRange

/-- `variogram_fitting.hpp:18-26` -/
noncomputable def clampParameters (params : List ℝ) (m : Mdl d) : Outcome (List ℝ) :=
  (List.range m.numParameters).foldlM (clampStep m.lowerBounds m.upperBounds) params

/-- `variogram.hpp` - a direction and, for every bin, its distance, semivariance and number of pairs. -/
structure Variog (d : Nat) where
  dir : Fin d → ℝ
  bins : List (ℝ × ℝ × Nat)

/-- `weight_function.hpp:17-20, 28-30` -/
structure Weight where
  expDistance : ℝ
  expModelGamma : ℝ
  expNumPairs : ℝ

/-- `weight_function.hpp:22-25` -/
noncomputable def Weight.run (w : Weight) (distance modelGamma : ℝ) (numPairs : Nat) : ℝ :=
  distance ^ (0.5 * w.expDistance) * modelGamma ^ (0.5 * w.expModelGamma) * (numPairs : ℝ) ^ (0.5 * w.expNumPairs)

/-- `weight_function.hpp:33` -/
noncomputable def kNumPairs : Weight := ⟨0, 0, 1⟩
/-- `weight_function.hpp:34` -/
noncomputable def kNumPairsOverDistanceSquared : Weight := ⟨-2, 0, 1⟩
/-- `weight_function.hpp:35` -/
noncomputable def kNumPairsOverModelGammaSquared : Weight := ⟨0, -2, 1⟩
/-- `weight_function.hpp:36` -/
noncomputable def kOne : Weight := ⟨0, 0, 0⟩
/-- `weight_function.hpp:37` -/
noncomputable def kOneOverDistanceSquared : Weight := ⟨-2, 0, 0⟩
/-- `weight_function.hpp:38` -/
noncomputable def kOneOverModelGammaSquared : Weight := ⟨0, -2, 0⟩

/-- `variogram_fitting.hpp:44-47` - the semivariance of the model. -/
noncomputable def modelGamma (m : Mdl d) (h : Fin d → ℝ) : ℝ :=
  m.rbfs.foldl (fun g c => g + (evaluate c.k c.p c.q c.a 0 - evaluate c.k c.p c.q c.a h)) m.nugget

open Classical in
/-- `variogram_fitting.hpp:28-54` - `none` if the functor returns `false`. -/
noncomputable def computeResiduals (m : Mdl d) (v : Variog d) (w : Weight) : Option (List ℝ) :=
  if ∃ c ∈ m.rbfs, c.q = 0 then none
  else some (v.bins.map (fun b =>
    let g := modelGamma m (b.1 • v.dir)
    w.run b.1 g b.2.2 * (b.2.1 - g)))

/-! ## anisotropy -/

/-- The parameter blocks besides `params_` in one of the three specialisations: the anisotropy of the i-th function made of them, the
number of variograms from which on anisotropy is fitted, the initial value (given the number of functions) and the bounds. -/
structure Scheme (d : Nat) where
  Block : Type
  aniso : Block → Nat → Outcome (Matrix (Fin d) (Fin d) ℝ)
  enough : Option Nat
  Within : Nat → Block → Prop

/-- `.at(i)` -/
def at' {α : Type} (l : List α) (i : Nat) : Outcome α :=
  match l[i]? with
  | some x => .ok x
  | none => .throws .outOfRange

/-- `variogram_fitting_1d.hpp:26-74` - no anisotropy. -/
def scheme1 : Scheme 1 where
  Block := Unit
  aniso := fun _ _ => .ub
  enough := none
  Within := fun _ _ => True

/-- `Eigen::Rotation2D::toRotationMatrix` -/
noncomputable def rot2 (t : ℝ) : Matrix (Fin 2) (Fin 2) ℝ := !![Real.cos t, -Real.sin t; Real.sin t, Real.cos t]

/-- `variogram_fitting_2d.hpp:101-102` - `inv_scale` -/
def scale2 (minor : ℝ) : Matrix (Fin 2) (Fin 2) ℝ := !![1, 0; 0, minor]

/-- `variogram_fitting_2d.hpp:50-60, 96-107, 130-146` - an angle, and the inverse minor scales with bounds `[1, 100]`. -/
noncomputable def scheme2 : Scheme 2 where
  Block := ℝ × List ℝ
  aniso := fun b i => (at' b.2 i).bind (fun s => .ok (scale2 s * rot2 b.1))
  enough := some 2
  Within := fun n b => b.2.length = n ∧ ∀ s ∈ b.2, 1 ≤ s ∧ s ≤ 100

/-- a quaternion, as `(x, y, z, w)` -/
structure Quat where
  x : ℝ
  y : ℝ
  z : ℝ
  w : ℝ

/-- `squaredNorm()` -/
def Quat.sq (q : Quat) : ℝ := q.x * q.x + q.y * q.y + q.z * q.z + q.w * q.w

open Classical in
/-- `Eigen::Quaternion::normalized` - a zero quaternion is left as it is. -/
noncomputable def Quat.normalized (q : Quat) : Quat :=
  if 0 < q.sq then ⟨q.x / Real.sqrt q.sq, q.y / Real.sqrt q.sq, q.z / Real.sqrt q.sq, q.w / Real.sqrt q.sq⟩ else q

/-- `Eigen::QuaternionBase::toRotationMatrix` -/
def Quat.rot (q : Quat) : Matrix (Fin 3) (Fin 3) ℝ :=
  !![1 - (2 * q.y * q.y + 2 * q.z * q.z), 2 * q.y * q.x - 2 * q.z * q.w, 2 * q.z * q.x + 2 * q.y * q.w;
     2 * q.y * q.x + 2 * q.z * q.w, 1 - (2 * q.x * q.x + 2 * q.z * q.z), 2 * q.z * q.y - 2 * q.x * q.w;
     2 * q.z * q.x - 2 * q.y * q.w, 2 * q.z * q.y + 2 * q.x * q.w, 1 - (2 * q.x * q.x + 2 * q.y * q.y)]

/-- `variogram_fitting_3d.hpp:108-110` - `inv_scale` -/
def scale3 (major minor : ℝ) : Matrix (Fin 3) (Fin 3) ℝ := !![major, 0, 0; 0, 1, 0; 0, 0, minor]

/-- `variogram_fitting_3d.hpp:49-65, 103-115, 138-156` - a quaternion, inverse major scales in `[0.01, 1]` and inverse minor scales in
`[1, 100]`. -/
noncomputable def scheme3 : Scheme 3 where
  Block := Quat × List ℝ × List ℝ
  aniso := fun b i => (at' b.2.1 i).bind (fun maj => (at' b.2.2 i).bind (fun min => .ok (scale3 maj min * b.1.normalized.rot)))
  enough := some 3
  Within := fun n b => b.2.1.length = n ∧ b.2.2.length = n ∧ (∀ s ∈ b.2.1, 0.01 ≤ s ∧ s ≤ 1) ∧ ∀ s ∈ b.2.2, 1 ≤ s ∧ s ≤ 100

/-- The loop over the functions that sets their anisotropies. -/
noncomputable def setAnisotropies (S : Scheme d) (b : S.Block) (rbfs : List (Cov d)) : Outcome (List (Cov d)) :=
  Outcome.traverse (fun c : Cov d × Nat => (S.aniso b c.2).bind (fun a => setAnisotropy a c.1)) rbfs.zipIdx

/-- What the functions of the template become: `variogram_fitting_2d.hpp:36-38` -/
noncomputable def template (m : Mdl d) : Outcome (Mdl d) :=
  (Outcome.traverse (setAnisotropy 1) m.rbfs).bind (fun cs => .ok { m with rbfs := cs })

/-- The object: `variogram_fitting_2d.hpp:158-164` -/
structure Fit (S : Scheme d) where
  template : Mdl d
  fitAnisotropy : Bool
  params : List ℝ
  block : S.Block

/-- Whether anisotropy is fitted: `variogram_fitting_2d.hpp:32`, `variogram_fitting_3d.hpp:31`, `variogram_fitting_1d.hpp:28` -/
def fitted (S : Scheme d) (flag : Bool) (numVariograms : Nat) : Bool :=
  match S.enough with
  | none => false
  | some k => flag && decide (k ≤ numVariograms)

/-- `variogram_fitting_2d.hpp:96-107` - the anisotropies, if they are fitted. -/
noncomputable def withAnisotropy (S : Scheme d) (fit : Bool) (b : S.Block) (m : Mdl d) : Outcome (Mdl d) :=
  if fit then (setAnisotropies S b m.rbfs).bind (fun cs => .ok { m with rbfs := cs }) else .ok m

/-- The model at which residuals are evaluated: `variogram_fitting_2d.hpp:122-146` -/
noncomputable def residualModel (S : Scheme d) (template : Mdl d) (fit : Bool) (params : List ℝ) (b : S.Block) : Outcome (Mdl d) :=
  (clampParameters params template).bind (fun clamped =>
    (template.setParameters clamped).bind (fun m => withAnisotropy S fit b m))

/-- `Residual::operator()`: `variogram_fitting_2d.hpp:121-149`, and the same in one and three dimensions -/
noncomputable def residual (S : Scheme d) (template : Mdl d) (fit : Bool) (v : Variog d) (w : Weight) (params : List ℝ) (b : S.Block) :
    Outcome (Option (List ℝ)) :=
  (residualModel S template fit params b).bind (fun m => .ok (computeResiduals m v w))

/-- The constructor: `variogram_fitting_2d.hpp:28-84`; `solve` is what Ceres makes of the initial parameters, `b0` the initial block. -/
noncomputable def construct (S : Scheme d) (m : Mdl d) (flag : Bool) (numVariograms : Nat) (b0 : S.Block)
    (solve : List ℝ → S.Block → List ℝ × S.Block) : Outcome (Fit S) :=
  (template m).bind (fun t =>
    .ok ⟨t, fitted S flag numVariograms, (solve m.parameters b0).1, (solve m.parameters b0).2⟩)

/-- `model()`: `variogram_fitting_2d.hpp:92-110` -/
noncomputable def Fit.model {S : Scheme d} (f : Fit S) : Outcome (Mdl d) :=
  (f.template.setParameters f.params).bind (fun m => withAnisotropy S f.fitAnisotropy f.block m)

end Verif.VariogramFitting
