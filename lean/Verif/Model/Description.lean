import Verif.Model.VariogramFitting
import Mathlib.Analysis.SpecialFunctions.Complex.Arg

/-!
# include/polatory/geometry/anisotropy.hpp, include/polatory/model.hpp:185-298: the description of a covariance model

A description is modelled as the numbers of its table; how they are formatted (four decimals) is not modelled.
-/

namespace Verif.Description

open Verif Kernel FmmKernel
open Verif.VariogramFitting (Mdl)

variable {d : Nat}

/-- Eigen's `SelfAdjointEigenSolver`: the eigenvalues and a matrix with the eigenvectors as columns, if it succeeds. -/
abbrev Solver (d : Nat) := Matrix (Fin d) (Fin d) ℝ → Option ((Fin d → ℝ) × Matrix (Fin d) (Fin d) ℝ)

open Classical in
/-- `anisotropy.hpp:22-24` - `rot.col(0) *= -1.0` -/
noncomputable def proper (v : Matrix (Fin d) (Fin d) ℝ) : Matrix (Fin d) (Fin d) ℝ :=
  if v.det < 0 then Matrix.of fun i j => if (j : Nat) = 0 then v i j * -1 else v i j else v

/-- `anisotropy.hpp:13-27` - the rotation and the scaling -/
noncomputable def decompose (es : Solver d) (aniso : Matrix (Fin d) (Fin d) ℝ) : Outcome (Matrix (Fin d) (Fin d) ℝ × (Fin d → ℝ)) :=
  match es (aniso.transpose * aniso) with
  | none => .throws .runtimeError
  | some (values, vectors) => .ok (proper vectors, fun i => 1 / Real.sqrt (values i))

/-- `std::fmod` -/
noncomputable def fmod (x y : ℝ) : ℝ := x - (if 0 ≤ x / y then ⌊x / y⌋ else ⌈x / y⌉ : ℤ) * y

/-- `model.hpp:248` -/
noncomputable def deg : ℝ := Real.pi / 180

/-- `model.hpp:236-239, 284-287, 288-291` - into the range from zero to `y` -/
noncomputable def wrap (y x : ℝ) : ℝ :=
  let x := fmod x y
  if x < 0 then x + y else x

/-- a row of the table: type, partial sill, ranges along the axes, angles -/
structure Row (d : Nat) where
  type : Kern
  psill : ℝ
  ranges : Fin d → ℝ
  angles : List ℝ

/-- `model.hpp:197-203` -/
noncomputable def row1 (es : Solver 1) (c : Cov 1) : Outcome (Row 1) := do
  let (_, scale) ← decompose es c.a
  Outcome.ok ⟨c.k, c.p, fun i => scale i * c.q, []⟩

/-- `model.hpp:234` - `std::atan2` -/
noncomputable def atan2 (y x : ℝ) : ℝ := Complex.arg ⟨x, y⟩

/-- `model.hpp:226-237` -/
noncomputable def row2 (es : Solver 2) (c : Cov 2) : Outcome (Row 2) := do
  let (rotation, scale) ← decompose es c.a
  let rot := wrap 180 (-atan2 (rotation 1 0) (rotation 0 0) / deg)
  Outcome.ok ⟨c.k, c.p, fun i => scale i * c.q, [rot]⟩

/-- `model.hpp:269-273` - the angles `az`, `dip` and `rot` -/
noncomputable def turn1 (a : ℝ × ℝ × ℝ) : ℝ × ℝ × ℝ := if a.2.1 < 0 then (a.1 + 180, -a.2.1, a.2.2) else a

/-- `model.hpp:274-277` -/
noncomputable def turn2 (a : ℝ × ℝ × ℝ) : ℝ × ℝ × ℝ := if a.2.1 > 180 then (a.1 + 180, 360 - a.2.1, a.2.2) else a

/-- `model.hpp:278-282` -/
noncomputable def turn3 (a : ℝ × ℝ × ℝ) : ℝ × ℝ × ℝ := if a.2.1 > 90 then (a.1 + 180, 180 - a.2.1, -a.2.2) else a

/-- `model.hpp:265-291`, from the Euler angles -/
noncomputable def normalise (euler : ℝ × ℝ × ℝ) : ℝ × ℝ × ℝ :=
  let az := -euler.1 / deg
  let dip := -euler.2.1 / deg
  let rot := -euler.2.2 / deg
  let a := turn3 (turn2 (turn1 (az, fmod dip 360, rot)))
  (wrap 360 a.1, a.2.1, wrap 180 a.2.2)

/-- `model.hpp:255-295`; `angles` is Eigen's `canonicalEulerAngles(2, 0, 2)` -/
noncomputable def row3 (es : Solver 3) (angles : Matrix (Fin 3) (Fin 3) ℝ → ℝ × ℝ × ℝ) (c : Cov 3) : Outcome (Row 3) := do
  let (rotation, scale) ← decompose es c.a
  let a := normalise (angles rotation)
  Outcome.ok ⟨c.k, c.p, fun i => scale i * c.q, [a.1, a.2.1, a.2.2]⟩

/-- `polyharmonic_even.hpp`, `polyharmonic_odd.hpp` - `is_covariance_function` -/
def isCovarianceFunction : Kern → Bool
  | .even _ => false
  | .odd _ => false
  | _ => true

/-- `model.hpp:70-77` -/
def isCovarianceModel (m : Mdl d) : Bool := m.rbfs.all fun c => isCovarianceFunction c.k

/-- `model.hpp:186-206, 209-241, 244-298` - the nugget and the rows, one after the other -/
noncomputable def description (row : Cov d → Outcome (Row d)) (m : Mdl d) : Outcome (ℝ × List (Row d)) :=
  if !isCovarianceModel m then .throws .runtimeError
  else do
    let rows ← Outcome.traverse row m.rbfs
    Outcome.ok (m.nugget, rows)

end Verif.Description
