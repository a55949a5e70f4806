import Verif.Model.Description

/-!
# What the table of a covariance model says
-/

namespace Verif.Description

open Verif Kernel

variable {d : Nat}

/-- What the eigenvalue solver promises: when it succeeds for a symmetric matrix, orthonormal eigenvectors with ascending eigenvalues. -/
def IsSolver (es : Solver d) : Prop :=
  ∀ m values vectors, m.transpose = m → es m = some (values, vectors) →
    vectors.transpose * vectors = 1 ∧ (∀ i j, i ≤ j → values i ≤ values j) ∧ m * vectors = vectors * Matrix.diagonal values

/-- The rotation about the third axis by an angle in degrees. -/
noncomputable def rz (x : ℝ) : Matrix (Fin 3) (Fin 3) ℝ :=
  !![Real.cos (x * (Real.pi / 180)), -Real.sin (x * (Real.pi / 180)), 0; Real.sin (x * (Real.pi / 180)), Real.cos (x * (Real.pi / 180)), 0; 0, 0, 1]

/-- The rotation about the first axis by an angle in degrees. -/
noncomputable def rx (x : ℝ) : Matrix (Fin 3) (Fin 3) ℝ :=
  !![1, 0, 0; 0, Real.cos (x * (Real.pi / 180)), -Real.sin (x * (Real.pi / 180)); 0, Real.sin (x * (Real.pi / 180)), Real.cos (x * (Real.pi / 180))]

/-- The rotation of the plane by an angle in degrees. -/
noncomputable def r2 (x : ℝ) : Matrix (Fin 2) (Fin 2) ℝ :=
  !![Real.cos (x * (Real.pi / 180)), -Real.sin (x * (Real.pi / 180)); Real.sin (x * (Real.pi / 180)), Real.cos (x * (Real.pi / 180))]

/-- What `canonicalEulerAngles(2, 0, 2)` promises for a rotation: it is composed of rotations about the third, the first and the third axis by these
angles (in radians). -/
def IsEuler (angles : Matrix (Fin 3) (Fin 3) ℝ → ℝ × ℝ × ℝ) : Prop :=
  ∀ r, r.transpose * r = 1 → r.det = 1 → r = rz ((angles r).1 * 180 / Real.pi) * rx ((angles r).2.1 * 180 / Real.pi) * rz ((angles r).2.2 * 180 / Real.pi)

/-- The covariance function of a type and partial sill whose ranges along the columns of `axes` are `ranges`: it has the value at range one of the distance
in which each component along an axis is divided by the range along this axis. -/
noncomputable def covariance (type : Kern) (psill : ℝ) (ranges : Fin d → ℝ) (axes : Matrix (Fin d) (Fin d) ℝ) (v : Fin d → ℝ) : ℝ :=
  value type psill 1 (∑ i, ((∑ j, axes j i * v j) / ranges i) ^ 2)

end Verif.Description
