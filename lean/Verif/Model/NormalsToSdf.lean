import Verif.Model.SdfData

/-!
# cli/normals_to_sdf_command.cpp

The table is read and written as in `Model/Cli.lean`; here are the points and normals in between.  Doubles are real numbers, a ratio may be NaN (`none`).
-/

namespace Verif.NormalsToSdf

open Verif Verif.Normals Verif.Sdf

open Classical in
/-- `std::round` - halves away from zero -/
noncomputable def stdRound (x : ℝ) : ℤ := if 0 ≤ x then ⌊x + 1 / 2⌋ else ⌈x - 1 / 2⌉

/-- `normals_to_sdf_command.cpp:44` -/
noncomputable def toKeep (ratio : ℝ) (n : Nat) : ℤ := stdRound (ratio * n)

/-- `normals_to_sdf_command.cpp:45-49` - the shuffled indices, cut off after `n - keep`; a negative size becomes huge and throws. -/
def dropped (shuffled : List Nat) (n : Nat) (keep : ℤ) : Outcome (List Nat) :=
  if (n : ℤ) - keep < 0 then .throws .lengthError else .ok (shuffled.take ((n : ℤ) - keep).toNat)

/-- `normals_to_sdf_command.cpp:50` - `normals(indices, kAll) *= 0.0` -/
noncomputable def masked (c : Data) (indices : List Nat) : Data := { c with normal := fun i => if i ∈ indices then (0 : ℝ) • c.normal i else c.normal i }

open Classical in
/-- `normals_to_sdf_command.cpp:37-58, 104-108` - the rows that are written, points and values; `shuffled` are the indices after `std::shuffle`. -/
noncomputable def run (shuffled : List Nat) (ratio : Option ℝ) (c : Data) (offset : ℝ) (a : Matrix (Fin 3) (Fin 3) ℝ) (knn' : V3 → Nat → List Nat) (fuel : Nat) :
    Outcome (Run (List (V3 × ℝ))) :=
  match ratio with
  | none => .throws .runtimeError
  | some ratio =>
      if ¬ (ratio ≥ 0 ∧ ratio ≤ 1) then .throws .runtimeError
      else do
        let indices ← dropped shuffled c.n (toKeep ratio c.n)
        construct (masked c indices) c.n offset a knn' fuel

end Verif.NormalsToSdf
