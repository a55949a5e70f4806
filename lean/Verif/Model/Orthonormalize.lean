import Mathlib.Analysis.InnerProductSpace.Basic

/-!
# common/orthonormalize.hpp

A matrix is its sequence of columns `m 0, …, m (n-1)`, vectors of a real inner product space; entries beyond the `n`-th are
not part of the matrix.  Doubles are real numbers.  Dividing a column by a norm of zero gives NaN entries, which then spread
to every later column: that outcome is `none`.
-/

namespace Verif.Orth

open scoped InnerProductSpace

variable {E : Type*} [NormedAddCommGroup E] [InnerProductSpace ℝ E]

/-- `orthonormalize.hpp:14-16` - the loop over `j`, from `i + 1` to `n - 1`, updating the columns in place. -/
noncomputable def sweep (n i : Nat) (m : Nat → E) : Nat → E :=
  (List.range' (i + 1) (n - (i + 1))).foldl
    (fun m j => Function.update m j (m j - ⟪m i, m j⟫_ℝ • m i)) m

open Classical in
/-- `orthonormalize.hpp:13-16` - one iteration of the outer loop. -/
noncomputable def step (n : Nat) (m : Nat → E) (i : Nat) : Option (Nat → E) :=
  if ‖m i‖ = 0 then none
  else some (sweep n i (Function.update m i (‖m i‖⁻¹ • m i)))

/-- `orthonormalize.hpp:9-18` -/
noncomputable def orthonormalizeCols (n : Nat) (m : Nat → E) : Option (Nat → E) :=
  (List.range n).foldlM (step n) m

end Verif.Orth
