import Verif.Model.Bbox
import Verif.Model.PrimitiveLattice
import Mathlib.Analysis.SpecialFunctions.Log.Basic

/-!
# src/fmm/utility.hpp; the boxes the evaluators are built with

ScalFMM sorts the particles into the cells of a cube (`scalfmm::component::box`), the `box_` of an evaluator.  The cube is computed from a
bounding box and the anisotropy of a covariance function; the particles are the transformed points (`fmm_evaluator.hpp:126-164`).
-/

namespace Verif.FmmBox

open Verif Verif.Bbox

variable {d : Nat}

/-- `a - b` -/
noncomputable def sub (a b : Dbl) : Dbl := a.add (b.mul (Dbl.fin (-1)))

/-- `bbox3d.hpp:65` - `width` -/
noncomputable def width (b : Box d) : Fin d → Dbl := fun j => sub (b.max j) (b.min j)

/-- `bbox3d.hpp:26` - `center` -/
noncomputable def centerOf (b : Box d) : Fin d → Dbl := fun j => (b.min j).add ((width b j).mul (Dbl.fin (1 / 2)))

/-- `maxCoeff()`: a fold over the coordinates -/
noncomputable def maxCoeff (v : Fin d → Dbl) : Dbl :=
  match List.finRange d with
  | [] => none
  | j :: js => js.foldl (fun m i => m.max (v i)) (v j)

/-- the cube of a ScalFMM tree: `box(width, center)` -/
structure Cube (d : Nat) where
  width : Dbl
  center : Fin d → Dbl

open Classical in
/-- `utility.hpp:18-33` - `a` is the anisotropy of the covariance function -/
noncomputable def makeBox (a : Matrix (Fin d) (Fin d) ℝ) (bbox : Box d) : Cube d :=
  let aBbox := bbox.transform a
  let w := (Dbl.fin 1.01).mul (maxCoeff (width aBbox))
  ⟨if w = Dbl.fin 0 then Dbl.fin 1 else w, centerOf aBbox⟩

/-- `utility.hpp:12-16` - the logarithm of zero is minus infinity, which has no conversion to `int` -/
noncomputable def treeHeight (d n : Nat) : Outcome Int :=
  if n = 0 then .ub else .ok (max 2 (PrimLattice.Prim.roundAway (Real.log n / Real.log (2 ^ d))))

/-- `fmm_evaluator.hpp:226, 236` - the height `prepare` asks for; `none`: the sums are computed directly -/
noncomputable def height (d nSrc nTrg : Nat) : Option (Outcome Int) :=
  if nSrc * nTrg < 1024 * 1024 then none else some (treeHeight d (max nSrc nTrg))

/-- `fmm_symmetric_evaluator.hpp:223, 232` -/
noncomputable def heightSymmetric (d n : Nat) : Option (Outcome Int) := if n < 1024 then none else some (treeHeight d n)

/-- `rbf_field_function_25d.hpp:28` - the first two coordinates -/
def first2 (v : Fin 3 → α) : Fin 2 → α := fun j => v ⟨j, by omega⟩

/-- `rbf_field_function_25d.hpp:27-31` - the box the two-dimensional interpolant is given -/
def project (b : Box 3) : Box 2 := ⟨first2 b.min, first2 b.max⟩

/-- `rbf_field_function_25d.hpp:21-25` - `s` are the values of the interpolant, row by row -/
noncomputable def field25 (s : (Fin 2 → ℝ) → ℝ) (ps : List (Fin 3 → ℝ)) : List ℝ := ps.map fun p => p 2 - s (first2 p)

end Verif.FmmBox
