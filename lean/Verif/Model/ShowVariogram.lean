import Verif.Model.Variogram
import Verif.Model.Description
import Mathlib.Analysis.SpecialFunctions.Trigonometric.Inverse
import Mathlib.Analysis.SpecialFunctions.Log.Base
import Mathlib.Data.EReal.Basic

/-!
# cli/show_variogram_command.cpp, cli/fit_model_to_variogram_command.cpp

Doubles are real numbers; a cost may also be infinite or NaN.
-/

namespace Verif.ShowVariogram

open Verif Variogram
open Verif.Description (deg atan2)

variable {d : Nat}

/-- `dir(k)` - Eigen only asserts that the component exists. -/
def component (dir : Vec d) (k : Nat) : Outcome ℝ := if h : k < d then .ok (dir ⟨k, h⟩) else .ub

open Classical in
/-- `show_variogram_command.cpp:49-52` - azimuth and elevation -/
noncomputable def up (az elev : ℝ) : ℝ × ℝ := if elev < 0 then (az + 180, -elev) else (az, elev)

open Classical in
/-- `show_variogram_command.cpp:53-55` -/
noncomputable def turn (az : ℝ) : ℝ := if az < 0 then az + 360 else az

/-- `show_variogram_command.cpp:47-55` - the azimuth and the elevation of a variogram -/
noncomputable def angles (dir : Vec d) : Outcome (ℝ × ℝ) := do
  let z ← component dir 2
  let x ← component dir 0
  let y ← component dir 1
  Outcome.ok (turn (up (atan2 x y / deg) (Real.arcsin z / deg)).1, (up (atan2 x y / deg) (Real.arcsin z / deg)).2)

/-- a line of the overview -/
structure Line where
  id : Nat
  azimuth : ℝ
  elevation : ℝ
  numPairs : Nat

/-- `show_variogram_command.cpp:43-59` - the loop, from number `i` on -/
noncomputable def overview (i : Nat) : List (Vario d) → Outcome (List Line)
  | [] => .ok []
  | v :: vs => do
      let a ← angles v.direction
      let ls ← overview (i + 1) vs
      Outcome.ok (⟨i, a.1, a.2, v.binNumPairs.sum⟩ :: ls)

open Classical in
/-- `show_variogram_command.cpp:19-25` -/
noncomputable def formatPrecision (x : ℝ) : Nat := if x = 0 then 0 else (5 - ⌊Real.logb 10 |x|⌋).toNat

/-- `*std::max_element` - of an empty range this is undefined. -/
noncomputable def maxElement : List ℝ → Outcome ℝ
  | [] => .ub
  | x :: xs => .ok (xs.foldl max x)

/-- a line of the listing of one variogram -/
structure Bin where
  distance : ℝ
  gamma : ℝ
  numPairs : Nat

/-- `show_variogram_command.cpp:68-72` - `print k x` is the number with `k` decimals. -/
noncomputable def bins (print : Nat → ℝ → ℝ) (dp gp : Nat) : List ℝ → List ℝ → List Nat → Outcome (List Bin)
  | [], _, _ => .ok []
  | x :: xs, g :: gs, n :: ns => do
      let ls ← bins print dp gp xs gs ns
      Outcome.ok (⟨print dp x, print gp g, n⟩ :: ls)
  | _ :: _, _, _ => .throws .outOfRange

/-- `show_variogram_command.cpp:61-72` - the listing of the variogram `id`; `at` throws for other ids. -/
noncomputable def listing (print : Nat → ℝ → ℝ) (set : List (Vario d)) (id : Int) : Outcome (List Bin) :=
  if id < 0 then .throws .outOfRange
  else
    match set[id.toNat]? with
    | none => .throws .outOfRange
    | some v => do
        let dmax ← maxElement v.binDistance
        let gmax ← maxElement v.binGamma
        bins print (formatPrecision dmax) (formatPrecision gmax) v.binDistance v.binGamma v.binNumPairs

/-! ## fit-model-to-variogram -/

open Classical in
/-- `fit_model_to_variogram_command.cpp:49` - comparison with a NaN is false. -/
noncomputable def less (a b : Option EReal) : Bool :=
  match a, b with
  | some a, some b => decide (a < b)
  | _, _ => false

/-- `fit_model_to_variogram_command.cpp:45-53` - the loop over the trials: the models and costs of the fits, the best model and its cost so far -/
noncomputable def bestOf {M : Type} : List (M × Option EReal) → M → Option EReal → M × Option EReal
  | [], best, cost => (best, cost)
  | t :: ts, best, cost => if less t.2 cost then bestOf ts t.1 t.2 else bestOf ts best cost

/-- `fit_model_to_variogram_command.cpp:34-60` - what is printed and saved -/
noncomputable def fitModel {M : Type} (model : M) (trials : List (M × Option EReal)) : M := (bestOf trials model (some ⊤)).1

end Verif.ShowVariogram
