import Verif.Model.Outcome
import Mathlib.Data.EReal.Basic
import Mathlib.Algebra.Order.Group.Unbundled.Abs

/-!
# src/fmm/fmm_accuracy_estimator.hpp, src/fmm/interpolator_configuration.hpp, src/fmm/utility.hpp

Values of the field are real numbers; an accuracy is an extended real, or `none` for NaN.  The two evaluations the estimator
compares - the direct sum and the fast method of a given order and type - are arbitrary functions of the point.
-/

namespace Verif.FmmConfig

open Verif

/-- `interpolator_configuration.hpp:8-20` -/
structure Config where
  treeHeight : Int
  order : Int
  d : Int
  deriving DecidableEq, Repr

/-- `interpolator_configuration.hpp:9` -/
def kClassic : Int := -1

/-- `numeric/error.hpp:7-11` with `P = Infinity`: the largest absolute difference; 0 for empty vectors. -/
noncomputable def absoluteErrorInf (approx exact : List ℝ) : ℝ :=
  ((approx.zip exact).map (fun p => |p.1 - p.2|)).foldl max 0

/-- `error <= accuracy`, false when the accuracy is NaN. -/
def within (error : ℝ) : Option EReal → Prop
  | none => False
  | some a => (error : EReal) ≤ a

/-- `fmm_accuracy_estimator.hpp:107-111` - the pairs `(order, d)` in the order they are tried. -/
def candidates : List (Int × Int) :=
  [8, 10, 12, 14, 16, 18, 20].flatMap (fun order =>
    if order ≥ 12 then [7, 8, 9].map (fun d => (order, d)) else [(order, kClassic)])

/-- `fmm_accuracy_estimator.hpp:84-103, 124-127` - the targets: the first 10000 of the shuffled source points; `shuffled` is the
result of `std::shuffle`. -/
def targets (shuffled : List Nat) : List Nat := shuffled.take (min shuffled.length 10000)

open Classical in
/-- `fmm_accuracy_estimator.hpp:74-121`.  `exact i` and `approx order d i` are the components of the evaluation at source
point `i`. -/
noncomputable def findBestConfiguration (exact : Nat → List ℝ) (approx : Int → Int → Nat → List ℝ) (accuracy : Option EReal)
    (shuffled : List Nat) (treeHeight : Int) : Outcome Config :=
  if accuracy = some ⊤ then .ok ⟨treeHeight, 6, kClassic⟩
  else if accuracy = some 0 then .ok ⟨treeHeight, 12, 8⟩
  else
    let t := targets shuffled
    let ex := t.flatMap exact
    match candidates.find? (fun c => within (absoluteErrorInf (t.flatMap (approx c.1 c.2)) ex) accuracy) with
    | some c => .ok ⟨treeHeight, c.1, c.2⟩
    | none => .throws .runtimeError

end Verif.FmmConfig
