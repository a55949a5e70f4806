import Verif.Model.SeedTracking
import Mathlib.Logic.Relation

/-! # What following a field from seed points is meant to do -/

namespace Verif.SeedTracking

open Verif Verif.Lattice

variable {K : Type} [Field K] [LinearOrder K]

/-- `y` is one of the 14 neighbours of `x`. -/
def Adjacent (x y : LC) : Prop := ∃ e < 14, y = neighbor x e

/-- All neighbours of the node lie in the box. -/
def Inner (inBox : LC → Bool) (x : LC) : Prop := ∀ y, Adjacent x y → inBox y = true

/-- `x` is reached from `lc` in `n` steps from neighbour to neighbour in the box. -/
def Reach (inBox : LC → Bool) (lc : LC) : Nat → LC → Prop
  | 0, x => x = lc
  | n + 1, x => inBox x = true ∧ ∃ y, Reach inBox lc n y ∧ Adjacent y x

/-- One step down the absolute value of the field, to an inner neighbour in the box. -/
def Descends (C : Ctx K) (x y : LC) : Prop := Adjacent x y ∧ C.inBox y = true ∧ Inner C.inBox y ∧ |C.val y| < |C.val x|

/-- The surface passes between `x` and a neighbour in the box. -/
def AtSurface (C : Ctx K) (x : LC) : Prop := ∃ y, Adjacent x y ∧ C.inBox y = true ∧ C.neg y ≠ C.neg x

/-- The absolute value of the field has no minimum at an inner node away from the surface. -/
def NoFalseMinimum (C : Ctx K) : Prop := ∀ x, C.inBox x = true → Inner C.inBox x → AtSurface C x ∨ ∃ y, Descends C x y

/-- One step along the surface: from an edge that it crosses to another such edge of a triangle of neighbours in the box. -/
def Across (C : Ctx K) (p q : LC × LC) : Prop := ∃ c, C.inBox c = true ∧ Adjacent p.1 c ∧ Adjacent p.2 c ∧ C.neg q.2 ≠ C.neg q.1 ∧ (q = (p.1, c) ∨ q = (p.2, c))

/-- `x` is at exactly `k` steps from `lc`. -/
def Ring (inBox : LC → Bool) (lc : LC) (k : Nat) (x : LC) : Prop := Reach inBox lc k x ∧ ∀ j < k, ¬ Reach inBox lc j x

/-- How far a seed is off its line of steepest descent after a step from `x` to `y`: the drift `c` so far, plus the part of the step that is perpendicular to `d`. -/
def drift (C : Ctx K) (c d : V3 K) (x y : LC) : V3 K :=
  let v := sub (C.pos y) (C.pos x)
  add c (sub v (smul (dot v d) d))

end Verif.SeedTracking
