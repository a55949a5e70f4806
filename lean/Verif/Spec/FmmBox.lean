import Verif.Model.FmmBox

/-!
# What the cube of a tree must satisfy
-/

namespace Verif.FmmBox

open Verif Verif.Bbox

variable {d : Nat}

/-- The point `q` is strictly inside of the cube, which is finite and has a positive width. -/
def Cube.Inside (c : Cube d) (q : Fin d → ℝ) : Prop :=
  ∃ (w : ℝ) (o : Fin d → ℝ), c.width = Dbl.fin w ∧ (∀ k, c.center k = Dbl.fin (o k)) ∧ 0 < w ∧ ∀ k, |q k - o k| < w / 2

/-- The point `q` is outside of the (finite) cube. -/
def Cube.Outside (c : Cube d) (q : Fin d → ℝ) : Prop :=
  ∃ (w : ℝ) (o : Fin d → ℝ), c.width = Dbl.fin w ∧ (∀ k, c.center k = Dbl.fin (o k)) ∧ ∃ k, w / 2 < |q k - o k|

end Verif.FmmBox
