import Verif.Model.Outcome
import Mathlib.Data.EReal.Operations
import Mathlib.Data.Matrix.Mul

/-!
# include/polatory/geometry/bbox3d.hpp

Coordinates are extended reals or NaN (`none`), with the arithmetic and comparisons of IEEE 754 except that finite results are
exact.
-/

namespace Verif.Bbox

open Verif

/-- A double without rounding: an extended real, or NaN. -/
abbrev Dbl := Option EReal

open Classical in
/-- `a + b`: infinities of opposite signs give NaN. -/
noncomputable def Dbl.add : Dbl → Dbl → Dbl
  | some a, some b => if (a = ⊤ ∧ b = ⊥) ∨ (a = ⊥ ∧ b = ⊤) then none else some (a + b)
  | _, _ => none

open Classical in
/-- `a * b`: zero times infinity gives NaN. -/
noncomputable def Dbl.mul : Dbl → Dbl → Dbl
  | some a, some b => if (a = 0 ∧ (b = ⊤ ∨ b = ⊥)) ∨ (b = 0 ∧ (a = ⊤ ∨ a = ⊥)) then none else some (a * b)
  | _, _ => none

/-- `a <= b`: false if one of them is NaN. -/
def Dbl.le : Dbl → Dbl → Prop
  | some a, some b => a ≤ b
  | _, _ => False

/-- `a < b`: false if one of them is NaN. -/
def Dbl.lt : Dbl → Dbl → Prop
  | some a, some b => a < b
  | _, _ => False

open Classical in
/-- Eigen's `min`, which is `std::min`. -/
noncomputable def Dbl.min (a b : Dbl) : Dbl := if b.lt a then b else a

open Classical in
/-- Eigen's `max`, which is `std::max`. -/
noncomputable def Dbl.max (a b : Dbl) : Dbl := if a.lt b then b else a

/-- A finite double. -/
noncomputable def Dbl.fin (r : ℝ) : Dbl := some (r : EReal)

/-- `bbox3d.hpp:67-68` - the members. -/
@[ext] structure Box (d : Nat) where
  min : Fin d → Dbl
  max : Fin d → Dbl

variable {d : Nat}

/-- `bbox3d.hpp:18-20` - the default constructor. -/
noncomputable def empty : Box d := ⟨fun _ => some ⊤, fun _ => some ⊥⟩

/-- `bbox3d.hpp:26, 65` - `min + width / 2`, for a box with finite bounds. -/
noncomputable def center (lo hi : Fin d → ℝ) : Fin d → ℝ := fun j => lo j + (hi j - lo j) / 2

/-- `bbox3d.hpp:28-30` -/
def Box.contains (b : Box d) (p : Fin d → ℝ) : Prop := (∀ j, (b.min j).le (Dbl.fin (p j))) ∧ ∀ j, (Dbl.fin (p j)).le (b.max j)

/-- `bbox3d.hpp:32-34` -/
noncomputable def Box.hull (a b : Box d) : Box d := ⟨fun j => (a.min j).min (b.min j), fun j => (a.max j).max (b.max j)⟩

/-- `bbox3d.hpp:36-46` -/
def Box.corners (b : Box d) : List (Fin d → Dbl) :=
  (List.range (2 ^ d)).map fun i j => if i.testBit j then b.max j else b.min j

/-- `bbox3d.hpp:48` -/
def Box.isEmpty (b : Box d) : Prop := ∃ j, (b.max j).lt (b.min j)

/-- `bbox3d.hpp:54-61` - `colwise().minCoeff()` and `maxCoeff()` are folds over the rows. -/
noncomputable def fromPoints : List (Fin d → Dbl) → Box d
  | [] => empty
  | p :: ps => ⟨fun j => ps.foldl (fun m q => m.min (q j)) (p j), fun j => ps.foldl (fun m q => m.max (q j)) (p j)⟩

/-- `point3d.hpp:43-46` for one row: the matrix applied to a point, the terms added from the left. -/
noncomputable def transformPoint (t : Matrix (Fin d) (Fin d) ℝ) (p : Fin d → Dbl) : Fin d → Dbl :=
  fun k => (List.finRange d).foldl (fun s j => s.add ((p j).mul (Dbl.fin (t k j)))) (Dbl.fin 0)

/-- `bbox3d.hpp:63` -/
noncomputable def Box.transform (b : Box d) (t : Matrix (Fin d) (Fin d) ℝ) : Box d :=
  fromPoints (b.corners.map (transformPoint t))

end Verif.Bbox
