import Verif.Spec.Geometry

/-! # Apart along an axis (C55) -/

namespace Verif.Geometry

/-- A plane perpendicular to an axis runs between the two sets of points. -/
def AxisApart (A B : Set P3) : Prop :=
  (∀ x ∈ A, ∀ y ∈ B, x.1 < y.1) ∨ (∀ x ∈ A, ∀ y ∈ B, x.2.1 < y.2.1) ∨ (∀ x ∈ A, ∀ y ∈ B, x.2.2 < y.2.2) ∨
    (∀ x ∈ A, ∀ y ∈ B, y.1 < x.1) ∨ (∀ x ∈ A, ∀ y ∈ B, y.2.1 < x.2.1) ∨ ∀ x ∈ A, ∀ y ∈ B, y.2.2 < x.2.2

end Verif.Geometry
