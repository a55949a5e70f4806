import Verif.Spec.Pipeline

/-!
# Where generating a mesh looks at the field
-/

namespace Verif.Pipeline

open Verif Verif.Lattice
open Verif.Predicates (P3)

/-- In the box that is announced to the field function before it is evaluated, up to a thousandth of the resolution in each coordinate. -/
def Near (E : Env) (p : P3) : Prop :=
  ((E.L.extLo 2).1 - E.resolution / 1000 ≤ p.1 ∧ p.1 ≤ (E.L.extHi 2).1 + E.resolution / 1000) ∧
  ((E.L.extLo 2).2.1 - E.resolution / 1000 ≤ p.2.1 ∧ p.2.1 ≤ (E.L.extHi 2).2.1 + E.resolution / 1000) ∧
  ((E.L.extLo 2).2.2 - E.resolution / 1000 ≤ p.2.2 ∧ p.2.2 ≤ (E.L.extHi 2).2.2 + E.resolution / 1000)

/-- `F` is the field `f` with the isovalue `iso`; `bad` are the points for which the field function throws when it is asked for all points of the
lattice that are needed at a time. -/
structure IsField (E : Env) (f : P3 → ℝ) (bad : P3 → Prop) (iso : ℝ) (F : Iso.Fld ℝ) : Prop where
  val : ∀ lc, F.val lc = f (E.L.position lc) - iso
  fails : ∀ b, F.fails b = true ↔ ∃ lc ∈ b, bad (E.L.position lc)
  field : ∀ ps, E.field F ps = ps.map f
  isovalue : E.isovalue F = iso

end Verif.Pipeline
