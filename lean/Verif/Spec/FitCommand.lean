import Verif.Model.FitCommand
import Verif.Spec.Interpolant
import Verif.Spec.Cli
import Verif.Props.Io

/-!
# What is assumed about the library, and the data in the files
-/

namespace Verif.FitCommand

open Verif Verif.Table Verif.Cli Verif.RbfModel Verif.Io
open Verif.Interpolant (Pt State Env Res Init Op Snap basisSize)

/-- The library: memory for `N` elements; bounding boxes have the right shape; the fitters keep their contracts (they do not crash, the numbers of weights they return
fit, indices are in range and different). -/
structure LibOk (L : Lib) (N : Nat) : Prop where
  small : N < 2 ^ 64
  memory : ∀ n ≤ N, L.alloc n = true
  dim : ∀ d, (L.env d).dim = d
  points : ∀ d ps, ((L.env d).fromPoints ps).min.Fits (some 1) (some d) ∧ ((L.env d).fromPoints ps).max.Fits (some 1) (some d)
  hull : ∀ d a b, ((L.env d).hull a b).min.Fits (some 1) (some d) ∧ ((L.env d).hull a b).max.Fits (some 1) (some d)
  exact : ∀ d m tol gtol n acc gacc ps gs v w0, L.exact d m tol gtol n acc gacc ps gs v w0 ≠ .ub ∧
    ∀ w, L.exact d m tol gtol n acc gacc ps gs v w0 = .ok w → w.length = ps.length + d * gs.length + basisSize d m.polyDegree
  incremental : ∀ d m tol gtol n acc gacc ps gs v, L.incremental d m tol gtol n acc gacc ps gs v ≠ .ub ∧
    ∀ ci gi w, L.incremental d m tol gtol n acc gacc ps gs v = .ok (ci, gi, w) → (∀ i ∈ ci, i < ps.length) ∧ (∀ i ∈ gi, i < gs.length) ∧ ci.Nodup ∧ gi.Nodup ∧
      w.length = ci.length + d * gi.length + basisSize d m.polyDegree
  inequality : ∀ d m tol n acc ps v lb ub w0, L.inequality d m tol n acc ps v lb ub w0 ≠ .ub ∧
    ∀ ci w, L.inequality d m tol n acc ps v lb ub w0 = .ok (ci, w) → (∀ i ∈ ci, i < ps.length) ∧ ci.Nodup ∧ w.length = ci.length + basisSize d m.polyDegree

/-- The file with the gradients, if there is one, holds these points and these vectors. -/
def GradData (L : Lib) (o : Options) (dim : Nat) (points vectors : List Pt) : Prop :=
  o.gradIn = none ∧ points = [] ∧ vectors = [] ∨
    ∃ file rows n, o.gradIn = some file ∧ Holds L.num file rows n ∧ 2 * dim ≤ n ∧ points = rows.map (pointOf dim) ∧ vectors = rows.map fun r => (r.drop dim).take dim

/-- The interpolant given by `--initial`, if there is one. -/
def InitialData (L : Lib) (o : Options) (dim : Nat) (init : Init BboxS) : Prop :=
  o.initial = none ∧ init = .null ∨ ∃ bytes s, o.initial = some bytes ∧ loadInterpolant L dim bytes = .ok s ∧ s.Good dim ∧ init = .other s

/-- The number of a row in column `c`. -/
def cell (c : Nat) (row : List Dbl) : Dbl := row.getD c 0

/-- The interpolant in a file. -/
def Contains (L : Lib) (dim : Nat) (file : List Byte) (m : Mdl) (f : Interpolant.Fit BboxS) : Prop :=
  loadInterpolant L dim file = .ok ⟨m, true, f.centers, f.gradCenters, f.bbox, f.weights, none⟩

/-- There is memory for the interpolant. -/
def RoomFor (N dim : Nat) (points grads : Nat) : Prop := 9 ≤ N ∧ points * dim + grads * dim + points + 10 ≤ N

end Verif.FitCommand
