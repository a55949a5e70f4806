import Verif.Model.Cli
import Verif.Model.Directions
import Verif.Model.Polynomial
import Verif.Model.Io

/-!
# cli/variogram_command.cpp

The command is a function from the contents of the table to the contents of the variogram file.  Parsing of the command line (Boost) is left out, so are files that cannot be
opened.  Numbers are real: those of the table are converted by a function and those of the variograms back by another one.
-/

namespace Verif.VariogramCommand

open Verif Verif.Table Verif.Cli Verif.Variogram Verif.Kriging
open Verif.RbfModel (Dbl)

/-- What the command relies on and the model leaves open: conversion of numbers, memory, `ldlt().solve`, `std::sort`, the inverse of the normal distribution function, `maxCoeff`. -/
structure Lib where
  toStr : Dbl → List Char
  toD : List Char → Dbl
  toReal : Dbl → ℝ
  ofReal : ℝ → Dbl
  alloc : Nat → Bool
  solve : {n : Nat} → Matrix (Fin n) (Fin n) ℝ → (Fin n → ℝ) → (Fin n → ℝ)
  sort : Nat → (Nat → Nat → Bool) → List Nat
  icdf : ℝ → ℝ
  argmax : List ℝ → Nat

/-- the numbers of a table -/
@[reducible] def Lib.num (L : Lib) : Num := ⟨Dbl, L.toStr, L.toD⟩

/-- `variogram_command.cpp:20-35` - a tolerance that is NaN is `none`; the angle is in degrees. -/
structure Options where
  detrend : Int
  normalScore : Bool
  lagDistance : ℝ
  numLags : Int
  lagTol : Option ℝ
  angleTol : Option ℝ
  aniso : Bool

/-- `variogram_calculator.cpp:8-9, 14-17, 22-69` - by dimension -/
noncomputable def kAnisotropicDirections : (dim : Nat) → List (Vec dim)
  | 1 => kAnisotropicDirections1
  | 2 => kAnisotropicDirections2
  | 3 => kAnisotropicDirections3
  | _ => []

/-- `variogram_command.cpp:125-128` -/
noncomputable def radians (x : Option ℝ) : Option ℝ :=
  open Classical in x.map fun a => if a = kAutomatic then a else a * (Real.pi / 180)

/-- `variogram_command.cpp:55-60` - the calculator -/
noncomputable def calculator (dim : Nat) (o : Options) : Outcome (Calculator dim) := do
  let c0 : Calculator dim := Calculator.new o.lagDistance o.numLags
  let _ ← (c0.setLagTolerance o.lagTol).2
  let c1 := (c0.setLagTolerance o.lagTol).1
  let _ ← (c1.setAngleTolerance (radians o.angleTol)).2
  let c2 := (c1.setAngleTolerance (radians o.angleTol)).1
  if o.aniso then do
    let _ ← (c2.setDirections (kAnisotropicDirections dim)).2
    Outcome.ok (c2.setDirections (kAnisotropicDirections dim)).1
  else Outcome.ok c2

/-- a row as a point -/
noncomputable def pointOf (L : Lib) (dim : Nat) (r : List Dbl) : Vec dim := fun k => (r.map L.toReal).getD k 0

/-- `variogram_command.cpp:46-48` -/
noncomputable def detrended (L : Lib) {dim : Nat} (o : Options) (points : List (Vec dim)) (values : List ℝ) : Outcome (List ℝ) :=
  if 0 ≤ o.detrend then do
    let r ← Poly.detrend dim L.solve points (fun i => values.getD i 0) o.detrend
    Outcome.ok (List.ofFn r)
  else .ok values

/-- `normal_score_transformation.hpp:14-19` - the default order is 30 (`normal_score_transformation.hpp:14`). -/
def nst : Nst := ⟨30, false, []⟩

/-- `variogram_command.cpp:50-53` - the transformation and the values -/
noncomputable def scored (L : Lib) (o : Options) (values : List ℝ) : Outcome (Nst × List ℝ) :=
  if o.normalScore then do
    let y ← (nst.transform L.sort L.icdf values).2
    Outcome.ok ((nst.transform L.sort L.icdf values).1, y)
  else .ok (nst, values)

/-- `variogram.hpp:28-32` -/
noncomputable def backTransformOne {dim : Nat} (t : Nst) (v : Vario dim) : Outcome (Vario dim) := do
  let g ← Outcome.traverse t.backTransformGamma v.binGamma
  Outcome.ok { v with binGamma := g }

/-- `variogram_command.cpp:63-65`, `variogram_set.hpp:28-32` -/
noncomputable def backTransformed {dim : Nat} (o : Options) (t : Nst) (vs : List (Vario dim)) : Outcome (List (Vario dim)) :=
  if o.normalScore then Outcome.traverse (backTransformOne t) vs else .ok vs

/-- a variogram as it is stored -/
noncomputable def stored (L : Lib) {dim : Nat} (v : Vario dim) : Io.VariogramS :=
  ⟨v.binDistance.map L.ofReal, v.binGamma.map L.ofReal, v.binNumPairs.map (BitVec.ofNat 64), ⟨1, dim, (List.ofFn v.direction).map L.ofReal⟩⟩

/-- `variogram_command.cpp:37-68` - `run_impl`; `schedule` is that of the threads. -/
noncomputable def runImpl (L : Lib) (o : Options) (schedule : List (List Nat)) (file : List Char) (dim : Nat) : Outcome (List Io.Byte) := do
  let table ← readTable L.num delims file
  let points ← columns L.num table 0 dim
  let values ← columns L.num table dim 1
  let vals ← detrended L o (points.map (pointOf L dim)) (values.flatten.map L.toReal)
  let tv ← scored L o vals
  let c ← calculator dim o
  let set ← c.calculate L.argmax (points.map (pointOf L dim)) tv.2 schedule
  let set ← backTransformed o tv.1 set
  Outcome.ok (Io.save (Io.variogramSet L.alloc dim) (set.map (stored L)))

/-- `variogram_command.cpp:72-143` -/
noncomputable def run (L : Lib) (o : Options) (schedule : List (List Nat)) (dim : Int) (file : List Char) : Outcome (List Io.Byte) :=
  onDim dim (runImpl L o schedule file)

end Verif.VariogramCommand
