import Verif.Model.Cli
import Verif.Model.Interpolant
import Verif.Model.Io
import Verif.Model.MakeModel

/-!
# cli: create-model, fit, evaluate (with the interpolant from its file), extract-model

A command is a function from the contents of the files it reads to the contents of the file it writes.  Parsing of the command line (Boost) is left out, so are
files that cannot be opened; an option that is not given (or given as an empty file name) is `none`.
-/

namespace Verif.FitCommand

open Verif Verif.Table Verif.Cli Verif.RbfModel Verif.Io
open Verif.Interpolant (Pt State Env Res Init Op)

/-- the numbers of a table, as bit patterns of doubles -/
@[reducible] def num (toStr : Dbl → List Char) (toD : List Char → Dbl) : Num := ⟨Dbl, toStr, toD⟩

/-- The parts of the library that are parameters, each for every dimension: conversion of numbers, memory, the determinant, the three fitters, and the evaluator with
the bounding boxes. -/
structure Lib where
  toStr : Dbl → List Char
  toD : List Char → Dbl
  alloc : Nat → Bool
  detPos : List Dbl → Bool
  identity : Nat → List Dbl
  env : Nat → Env BboxS
  /-- `Fitter(model, points, grad_points).fit(values, tolerance, grad_tolerance, max_iter, accuracy, grad_accuracy, initial)` -/
  exact : Nat → Mdl → Dbl → Dbl → Int → Dbl → Dbl → List Pt → List Pt → List Dbl → Option (List Dbl) → Outcome (List Dbl)
  /-- `IncrementalFitter` -/
  incremental : Nat → Mdl → Dbl → Dbl → Int → Dbl → Dbl → List Pt → List Pt → List Dbl → Outcome (List Nat × List Nat × List Dbl)
  /-- `InequalityFitter` -/
  inequality : Nat → Mdl → Dbl → Int → Dbl → List Pt → List Dbl → List Dbl → List Dbl → Option (List Dbl) → Outcome (List Nat × List Dbl)

variable (L : Lib)

/-- its numbers -/
@[reducible] def Lib.num : Num := FitCommand.num L.toStr L.toD

/-- the format of a model file (`model.hpp:304-320`) -/
def Lib.modelFile (dim : Nat) : Codec Mdl := Io.model L.alloc L.detPos (L.identity dim) dim

/-- the format of an interpolant file (`interpolant.hpp:345-367`) -/
def Lib.interpolantFile (dim : Nat) : Codec InterpolantS := Io.interpolant L.alloc L.detPos (L.identity dim) dim

/-- a matrix with these rows, in storage order (`types.hpp:10`, row major) -/
def matrixOf (cols : Nat) (rows : List (List Dbl)) : Mx := ⟨rows.length, cols, rows.flatten⟩

/-- the rows of a matrix -/
def rowsOfMatrix (m : Mx) : List (List Dbl) := reshaped m.cols m.rows m.data

/-- `interpolant.hpp:357-366` - the fields of an interpolant that are stored -/
def stored (dim : Nat) (s : State BboxS) : InterpolantS :=
  ⟨s.model, s.fitted, matrixOf dim s.centers, matrixOf dim s.gradCenters, s.bbox, ⟨s.weights.length, 1, s.weights⟩⟩

/-- `interpolant.hpp:346-355` - an interpolant with these fields; there is no evaluator. -/
def restored (t : InterpolantS) : State BboxS := ⟨t.model, t.fitted, rowsOfMatrix t.centers, rowsOfMatrix t.gradCenters, t.bbox, t.weights.data, none⟩

/-- `Interpolant<Dim>::load` -/
def loadInterpolant (dim : Nat) (file : List Byte) : Outcome (State BboxS) := do
  let t ← load (L.interpolantFile dim) file
  Outcome.ok (restored t)

/-! ## create-model -/

/-- `create_model_command.cpp:21-25, 64-76`; the tokens are converted by `to_double` (`make_model.hpp:53, 67`). -/
def createModel (toDouble : String → Dbl) (opts : MakeModel.Options) (dim : Int) : Outcome (List Byte) :=
  onDim dim fun d => do
    let m ← MakeModel.makeModel ⟨d, toDouble, L.detPos, L.identity d⟩ opts
    Outcome.ok (save (L.modelFile d) m)

/-! ## fit -/

/-- where the model comes from: `--model`, or the model options -/
inductive ModelSource where
  | file (bytes : List Byte)
  | options (toDouble : String → Dbl) (opts : MakeModel.Options)

/-- `fit_command.cpp:72-73` -/
def ModelSource.get (d : Nat) : ModelSource → Outcome Mdl
  | .file bytes => load (L.modelFile d) bytes
  | .options toDouble opts => MakeModel.makeModel ⟨d, toDouble, L.detPos, L.identity d⟩ opts

/-- `fit_command.cpp:27-42` -/
structure Options where
  gradIn : Option (List Char)
  model : ModelSource
  initial : Option (List Byte)
  tol : Dbl
  gradTol : Dbl
  maxIter : Int
  acc : Dbl
  gradAcc : Dbl
  ineq : Bool
  reduce : Bool

/-- `fit_command.cpp:54-59` - the bounds -/
def bounds (o : Options) (table : Mat L.num) (dim : Nat) : Outcome (List Dbl × List Dbl) :=
  if o.ineq then do
    let lb ← columns L.num table (dim + 1) 1
    let ub ← columns L.num table (dim + 2) 1
    Outcome.ok (lb.flatten, ub.flatten)
  else .ok ([], [])

/-- `fit_command.cpp:61-67` - the points and the values of the gradients -/
def gradients (o : Options) (dim : Nat) : Outcome (List Pt × List Pt) :=
  match o.gradIn with
  | none => .ok ([], [])
  | some file => do
      let table ← readTable L.num delims file
      let points ← columns L.num table 0 dim
      let values ← columns L.num table dim dim
      Outcome.ok (points, values)

/-- `fit_command.cpp:75-78` -/
def initialOf (o : Options) (dim : Nat) : Outcome (Init BboxS) :=
  match o.initial with
  | none => .ok .null
  | some file => do
      let s ← loadInterpolant L dim file
      Outcome.ok (.other s)

/-- `fit_command.cpp:81-90` - the call -/
def call (o : Options) (dim : Nat) (m : Mdl) (points grads : List Pt) (values gradValues lb ub : List Dbl) (init : Init BboxS) : Op BboxS :=
  if o.ineq then .fitInequality (.given points) values lb ub o.tol o.maxIter o.acc init (L.inequality dim m o.tol o.maxIter o.acc)
  else if o.reduce then
    .fitIncrementally (.given points) (.given grads) (values ++ gradValues) o.tol o.gradTol o.maxIter o.acc o.gradAcc
      (L.incremental dim m o.tol o.gradTol o.maxIter o.acc o.gradAcc)
  else
    .fit (.given points) (.given grads) (values ++ gradValues) o.tol o.gradTol o.maxIter o.acc o.gradAcc init
      (L.exact dim m o.tol o.gradTol o.maxIter o.acc o.gradAcc)

/-- `fit_command.cpp:92` - the interpolant is saved unless the call has thrown -/
def finish (dim : Nat) (r : State BboxS × Outcome (Res BboxS)) : Outcome (List Byte) :=
  match r with
  | (s, .ok _) => .ok (save (L.interpolantFile dim) (stored dim s))
  | (_, .throws e) => .throws e
  | (_, .ub) => .ub

/-- `fit_command.cpp:44-93` -/
def fitImpl (o : Options) (file : List Char) (dim : Nat) : Outcome (List Byte) := do
  let table ← readTable L.num delims file
  let points ← columns L.num table 0 dim
  let values ← columns L.num table dim 1
  let b ← bounds L o table dim
  let g ← gradients L o dim
  let m ← o.model.get L dim
  let init ← initialOf L o dim
  finish L dim (Interpolant.step (L.env dim) (Interpolant.new (L.env dim) m) (call L o dim m points g.1 values.flatten g.2.flatten b.1 b.2 init))

/-- `-1.0` -/
def minusOne : Dbl := 0xBFF0000000000000#64

/-- `fit_command.cpp:171-173` -/
def gradTolOf (o : Options) : Dbl := if Interpolant.feq o.gradTol minusOne then o.tol else o.gradTol

/-- `fit_command.cpp:97-187` -/
def fit (o : Options) (dim : Int) (file : List Char) : Outcome (List Byte) :=
  if o.gradIn.isSome && o.ineq then .throws .runtimeError
  else if o.initial.isSome && o.reduce then .throws .runtimeError
  else onDim dim (fitImpl L { o with gradTol := gradTolOf o } file)

/-! ## evaluate, extract-model -/

/-- `inter.evaluate(...)` as a vector -/
def vecOf (r : Outcome (Res BboxS)) : Outcome (List Dbl) :=
  match r with
  | .ok (.vec v) => .ok v
  | .ok _ => .ub
  | .throws e => .throws e
  | .ub => .ub

/-- `evaluate_command.cpp:29-50` - the interpolant is read first; the two calls of `evaluate` (`interpolant.hpp:54-67`). -/
def evaluateImpl (interpolant : List Byte) (acc gacc : Dbl) (grads : Bool) (file : List Char) (d : Nat) : Outcome (List Char) := do
  let s ← loadInterpolant L d interpolant
  Cli.evaluateImpl L.num (fun pts => vecOf (Interpolant.evaluate (L.env d) s pts [] acc inf).2)
    (fun pts => vecOf (Interpolant.evaluate (L.env d) s pts pts acc gacc).2) grads file d

/-- `evaluate_command.cpp:54-114` -/
def evaluate (interpolant : List Byte) (acc gacc : Dbl) (grads : Bool) (dim : Int) (file : List Char) : Outcome (List Char) :=
  onDim dim (evaluateImpl L interpolant acc gacc grads file)

/-- `extract_model_command.cpp:23-30, 68-80` -/
def extractModel (interpolant : List Byte) (dim : Int) : Outcome (List Byte) :=
  onDim dim fun d => do
    let s ← loadInterpolant L d interpolant
    Outcome.ok (save (L.modelFile d) s.model)

end Verif.FitCommand
