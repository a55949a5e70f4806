import Verif.Model.Table
import Verif.Model.DistanceFilter
import Verif.Model.Kriging

/-!
# cli: the commands that turn one table into another

A command is a function from the contents of its input file to the contents of its output file.  Parsing of the command line (Boost) is left out, so are
files that cannot be opened.  Numbers are those of `Model/Table.lean`.
-/

namespace Verif.Cli

open Verif Verif.Table

/-- `table.hpp:16` - the delimiters `read_table` knows by default -/
def delims : List Char := [' ', '\t', ',']

/-- `table.hpp:63-64` - the delimiter `write_table` uses by default -/
def delim : Char := ' '

variable (N : Num)

/-- the rows of a matrix -/
def rowsOf (m : Mat N) : List (List N.D) := (List.range m.rows).map fun i => (List.range m.cols).filterMap (m.entry i)

/-- `table(kAll, Eigen::seqN(c, k))`, `table.col(c)` - Eigen only asserts that the columns exist. -/
def columns (m : Mat N) (c k : Nat) : Outcome (List (List N.D)) :=
  if c + k ≤ m.cols then .ok ((rowsOf N m).map fun r => (r.drop c).take k) else .ub

/-- `concatenate.hpp:71-78` - `concatenate_cols<MatX>(a, b)`, by rows; see C52. -/
def beside {α : Type} (a b : List (List α)) : Outcome (List (List α)) :=
  if a.length ≠ b.length then .throws .invalidArgument else .ok (List.zipWith (· ++ ·) a b)

/-- `unique_command.cpp:78-90`, `evaluate_command.cpp:101-113`, `cross_validate_command.cpp:109-121` - the switch over the dimension -/
def onDim {α : Type} (dim : Int) (run : Nat → Outcome α) : Outcome α :=
  if dim = 1 then run 1 else if dim = 2 then run 2 else if dim = 3 then run 3 else .throws .runtimeError

/-- `unique_command.cpp:26-36` - `search points` is the kd-tree on the points, `none` a NaN for `--dist`. -/
noncomputable def uniqueImpl (search : List (List N.D) → ℝ → Nat → List Nat) (dist : Option ℝ) (file : List Char) (dim : Nat) : Outcome (List Char) := do
  let table ← readTable N delims file
  let points ← columns N table 0 dim
  let _ ← ((DistanceFilter.DF.new points.length).filterAll (search points) dist).2
  let rows ← ((DistanceFilter.DF.new points.length).filterAll (search points) dist).1.apply (rowsOf N table)
  Outcome.ok (writeTable N delim rows)

/-- `unique_command.cpp:40-91` -/
noncomputable def unique (search : List (List N.D) → ℝ → Nat → List Nat) (dim : Int) (dist : Option ℝ) (file : List Char) : Outcome (List Char) :=
  onDim dim (uniqueImpl N search dist file)

/-- a vector as a column -/
def column {α : Type} (v : List α) : List (List α) := v.map fun x => [x]

/-- `v.reshaped<Eigen::RowMajor>(n, k)` -/
def reshaped {α : Type} (k : Nat) : Nat → List α → List (List α)
  | 0, _ => []
  | n + 1, v => v.take k :: reshaped k n (v.drop k)

/-- `evaluate_command.cpp:29-50` - `evalValues`, `evalBoth` are `inter.evaluate(points, accuracy)` and `inter.evaluate(points, points, accuracy, grad_accuracy)` of
the loaded interpolant. -/
def evaluateImpl (evalValues evalBoth : List (List N.D) → Outcome (List N.D)) (grads : Bool) (file : List Char) (dim : Nat) : Outcome (List Char) := do
  let table ← readTable N delims file
  let points ← columns N table 0 dim
  if grads then do
    let values ← evalBoth points
    let left ← beside points (column (values.take points.length))
    let rows ← beside left (reshaped dim points.length (values.drop (values.length - dim * points.length)))
    Outcome.ok (writeTable N delim rows)
  else do
    let values ← evalValues points
    let rows ← beside points (column values)
    Outcome.ok (writeTable N delim rows)

/-- `evaluate_command.cpp:54-114` -/
def evaluate (evalValues evalBoth : Nat → List (List N.D) → Outcome (List N.D)) (grads : Bool) (dim : Int) (file : List Char) : Outcome (List Char) :=
  onDim dim fun d => evaluateImpl N (evalValues d) (evalBoth d) grads file d

/-- What `cross_validate` needs: the conversion of a set number to an integer (`none` if it does not fit or is NaN, which is undefined), and construction, fitting
and evaluation of an interpolant. -/
structure CvEnv (F : Type) where
  toInt : N.D → Option Int
  fit : List (List N.D) → List N.D → Outcome F
  eval : F → List (List N.D) → Outcome (List N.D)
  zero : N.D
  /-- the order in which the different ids are visited -/
  order : List Int → List Int

/-- `cast<int>()` of one number -/
def castInt {F : Type} (E : CvEnv N F) (x : N.D) : Outcome Int :=
  match E.toInt x with
  | some i => .ok i
  | none => .ub

/-- `cross_validate_command.cpp:38-55` -/
def crossValidateImpl {F : Type} (E : CvEnv N F) (file : List Char) (dim : Nat) : Outcome (List Char) := do
  let table ← readTable N delims file
  let points ← columns N table 0 dim
  let values ← columns N table dim 1
  let idCol ← columns N table (dim + 1) 1
  let ids ← Outcome.traverse (castInt N E) idCol.flatten
  let predictions ← Kriging.crossValidate E.fit E.eval E.zero points values.flatten ids (E.order ids)
  let rows ← beside (rowsOf N table) (column predictions)
  Outcome.ok (writeTable N delim rows)

/-- `cross_validate_command.cpp:59-122` -/
def crossValidate {F : Type} (E : Nat → CvEnv N F) (dim : Int) (file : List Char) : Outcome (List Char) :=
  onDim dim fun d => crossValidateImpl N (E d) file d

end Verif.Cli
