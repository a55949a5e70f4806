import Verif.Model.Outcome
import Mathlib.Logic.Function.Basic

/-!
# python/python_binding.cpp: which objects hold which

Python names, the objects they refer to, and what the objects refer to.  Only models, interpolants and field functions are kept; parameters (`P`) stand for a whole model.  An
object that nothing refers to any more is freed at once (reference counts).  Numbers of objects are never used again, so that a pointer to a freed object can be told.
-/

namespace Verif.PythonObjects

open Verif

/-- What is not modelled: the solver, and the values of an interpolant. -/
structure Lib (P D W V : Type) where
  solve : P → D → W
  value : P → W → V

/-- `interpolant.hpp`: the model, the weights, if fitted, and how often it was fitted.  Each fit frees the memory of the weights (`interpolant.hpp:104`, `clear`) and takes new memory, so that the
last number tells which memory the weights are in. -/
structure Interp (P W : Type) where
  model : P
  weights : Option W
  fits : Nat

/-- Objects of Python.
* `model`: `Model` made by its constructor (`python_binding.cpp:82-85`)
* `modelOf`: the object for the attribute `model` of an interpolant (`python_binding.cpp:104`).  `def_property_readonly` of a member function that returns a reference has the policy
  `reference_internal`: it refers to the model inside the interpolant - not constant for Python - and keeps the interpolant.
* `weightsOf`: the array for the attribute `weights` (`python_binding.cpp:105`).  For a member function that returns a reference to a matrix, `reference_internal` makes an array that uses the memory of the
  matrix, here that of the `k`-th fit, and keeps the interpolant.
* `fieldFn`: `RbfFieldFunction` (`python_binding.cpp:243-245`, `rbf_field_function.hpp:17-19, 30`): it has a reference to the interpolant but, without `py::keep_alive`, does not keep it. -/
inductive Obj (P W : Type)
  | model (m : P)
  | interp (i : Interp P W)
  | modelOf (i : Nat)
  | weightsOf (i k : Nat)
  | fieldFn (i : Nat)

/-- the interpolant an attribute object keeps (`pybind11`'s `reference_internal`, for `python_binding.cpp:104-105`) -/
def Obj.parent {P W : Type} : Obj P W → Option Nat
  | .modelOf i => some i
  | .weightsOf i _ => some i
  | _ => none

/-- The names, the objects in memory, and the number for the next one. -/
structure State (P W : Type) where
  names : String → Option Nat
  heap : Nat → Option (Obj P W)
  next : Nat

variable {P D W V : Type}

/-- nothing -/
def State.empty : State P W := ⟨fun _ => none, fun _ => none, 0⟩

/-- Something keeps object `i`: a name, or an attribute object. -/
def Kept (s : State P W) (i : Nat) : Prop := (∃ x, s.names x = some i) ∨ ∃ j o, s.heap j = some o ∧ o.parent = some i

open Classical in
/-- free what nothing keeps -/
noncomputable def sweep (s : State P W) : State P W := { s with heap := fun i => if Kept s i then s.heap i else none }

/-- The reference counts at work: attribute objects go first, then what these kept. -/
noncomputable def collect (s : State P W) : State P W := sweep (sweep s)

/-- the object of a name -/
def obj (s : State P W) (x : String) : Outcome (Nat × Obj P W) :=
  match s.names x with
  | none => .throws .runtimeError
  | some i =>
      match s.heap i with
      | none => .ub
      | some o => .ok (i, o)

/-- the interpolant a reference refers to -/
def deref (s : State P W) (i : Nat) : Outcome (Interp P W) :=
  match s.heap i with
  | some (.interp it) => .ok it
  | _ => .ub

/-- `x = ...` for a new object -/
def bind (s : State P W) (x : String) (o : Obj P W) : State P W :=
  { names := Function.update s.names x (some s.next), heap := Function.update s.heap s.next (some o), next := s.next + 1 }

/-- an object changed -/
def put (s : State P W) (i : Nat) (o : Obj P W) : State P W := { s with heap := Function.update s.heap i (some o) }

/-- the model in an argument of type `const Model&` -/
def modelArg (s : State P W) (y : String) : Outcome P := do
  let o ← obj s y
  match o.2 with
  | .model m => .ok m
  | .modelOf i => do
      let it ← deref s i
      Outcome.ok it.model
  | _ => .throws .invalidArgument

/-- an argument of type `Interpolant&` -/
def interpArg (s : State P W) (x : String) : Outcome (Nat × Interp P W) := do
  let o ← obj s x
  match o.2 with
  | .interp it => .ok (o.1, it)
  | _ => .throws .invalidArgument

/-- Statements of Python. -/
inductive Op (P D : Type)
  | newModel (x : String) (p : P)
  | newInterp (x y : String)
  | fieldFn (f x : String)
  | model (y x : String)
  | weights (w x : String)
  | setParameters (y : String) (p : P)
  | fit (x : String) (d : D)
  | assign (y x : String)
  | del (x : String)

/-- the object `y.parameters = p` changes -/
def setParams (s : State P W) (y : String) (p : P) : Outcome (State P W) := do
  let o ← obj s y
  match o.2 with
  | .model _ => .ok (put s o.1 (.model p))
  | .modelOf i => do
      let it ← deref s i
      Outcome.ok (put s i (.interp { it with model := p }))
  | _ => .throws .invalidArgument

/-- `python_binding.cpp:82-85` (`x = Model(p)`), `:100` (`x = Interpolant(y)`, which copies the model: `interpolant.hpp:40`, `rbf.hpp:26`), `:243-245` (`f = RbfFieldFunction(x)`), `:104` (`y = x.model`),
`:105` (`w = x.weights`, which throws if `x` is not fitted: `interpolant.hpp:212-216`), `:91` (`y.parameters = p`), `:111-122` (`x.fit(d)`); `y = x`; `del x` -/
def effect (L : Lib P D W V) (s : State P W) : Op P D → Outcome (State P W)
  | .newModel x p => .ok (bind s x (.model p))
  | .newInterp x y => do
      let m ← modelArg s y
      Outcome.ok (bind s x (.interp ⟨m, none, 0⟩))
  | .fieldFn f x => do
      let a ← interpArg s x
      Outcome.ok (bind s f (.fieldFn a.1))
  | .model y x => do
      let a ← interpArg s x
      Outcome.ok (bind s y (.modelOf a.1))
  | .weights w x => do
      let a ← interpArg s x
      if a.2.weights.isSome then Outcome.ok (bind s w (.weightsOf a.1 a.2.fits)) else .throws .runtimeError
  | .setParameters y p => setParams s y p
  | .fit x d => do
      let a ← interpArg s x
      Outcome.ok (put s a.1 (.interp { a.2 with weights := some (L.solve a.2.model d), fits := a.2.fits + 1 }))
  | .assign y x => do
      let o ← obj s x
      Outcome.ok { s with names := Function.update s.names y (some o.1) }
  | .del x => do
      let _ ← obj s x
      Outcome.ok { s with names := Function.update s.names x none }

/-- a statement, and then what is not kept any more is freed -/
noncomputable def step (L : Lib P D W V) (s : State P W) (op : Op P D) : Outcome (State P W) := do
  let s ← effect L s op
  Outcome.ok (collect s)

/-- statements one after another -/
noncomputable def run (L : Lib P D W V) : State P W → List (Op P D) → Outcome (State P W)
  | s, [] => .ok s
  | s, op :: ops => do
      let s ← step L s op
      run L s ops

/-- the values of an interpolant (`interpolant.hpp:57-76`): it throws if it is not fitted -/
def values (L : Lib P D W V) (it : Interp P W) : Outcome V :=
  match it.weights with
  | none => .throws .runtimeError
  | some w => .ok (L.value it.model w)

/-- `python_binding.cpp:106-110` - `x.evaluate(...)` -/
def evaluate (L : Lib P D W V) (s : State P W) (x : String) : Outcome V := do
  let a ← interpArg s x
  values L a.2

/-- `python_binding.cpp:251-257`, `rbf_field_function.hpp:21-27` - `Isosurface(...).generate(f)`: the values are those of the interpolant the field function refers to. -/
def generate (L : Lib P D W V) (s : State P W) (f : String) : Outcome V := do
  let o ← obj s f
  match o.2 with
  | .fieldFn i => do
      let it ← deref s i
      values L it
  | _ => .throws .invalidArgument

/-- reading the numbers of the array `w` -/
def readArray (s : State P W) (w : String) : Outcome W := do
  let o ← obj s w
  match o.2 with
  | .weightsOf i k => do
      let it ← deref s i
      match it.weights with
      | some v => if it.fits = k then .ok v else .ub
      | none => .ub
  | _ => .throws .invalidArgument

end Verif.PythonObjects
