import Verif.Model.Outcome
import Verif.Model.RbfModel

/-!
# interpolant.hpp : Interpolant

The whole state of an interpolant, and every public call as a state transformer returning the state it leaves behind
together with its outcome.  The numerical parts are parameters: each fitting call carries the function (`solver`) that
its fitter computes, which may also throw; the evaluator is a function of its constructor arguments, its weights and the
points; bounding boxes are a type with `fromPoints` and `hull`.  A `double` is its bit pattern.
-/

namespace Verif.Interpolant

open Verif RbfModel

/-- a row of a point matrix -/
abbrev Pt := List Dbl

def isZero (x : Dbl) : Bool := x == 0 || x == 0x8000000000000000#64

/-- `x > 0.0` -/
def gt0 (x : Dbl) : Bool := !isNaN x && !x.msb && !isZero x

/-- `x == y` on doubles -/
def feq (x y : Dbl) : Bool := !isNaN x && !isNaN y && (x == y || (isZero x && isZero y))

/-- element-wise `==` of sequences of doubles -/
def ptEq : List Dbl → List Dbl → Bool
  | [], [] => true
  | x :: xs, y :: ys => feq x y && ptEq xs ys
  | _, _ => false

/-- `rbf.hpp:87-94` -/
def rbfEq (a b : Rbf) : Bool :=
  a.kind.shortName == b.kind.shortName && ptEq a.params b.params && ptEq a.aniso b.aniso

def rbfsEq : List Rbf → List Rbf → Bool
  | [], [] => true
  | x :: xs, y :: ys => rbfEq x y && rbfsEq xs ys
  | _, _ => false

/-- `model.hpp:158-165`; the test `this == &other` is made by the caller of this function. -/
def modelEq (a b : Mdl) : Bool := rbfsEq a.rbfs b.rbfs && a.polyDegree == b.polyDegree && feq a.nugget b.nugget

/-- `polynomial_basis_base.hpp:28-47` for `Dim` 1, 2, 3 -/
def basisSize (dim : Nat) (degree : Int) : Nat :=
  if degree < 0 then 0
  else
    let k := degree.toNat + 1
    match dim with
    | 1 => k
    | 2 => k * (k + 1) / 2
    | 3 => k * (k + 1) * (k + 2) / 6
    | _ => 0

/-- The arguments and the weights an evaluator was built with. -/
structure Snap (B : Type) where
  model : Mdl
  centers : List Pt
  gradCenters : List Pt
  bbox : B
  acc : Dbl
  gacc : Dbl
  weights : List Dbl

/-- `interpolant.hpp:331-338` -/
structure State (B : Type) where
  model : Mdl
  fitted : Bool
  centers : List Pt
  gradCenters : List Pt
  bbox : B
  weights : List Dbl
  evaluator : Option (Snap B)

/-- The parts that are parameters. -/
structure Env (B : Type) where
  dim : Nat
  empty : B
  fromPoints : List Pt → B
  hull : B → B → B
  eval : Snap B → List Pt → List Pt → List Dbl

/-- The argument `initial`. -/
inductive Init (B : Type) where
  | null
  | self
  | other (s : State B)

/-- A point argument, passed by reference: a separate object, or what `centers()` or `grad_centers()` of the same
interpolant returned. -/
inductive PtArg where
  | given (ps : List Pt)
  | ownCenters
  | ownGradCenters

/-- The public calls. -/
inductive Op (B : Type) where
  | fit (p g : PtArg) (values : List Dbl) (tol gtol : Dbl) (maxIter : Int) (acc gacc : Dbl) (init : Init B)
      (solver : List Pt → List Pt → List Dbl → Option (List Dbl) → Outcome (List Dbl))
  | fitIncrementally (p g : PtArg) (values : List Dbl) (tol gtol : Dbl) (maxIter : Int) (acc gacc : Dbl)
      (solver : List Pt → List Pt → List Dbl → Outcome (List Nat × List Nat × List Dbl))
  | fitInequality (p : PtArg) (values lb ub : List Dbl) (tol : Dbl) (maxIter : Int) (acc : Dbl) (init : Init B)
      (solver : List Pt → List Dbl → List Dbl → List Dbl → Option (List Dbl) → Outcome (List Nat × List Dbl))
  | evaluate (p g : List Pt) (acc gacc : Dbl)
  | setEvaluationBbox (b : B) (acc gacc : Dbl)
  | evaluateImpl (p g : List Pt)
  | bbox
  | centers
  | gradCenters
  | weights

/-- What a call returns. -/
inductive Res (B : Type) where
  | unit
  | pts (ps : List Pt)
  | vec (v : List Dbl)
  | box (b : B)

variable {B : Type} (env : Env B)

/-- `interpolant.hpp:40` -/
def new (m : Mdl) : State B := ⟨m, false, [], [], env.empty, [], none⟩

/-- `interpolant.hpp:317-323` - the evaluator is not reset. -/
def clear (s : State B) : State B :=
  { s with fitted := false, centers := [], gradCenters := [], bbox := env.empty, weights := [] }

/-- the object a point argument refers to, now -/
def PtArg.resolve (s : State B) : PtArg → List Pt
  | .given ps => ps
  | .ownCenters => s.centers
  | .ownGradCenters => s.gradCenters

/-- forming the argument itself calls a throwing accessor (`interpolant.hpp:48-52, 193-197`) -/
def PtArg.available (s : State B) : PtArg → Bool
  | .given _ => true
  | _ => s.fitted

/-- `interpolant.hpp:291-305` -/
def checkNumPoints (m : Mdl) (mu sigma : Nat) : Outcome Unit :=
  if m.polyDegree == 1 && mu == 1 && decide (sigma ≥ 1) then .ok ()
  else if mu < basisSize env.dim m.polyDegree then .throws .invalidArgument
  else .ok ()

/-- `interpolant.hpp:275-283, 307-315` (`check_accuracy`, `check_tolerance`) -/
def checkPositive (a b : Dbl) : Outcome Unit :=
  if !gt0 a then .throws .invalidArgument else if !gt0 b then .throws .invalidArgument else .ok ()

/-- `interpolant.hpp:285-289` -/
def checkMaxIter (n : Int) : Outcome Unit := if n < 0 then .throws .invalidArgument else .ok ()

def require (b : Bool) : Outcome Unit := if b then .ok () else .throws .invalidArgument

/-- `interpolant.hpp:212-216` -/
def State.weightsAcc (s : State B) : Outcome (List Dbl) := if s.fitted then .ok s.weights else .throws .runtimeError

/-- `unordered_flat_map::emplace` keeps an existing entry with an equal key. -/
def mapEmplace (m : List (Pt × Nat)) (p : Pt) (i : Nat) : List (Pt × Nat) :=
  if m.any (fun e => ptEq e.1 p) then m else m ++ [(p, i)]

/-- `interpolant.hpp:248-253` -/
def fillMap : List Pt → Nat → List (Pt × Nat) → List (Pt × Nat)
  | [], _, m => m
  | p :: ps, i, m => fillMap ps (i + 1) (mapEmplace m p i)

/-- `unordered_flat_map::find` -/
def mapFind (m : List (Pt × Nat)) (p : Pt) : Option Nat := (m.find? (fun e => ptEq e.1 p)).map Prod.snd

/-- `v.segment<n>(i)` -/
def segment (v : List Dbl) (i n : Nat) : Outcome (List Dbl) :=
  if i + n ≤ v.length then .ok ((v.drop i).take n) else .ub

/-- `v.tail(n)` -/
def tail (v : List Dbl) (n : Nat) : Outcome (List Dbl) :=
  if n ≤ v.length then .ok (v.drop (v.length - n)) else .ub

/-- `interpolant.hpp:255-260` - the weight of one point -/
def iniValue (ini : State B) (iniPoints : List (Pt × Nat)) (p : Pt) : Outcome Dbl :=
  match mapFind iniPoints p with
  | none => .ok zero
  | some j => do
      let w ← ini.weightsAcc
      Outcome.get w j

/-- `interpolant.hpp:261-267` - the weights of one gradient point -/
def iniGrad (dim : Nat) (ini : State B) (iniGrads : List (Pt × Nat)) (p : Pt) : Outcome (List Dbl) :=
  match mapFind iniGrads p with
  | none => .ok (List.replicate dim zero)
  | some j => do
      let w ← ini.weightsAcc
      segment w (ini.centers.length + dim * j) dim

/-- `interpolant.hpp:232-273`; `same` is the pointer comparison of `model.hpp:159`. -/
def buildInitialWeights (m : Mdl) (points grads : List Pt) (same : Bool) (ini : State B) : Outcome (List Dbl) :=
  let l := basisSize env.dim m.polyDegree
  if !(same || modelEq m ini.model) then .ok (List.replicate (points.length + env.dim * grads.length + l) zero)
  else do
    let a ← Outcome.traverse (iniValue ini (fillMap ini.centers 0 [])) points
    let b ← Outcome.traverse (iniGrad env.dim ini (fillMap ini.gradCenters 0 [])) grads
    let w ← ini.weightsAcc
    let c ← tail w l
    return a ++ b.flatten ++ c

/-- The weights passed to the fitter (`interpolant.hpp:94-97, 172-175`). -/
def initialWeights (s : State B) (points grads : List Pt) : Init B → Outcome (Option (List Dbl))
  | .null => .ok none
  | .self => do
      let w ← buildInitialWeights env s.model points grads true s
      return some w
  | .other o => do
      let w ← buildInitialWeights env s.model points grads false o
      return some w

/-- `points(indices, kAll)` -/
def pick (ps : List Pt) (is : List Nat) : Outcome (List Pt) := Outcome.traverse (fun i => Outcome.get ps i) is

/-- a call that only reads -/
def pureCall (s : State B) (r : Outcome (Res B)) : State B × Outcome (Res B) := (s, r)

/-- run the argument checks, then the rest; an exception in the checks leaves the state alone -/
def checked (s : State B) (c : Outcome α) (k : α → State B × Outcome (Res B)) : State B × Outcome (Res B) :=
  match c with
  | .ok a => k a
  | .throws e => (s, .throws e)
  | .ub => (s, .ub)

/-- `interpolant.hpp:83-113` -/
def fit (s : State B) (p g : PtArg) (values : List Dbl) (tol gtol : Dbl) (maxIter : Int) (acc gacc : Dbl)
    (init : Init B) (solver : List Pt → List Pt → List Dbl → Option (List Dbl) → Outcome (List Dbl)) :
    State B × Outcome (Res B) :=
  if !(p.available s && g.available s) then (s, .throws .runtimeError)
  else
    checked s (do
      let points := p.resolve s
      let grads := g.resolve s
      checkNumPoints env s.model points.length grads.length
      require (values.length == points.length + env.dim * grads.length)
      checkPositive tol gtol
      checkMaxIter maxIter
      checkPositive acc gacc
      initialWeights env s points grads init) fun w0 =>
    let s := clear env s
    match solver (p.resolve s) (g.resolve s) values w0 with
    | .ok w =>
        let s := { s with weights := w, fitted := true }
        let s := { s with centers := p.resolve s }
        let s := { s with gradCenters := g.resolve s }
        ({ s with bbox := env.hull (env.fromPoints s.centers) (env.fromPoints s.gradCenters) }, .ok .unit)
    | .throws e => (s, .throws e)
    | .ub => (s, .ub)

/-- `interpolant.hpp:121-147` -/
def fitIncrementally (s : State B) (p g : PtArg) (values : List Dbl) (tol gtol : Dbl) (maxIter : Int) (acc gacc : Dbl)
    (solver : List Pt → List Pt → List Dbl → Outcome (List Nat × List Nat × List Dbl)) : State B × Outcome (Res B) :=
  if !(p.available s && g.available s) then (s, .throws .runtimeError)
  else
    checked s (do
      let points := p.resolve s
      let grads := g.resolve s
      checkNumPoints env s.model points.length grads.length
      require (values.length == points.length + env.dim * grads.length)
      checkPositive tol gtol
      checkMaxIter maxIter
      checkPositive acc gacc) fun _ =>
    let s := clear env s
    match (do
      let (ci, gi, w) ← solver (p.resolve s) (g.resolve s) values
      let cs ← pick (p.resolve s) ci
      let gs ← pick (g.resolve s) gi
      return (cs, gs, w)) with
    | .ok (cs, gs, w) =>
        ({ s with weights := w, fitted := true, centers := cs, gradCenters := gs,
                  bbox := env.hull (env.fromPoints cs) (env.fromPoints gs) }, .ok .unit)
    | .throws e => (s, .throws e)
    | .ub => (s, .ub)

/-- `interpolant.hpp:149-191`; the bounds are checked in the order of the code. -/
def fitInequality (s : State B) (p : PtArg) (values lb ub : List Dbl) (tol : Dbl) (maxIter : Int) (acc : Dbl)
    (init : Init B)
    (solver : List Pt → List Dbl → List Dbl → List Dbl → Option (List Dbl) → Outcome (List Nat × List Dbl)) :
    State B × Outcome (Res B) :=
  if !p.available s then (s, .throws .runtimeError)
  else
    checked s (do
      let points := p.resolve s
      (if isZero s.model.nugget then .ok () else .throws .runtimeError : Outcome Unit)
      checkNumPoints env s.model points.length 0
      require (values.length == points.length)
      require (lb.length == points.length)
      require (ub.length == points.length)
      checkPositive tol inf
      checkMaxIter maxIter
      checkPositive acc inf
      initialWeights env s points [] init) fun w0 =>
    let s := clear env s
    match (do
      let (ci, w) ← solver (p.resolve s) values lb ub w0
      let cs ← pick (p.resolve s) ci
      return (cs, w)) with
    | .ok (cs, w) =>
        ({ s with weights := w, fitted := true, centers := cs, bbox := env.fromPoints cs }, .ok .unit)
    | .throws e => (s, .throws e)
    | .ub => (s, .ub)

/-- `interpolant.hpp:201-210` -/
def setEvaluationBbox (s : State B) (b : B) (acc gacc : Dbl) : State B × Outcome (Res B) :=
  if !s.fitted then (s, .throws .runtimeError)
  else ({ s with evaluator := some ⟨s.model, s.centers, s.gradCenters, env.hull b s.bbox, acc, gacc, s.weights⟩ },
    .ok .unit)

/-- `interpolant.hpp:69-75` - an absent evaluator is a null pointer. -/
def evaluateImpl (s : State B) (p g : List Pt) : Outcome (Res B) :=
  if !s.fitted then .throws .runtimeError
  else match s.evaluator with
    | none => .ub
    | some e => .ok (.vec (env.eval e p g))

/-- `interpolant.hpp:58-67` -/
def evaluate (s : State B) (p g : List Pt) (acc gacc : Dbl) : State B × Outcome (Res B) :=
  if !s.fitted then (s, .throws .runtimeError)
  else
    checked s (checkPositive acc gacc) fun _ =>
    match setEvaluationBbox env s (env.hull (env.fromPoints p) (env.fromPoints g)) acc gacc with
    | (s, .ok _) => (s, evaluateImpl env s p g)
    | r => r

/-- One call. -/
def step (s : State B) : Op B → State B × Outcome (Res B)
  | .fit p g v t gt n a ga i f => fit env s p g v t gt n a ga i f
  | .fitIncrementally p g v t gt n a ga f => fitIncrementally env s p g v t gt n a ga f
  | .fitInequality p v lb ub t n a i f => fitInequality env s p v lb ub t n a i f
  | .evaluate p g a ga => evaluate env s p g a ga
  | .setEvaluationBbox b a ga => setEvaluationBbox env s b a ga
  | .evaluateImpl p g => (s, evaluateImpl env s p g)
  | .bbox => (s, if s.fitted then .ok (.box s.bbox) else .throws .runtimeError)
  | .centers => (s, if s.fitted then .ok (.pts s.centers) else .throws .runtimeError)
  | .gradCenters => (s, if s.fitted then .ok (.pts s.gradCenters) else .throws .runtimeError)
  | .weights => (s, s.weightsAcc.bind (fun w => .ok (.vec w)))

/-- A history of calls, each exception being caught by the caller. -/
def run (s : State B) : List (Op B) → State B × List (Outcome (Res B))
  | [] => (s, [])
  | op :: ops =>
      let (s, r) := step env s op
      let (s, rs) := run s ops
      (s, r :: rs)

/-- `interpolant.hpp:345-367` - a saved and loaded object (see `Verif.Io`): the evaluator is not stored. -/
def reload (s : State B) : State B := { s with evaluator := none }

end Verif.Interpolant
