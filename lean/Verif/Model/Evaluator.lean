import Verif.Model.FmmKernel
import Verif.Model.DirectOperator

/-!
# interpolation/evaluator.hpp, src/fmm/{direct_evaluator, spheroidal_evaluator, make_fmm_evaluator}, src/fmm/impl/*.cpp

The evaluator of a model: for each covariance function four elementary evaluators, one for each kernel class, and the polynomial.
An elementary evaluator is one of three implementations, chosen by the kind of covariance function.  An elementary evaluator is
represented by the calls it has received; its result is what the modelled implementation returns after those calls.
-/

namespace Verif.Evaluator

open Verif FmmKernel Kernel

variable {d : Nat}

/-- a point -/
abbrev Pos (d : Nat) := Fin d → ℝ

/-- What is not modelled: the parts of the fast evaluator (see `Fmm.Env`), and the search of a kd-tree for the points whose squared
distance is below a bound; `round` is the rounding of a double to a float. -/
structure Ext (d : Nat) where
  treeHeight : Nat → Nat
  sortSrc : {km : Nat} → Nat → List (Fmm.Src (Pos d) km) → List (Fmm.Src (Pos d) km)
  sortTrg : {kn : Nat} → Nat → List (Fmm.Trg (Pos d) kn) → List (Fmm.Trg (Pos d) kn)
  find : Cov d → Kind → {km : Nat} → Option EReal → List (Fmm.Src (Pos d) km) → Nat → Outcome FmmConfig.Config
  fast : Cov d → Kind → {km kn : Nat} → FmmConfig.Config → Nat → List (Fmm.Src (Pos d) km) → List (Fmm.Trg (Pos d) kn) →
    List (Fmm.Trg (Pos d) kn)
  search : List (Pos d) → Pos d → ℝ → List Nat
  round : ℝ → ℝ

/-- The fast evaluator for a covariance function and a kernel class (`fmm_evaluator.hpp:76-81`, `transform_point`:
`fmm_evaluator.hpp:126-164`). -/
noncomputable def env (X : Ext d) (c : Cov d) (kind : Kind) : Fmm.Env (Pos d) (kind.km d) (kind.kn d) where
  kernel := block c kind
  transform := c.a.mulVec
  treeHeight := X.treeHeight
  sortSrc := X.sortSrc
  sortTrg := X.sortTrg
  find := X.find c kind
  fast := X.fast c kind

/-- The calls an elementary evaluator can receive. -/
abbrev Calls (d : Nat) (kind : Kind) := List (Fmm.Op (Pos d) (kind.km d))

/-- `fmm_evaluator.hpp`, what `evaluate` returns after some calls. -/
noncomputable def fmmResult (X : Ext d) (c : Cov d) (kind : Kind) (calls : Calls d kind) : Outcome (Nat → Fin (kind.kn d) → ℝ) :=
  (Fmm.evaluate (env X c kind) (calls.foldl (Fmm.Op.run (env X c kind)) Fmm.State.new)).2

/-- `direct_evaluator.hpp:126-133` - the particles, and the kd-tree once there are source points. -/
structure Direct (d km : Nat) where
  src : List (Pos d × (Fin km → ℝ))
  tree : Option (List (Pos d))
  trg : List (Pos d)

/-- `direct_evaluator.hpp:71-113` - the effect of a call; `set_accuracy` does nothing, `resize` keeps the inputs of the particles it
keeps, and `evaluate` only writes outputs, which it resets first. -/
noncomputable def Direct.step (c : Cov d) {km : Nat} (s : Direct d km) : Fmm.Op (Pos d) km → Direct d km
  | .accuracy _ => s
  | .source points => { s with
      src := points.zipIdx.map (fun p => (c.a.mulVec p.1, (s.src[p.2]?.map Prod.snd).getD 0))
      tree := some (points.map c.a.mulVec) }
  | .target points => { s with trg := points.map c.a.mulVec }
  | .weights w => { s with src := s.src.zipIdx.map (fun p => (p.1.1, w p.2)) }
  | .evaluate => s

/-- `direct_evaluator.hpp:44` and `kdtree.cpp:54-56` - the bound on squared distances for the support radius. -/
noncomputable def bound (X : Ext d) (c : Cov d) : ℝ :=
  X.round ((supportRadius c.k c.q).getD 0 * (supportRadius c.k c.q).getD 0)

/-- `direct_evaluator.hpp:42-68, 115-125` - a search without a tree is undefined. -/
noncomputable def Direct.evaluate (X : Ext d) (c : Cov d) (kind : Kind) (s : Direct d (kind.km d)) :
    Outcome (Nat → Fin (kind.kn d) → ℝ) := do
  let out ← Outcome.traverse (fun t =>
    match s.tree with
    | none => .ub
    | some tree => Fmm.directEvaluate (block c kind) (fun t => X.search tree t (bound X c)) (s.src.map Prod.fst)
        (fun j => (s.src[j]?.map Prod.snd).getD 0) t) s.trg
  Outcome.ok (fun n => (out[n]?).getD 0)

/-- `direct_evaluator.hpp`, what `evaluate` returns after some calls. -/
noncomputable def directResult (X : Ext d) (c : Cov d) (kind : Kind) (calls : Calls d kind) : Outcome (Nat → Fin (kind.kn d) → ℝ) :=
  (calls.foldl (Direct.step c) ⟨[], none, []⟩).evaluate X c kind

/-- `spheroidal_evaluator.hpp:19-53` - all calls go to both parts, and the results are added. -/
noncomputable def splitResult (X : Ext d) (c : Cov d) (o : Spheroid) (kind : Kind) (calls : Calls d kind) :
    Outcome (Nat → Fin (kind.kn d) → ℝ) := do
  let y1 ← directResult X (c.part o .direct) kind calls
  let y2 ← fmmResult X (c.part o .fast) kind calls
  Outcome.ok (fun n => Fmm.spheroidalEvaluate (y1 n) (y2 n))

/-- `make_fmm_evaluator.cpp:40-189` and `src/fmm/impl/*.cpp` - which implementation a covariance function gets. -/
noncomputable def result (X : Ext d) (c : Cov d) (kind : Kind) (calls : Calls d kind) : Outcome (Nat → Fin (kind.kn d) → ℝ) :=
  match c.k with
  | .spherical => directResult X c kind calls
  | .cubic => directResult X c kind calls
  | .spheroidal _ .direct => directResult X c kind calls
  | .spheroidal o .full => splitResult X c o kind calls
  | _ => fmmResult X c kind calls

/-- `evaluator.hpp:155-158` - the four elementary evaluators of a covariance function. -/
structure Elem (d : Nat) where
  c : Cov d
  a : Calls d .value
  f : Calls d .gradient
  ft : Calls d .gradientT
  h : Calls d .hessian

/-- The model: covariance functions and polynomial basis (`polynomial_evaluator.hpp:20-24` with the rows of the basis matrix as in
`DirectOp.Model`). -/
structure Model (d l : Nat) where
  rbfs : List (Cov d)
  polyValue : Pos d → Fin l → ℝ
  polyGradient : Pos d → Fin d → Fin l → ℝ

/-- `evaluator.hpp:146-160` -/
structure State (d l : Nat) where
  mu : Nat
  sigma : Nat
  trgMu : Nat
  trgSigma : Nat
  elems : List (Elem d)
  polyPoints : List (Pos d)
  polyGrads : List (Pos d)
  polyWeights : Fin l → ℝ

variable {l : Nat}

/-- `evaluator.hpp:50-63` -/
def State.new (m : Model d l) : State d l := ⟨0, 0, 0, 0, m.rbfs.map (fun c => ⟨c, [], [], [], []⟩), [], [], 0⟩

/-- `evaluator.hpp:91-110` - `acc` and `gacc` are the accuracies given to the elementary evaluators (see C28). -/
def setSource (S G : List (Pos d)) (acc gacc : Option EReal) (s : State d l) : State d l :=
  { s with
    mu := S.length
    sigma := G.length
    elems := s.elems.map (fun e => { e with
      a := e.a ++ [.source S, .accuracy acc]
      f := e.f ++ [.source G, .accuracy acc]
      ft := e.ft ++ [.source S, .accuracy gacc]
      h := e.h ++ [.source G, .accuracy gacc] }) }

/-- `evaluator.hpp:114-128` -/
def setTarget (T TG : List (Pos d)) (s : State d l) : State d l :=
  { s with
    trgMu := T.length
    trgSigma := TG.length
    elems := s.elems.map (fun e => { e with
      a := e.a ++ [.target T]
      f := e.f ++ [.target T]
      ft := e.ft ++ [.target TG]
      h := e.h ++ [.target TG] })
    polyPoints := T
    polyGrads := TG }

/-- `fmm_evaluator.hpp:174, 186`, `direct_evaluator.hpp:110` - `weights(km * idx + i)` of a segment that starts at `start` -/
def segment (w : Nat → ℝ) (start km : Nat) : Nat → Fin km → ℝ := fun idx i => w (start + (km * idx + i))

/-- `evaluator.hpp:130-144` - head, segment and tail of the weights. -/
def setWeights (w : Nat → ℝ) (s : State d l) : State d l :=
  { s with
    elems := s.elems.map (fun e => { e with
      a := e.a ++ [.weights (segment w 0 1)]
      f := e.f ++ [.weights (segment w s.mu d)]
      ft := e.ft ++ [.weights (segment w 0 1)]
      h := e.h ++ [.weights (segment w s.mu d)] })
    polyWeights := fun t => w (s.mu + d * s.sigma + t) }

/-- `fmm_evaluator.hpp:205-231`, `direct_evaluator.hpp:115-125` - the vector of potentials: `potentials(kn * idx + i)` -/
def flat {kn : Nat} (v : Nat → Fin kn → ℝ) : Nat → ℝ := fun n => if h : 0 < kn then v (n / kn) ⟨n % kn, Nat.mod_lt n h⟩ else 0

/-- `y.head(...) += v` and `y.tail(...) += v`: the entries from `start` on, `len` of them. -/
def addAt (start len : Nat) (v y : Nat → ℝ) : Nat → ℝ := fun n => if start ≤ n ∧ n < start + len then y n + v (n - start) else y n

/-- `evaluator.hpp:69-72` - the four results of one covariance function are added; the first exception ends the call, and the
evaluators after it are not called. -/
noncomputable def evalElem (X : Ext d) (mu sigma : Nat) (e : Elem d) (y : Nat → ℝ) : Elem d × Outcome (Nat → ℝ) :=
  match result X e.c .value e.a with
  | .throws err => ({ e with a := e.a ++ [.evaluate] }, .throws err)
  | .ub => ({ e with a := e.a ++ [.evaluate] }, .ub)
  | .ok va =>
      match result X e.c .gradient e.f with
      | .throws err => ({ e with a := e.a ++ [.evaluate], f := e.f ++ [.evaluate] }, .throws err)
      | .ub => ({ e with a := e.a ++ [.evaluate], f := e.f ++ [.evaluate] }, .ub)
      | .ok vf =>
          match result X e.c .gradientT e.ft with
          | .throws err => ({ e with a := e.a ++ [.evaluate], f := e.f ++ [.evaluate], ft := e.ft ++ [.evaluate] }, .throws err)
          | .ub => ({ e with a := e.a ++ [.evaluate], f := e.f ++ [.evaluate], ft := e.ft ++ [.evaluate] }, .ub)
          | .ok vt =>
              let e' : Elem d := ⟨e.c, e.a ++ [.evaluate], e.f ++ [.evaluate], e.ft ++ [.evaluate], e.h ++ [.evaluate]⟩
              match result X e.c .hessian e.h with
              | .throws err => (e', .throws err)
              | .ub => (e', .ub)
              | .ok vh => (e', .ok (addAt mu (d * sigma) (flat vh) (addAt mu (d * sigma) (flat vt)
                  (addAt 0 mu (flat vf) (addAt 0 mu (flat va) y)))))

/-- `evaluator.hpp:68-73` - the loop over the covariance functions. -/
noncomputable def evalElems (X : Ext d) (mu sigma : Nat) : List (Elem d) → (Nat → ℝ) → List (Elem d) × Outcome (Nat → ℝ)
  | [], y => ([], .ok y)
  | e :: es, y =>
      match evalElem X mu sigma e y with
      | (e', .ok y') => ((e' :: (evalElems X mu sigma es y').1), (evalElems X mu sigma es y').2)
      | (e', .throws err) => (e' :: es, .throws err)
      | (e', .ub) => (e' :: es, .ub)

/-- `polynomial_evaluator.hpp:20-24`, `monomial_basis.hpp` - row `n` of the basis matrix times the weights. -/
noncomputable def polyRow (m : Model d l) (s : State d l) (n : Nat) : ℝ :=
  if n < s.polyPoints.length then ∑ t, m.polyValue ((s.polyPoints[n]?).getD 0) t * s.polyWeights t
  else if h : 0 < d then
    ∑ t, m.polyGradient ((s.polyGrads[(n - s.polyPoints.length) / d]?).getD 0)
      ⟨(n - s.polyPoints.length) % d, Nat.mod_lt _ h⟩ t * s.polyWeights t
  else 0

/-- `evaluator.hpp:65-82` -/
noncomputable def evaluate (X : Ext d) (m : Model d l) (s : State d l) : State d l × Outcome (Nat → ℝ) :=
  match evalElems X s.trgMu s.trgSigma s.elems 0 with
  | (es, .ok y) => ({ s with elems := es }, .ok (if 0 < l then (fun n => y n + polyRow m s n) else y))
  | (es, .throws err) => ({ s with elems := es }, .throws err)
  | (es, .ub) => ({ s with elems := es }, .ub)

/-- The public calls. -/
inductive Op (d : Nat) where
  | source (S G : List (Pos d)) (acc gacc : Option EReal)
  | target (T TG : List (Pos d))
  | weights (w : Nat → ℝ)
  | evaluate

/-- The effect of a call; an exception thrown by `evaluate` is caught by the caller. -/
noncomputable def Op.run (X : Ext d) (m : Model d l) (s : State d l) : Op d → State d l
  | .source S G acc gacc => setSource S G acc gacc s
  | .target T TG => setTarget T TG s
  | .weights w => setWeights w s
  | .evaluate => (Evaluator.evaluate X m s).1

/-- The evaluator after some calls. -/
noncomputable def history (X : Ext d) (m : Model d l) (ops : List (Op d)) : State d l := ops.foldl (Op.run X m) (State.new m)

end Verif.Evaluator
