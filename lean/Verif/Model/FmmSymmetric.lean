import Verif.Model.Evaluator

/-!
# src/fmm/{fmm_symmetric_evaluator, direct_symmetric_evaluator, spheroidal_symmetric_evaluator}.hpp, interpolation/{operator, symmetric_evaluator}.hpp

The evaluators for which sources and targets are the same points, and the two classes of `interpolation` made of them.  As in
`FmmEvaluator.lean`, the fast method, the sorting of particles and the search for a configuration are arbitrary functions.  A kernel
that throws within a parallel loop ends the program; that is not modelled, and `block` is zero there.  The self interaction is computed
outside of parallel loops, and its exception is modelled.
-/

namespace Verif.FmmSym

open Verif FmmConfig Fmm

variable {Pos : Type} {km kn : Nat}

/-- What the evaluator is built from, see `Fmm.Env`; `origin` is the position of the self interaction and `self` tells whether the
kernel throws there; the fast method gives, for every particle, its interaction with the other ones. -/
structure Env (Pos : Type) (km kn : Nat) where
  kernel : Pos → Pos → Fin kn → Fin km → ℝ
  transform : Pos → Pos
  origin : Pos
  self : Outcome Unit
  treeHeight : Nat → Nat
  sort : Nat → List (Src Pos km) → List (Src Pos km)
  find : Option EReal → List (Src Pos km) → Nat → Outcome Config
  fast : Config → Nat → List (Src Pos km) → List (Src Pos km × (Fin kn → ℝ))

/-- `fmm_symmetric_evaluator.hpp:260-269`; outputs are reset before they are used and are not kept here. -/
structure State (Pos : Type) (km : Nat) where
  accuracy : Option EReal
  ps : List (Src Pos km)
  level : Nat
  config : Config
  tree : Option (List (Src Pos km))
  bestConfig : Nat → Option Config

/-- `fmm_symmetric_evaluator.hpp:59-64, 260-269` -/
noncomputable def State.new : State Pos km := ⟨some ⊤, [], 0, Config.zero, none, fun _ => none⟩

/-- `fmm_symmetric_evaluator.hpp:98-102` -/
def setAccuracy (a : Option EReal) (s : State Pos km) : State Pos km := { s with accuracy := a, bestConfig := fun _ => none }

/-- `fmm_symmetric_evaluator.hpp:104-122` - `resize` keeps the inputs of the particles it keeps. -/
def setPoints (e : Env Pos km kn) (points : List Pos) (s : State Pos km) : State Pos km :=
  { s with
    ps := points.zipIdx.map (fun p => ⟨e.transform p.1, (s.ps[p.2]?.map Src.inputs).getD 0, p.2⟩)
    level := 0
    tree := none
    bestConfig := fun _ => none }

/-- `fmm_symmetric_evaluator.hpp:124-149` -/
def setWeights (w : Nat → Fin km → ℝ) (s : State Pos km) : State Pos km :=
  match s.tree with
  | none => { s with ps := s.ps.map (fun p => { p with inputs := w p.idx }) }
  | some t => { s with tree := some (t.map (fun p => { p with inputs := w p.idx })) }

/-- `fmm_symmetric_evaluator.hpp:152-161` -/
def findBest (e : Env Pos km kn) (s : State Pos km) (h : Nat) : State Pos km × Outcome Config :=
  match s.bestConfig h with
  | some c => (s, .ok c)
  | none =>
      let s := { s with bestConfig := Function.update s.bestConfig h (some Config.zero) }
      match e.find s.accuracy s.ps h with
      | .ok c => ({ s with bestConfig := Function.update s.bestConfig h (some c) }, .ok c)
      | .throws err => (s, .throws err)
      | .ub => (s, .ub)

/-- `fmm_symmetric_evaluator.hpp:222-252` -/
def prepare (e : Env Pos km kn) (s : State Pos km) : State Pos km × Outcome Unit :=
  if s.ps.length < 1024 then ({ s with tree := none, config := Config.zero }, .ok ())
  else
    let h := e.treeHeight s.ps.length
    let s := if s.level < h - 1 then { s with ps := e.sort (h - 1) s.ps, level := h - 1 } else s
    match findBest e s h with
    | (s, .throws err) => (s, .throws err)
    | (s, .ub) => (s, .ub)
    | (s, .ok config) =>
        let s := if config ≠ s.config then { s with tree := none, config := config } else s
        let s := match s.tree with | none => { s with tree := some s.ps } | some _ => s
        (s, .ok ())

/-- `fmm_symmetric_evaluator.hpp:163-193` - whether computing the self interaction throws. -/
def selfOutcome (e : Env Pos km kn) (n : Nat) : Outcome Unit := if n = 0 then .ok () else e.self

/-- `fmm_symmetric_evaluator.hpp:171-181` - the self interaction added to the outputs of the fast method. -/
noncomputable def addSelf (e : Env Pos km kn) (l : List (Src Pos km × (Fin kn → ℝ))) : List (Trg Pos kn) :=
  l.map (fun p => ⟨p.1.pos, fun i => p.2 i + ∑ j, p.1.inputs j * e.kernel e.origin e.origin i j, p.1.idx⟩)

/-- `fmm_symmetric_evaluator.hpp:66-96` -/
noncomputable def evaluate (e : Env Pos km kn) (s : State Pos km) : State Pos km × Outcome (Nat → Fin kn → ℝ) :=
  match prepare e s with
  | (s, .throws err) => (s, .throws err)
  | (s, .ub) => (s, .ub)
  | (s, .ok ()) =>
      if 0 < s.config.treeHeight then
        match s.tree with
        | none => (s, .ub)
        | some t =>
            match selfOutcome e s.ps.length with
            | .throws err => (s, .throws err)
            | .ub => (s, .ub)
            | .ok () => ({ s with tree := none }, .ok (potentials (addSelf e (e.fast s.config (e.treeHeight s.ps.length) t))))
      else
        match selfOutcome e s.ps.length with
        | .throws err => (s, .throws err)
        | .ub => (s, .ub)
        | .ok () => ({ s with tree := none }, .ok (potentials (symmetricDirect e.kernel e.origin s.ps)))

/-- The public calls. -/
inductive Op (Pos : Type) (km : Nat) where
  | accuracy (a : Option EReal)
  | points (points : List Pos)
  | weights (w : Nat → Fin km → ℝ)
  | evaluate

/-- The effect of a call; an exception thrown by `evaluate` is caught by the caller. -/
noncomputable def Op.run (e : Env Pos km kn) (s : State Pos km) : Op Pos km → State Pos km
  | .accuracy a => setAccuracy a s
  | .points p => setPoints e p s
  | .weights w => setWeights w s
  | .evaluate => (FmmSym.evaluate e s).1

end Verif.FmmSym

namespace Verif.Operator

open Verif FmmKernel Kernel Evaluator

variable {d l : Nat}

/-- What is not modelled: see `Evaluator.Ext`; the fast method and the search for a configuration of the symmetric evaluator. -/
structure Ext (d : Nat) extends Evaluator.Ext d where
  findSym : Cov d → Kind → {km : Nat} → Option EReal → List (Fmm.Src (Pos d) km) → Nat → Outcome FmmConfig.Config
  fastSym : Cov d → Kind → {km kn : Nat} → FmmConfig.Config → Nat → List (Fmm.Src (Pos d) km) →
    List (Fmm.Src (Pos d) km × (Fin kn → ℝ))

/-- Whether a kernel throws at two equal points (`hessian_kernel.hpp:54`). -/
noncomputable def selfKernel (c : Cov d) (kind : Kind) : Outcome Unit :=
  match entries c kind 0 0 with
  | .ok _ => .ok ()
  | .throws err => .throws err
  | .ub => .ub

/-- The fast symmetric evaluator for a covariance function and a kernel class. -/
noncomputable def env (X : Ext d) (c : Cov d) (kind : Kind) : FmmSym.Env (Pos d) (kind.km d) (kind.kn d) where
  kernel := block c kind
  transform := c.a.mulVec
  origin := 0
  self := selfKernel c kind
  treeHeight := X.treeHeight
  sort := X.sortSrc
  find := X.findSym c kind
  fast := X.fastSym c kind

/-- The calls a symmetric elementary evaluator can receive. -/
abbrev SCalls (d : Nat) (kind : Kind) := List (FmmSym.Op (Pos d) (kind.km d))

/-- `fmm_symmetric_evaluator.hpp`, what `evaluate` returns after some calls. -/
noncomputable def fmmResult (X : Ext d) (c : Cov d) (kind : Kind) (calls : SCalls d kind) : Outcome (Nat → Fin (kind.kn d) → ℝ) :=
  (FmmSym.evaluate (env X c kind) (calls.foldl (FmmSym.Op.run (env X c kind)) FmmSym.State.new)).2

/-- `direct_symmetric_evaluator.hpp:134-140` -/
structure Direct (d km : Nat) where
  ps : List (Pos d × (Fin km → ℝ))
  tree : Option (List (Pos d))

/-- `direct_symmetric_evaluator.hpp:69-100` -/
noncomputable def Direct.step (c : Cov d) {km : Nat} (s : Direct d km) : FmmSym.Op (Pos d) km → Direct d km
  | .accuracy _ => s
  | .points points =>
      { ps := points.zipIdx.map (fun p => (c.a.mulVec p.1, (s.ps[p.2]?.map Prod.snd).getD 0))
        tree := some (points.map c.a.mulVec) }
  | .weights w => { s with ps := s.ps.zipIdx.map (fun p => (p.1.1, w p.2)) }
  | .evaluate => s

/-- `direct_symmetric_evaluator.hpp:49-60` - the found particles other than the particle itself, in the order reported. -/
noncomputable def Direct.others (c : Cov d) (kind : Kind) (s : Direct d (kind.km d)) (t : Pos d) (n : Nat) (found : List Nat) :
    Outcome (Fin (kind.kn d) → ℝ) :=
  found.foldlM (fun out j => if j = n then Outcome.ok out else
    Fmm.directStep (block c kind) (s.ps.map Prod.fst) (fun j => (s.ps[j]?.map Prod.snd).getD 0) t out j) 0

/-- `direct_symmetric_evaluator.hpp:103-119` - the self interaction of one particle. -/
noncomputable def selfPart (c : Cov d) (kind : Kind) (w : Fin (kind.km d) → ℝ) (out : Fin (kind.kn d) → ℝ) : Fin (kind.kn d) → ℝ :=
  fun i => out i + ∑ j, w j * block c kind 0 0 i j

/-- `direct_symmetric_evaluator.hpp:103-110` - whether computing the self interaction throws. -/
noncomputable def selfOutcome (c : Cov d) (kind : Kind) (n : Nat) : Outcome Unit := if n = 0 then .ok () else selfKernel c kind

/-- `direct_symmetric_evaluator.hpp:35-67, 103-132` -/
noncomputable def Direct.evaluate (X : Ext d) (c : Cov d) (kind : Kind) (s : Direct d (kind.km d)) :
    Outcome (Nat → Fin (kind.kn d) → ℝ) := do
  let out ← Outcome.traverse (fun p : (Pos d × (Fin (kind.km d) → ℝ)) × Nat =>
    match s.tree with
    | none => .ub
    | some tree => s.others c kind p.1.1 p.2 (X.search tree p.1.1 (bound X.toExt c))) s.ps.zipIdx
  let _ ← selfOutcome c kind s.ps.length
  Outcome.ok (fun n => ((s.ps.zip out)[n]?.map (fun p => selfPart c kind p.1.2 p.2)).getD 0)

/-- `direct_symmetric_evaluator.hpp`, what `evaluate` returns after some calls. -/
noncomputable def directResult (X : Ext d) (c : Cov d) (kind : Kind) (calls : SCalls d kind) : Outcome (Nat → Fin (kind.kn d) → ℝ) :=
  (calls.foldl (Direct.step c) ⟨[], none⟩).evaluate X c kind

/-- `spheroidal_symmetric_evaluator.hpp:18-47` -/
noncomputable def splitResult (X : Ext d) (c : Cov d) (o : Spheroid) (kind : Kind) (calls : SCalls d kind) :
    Outcome (Nat → Fin (kind.kn d) → ℝ) := do
  let y1 ← directResult X (c.part o .direct) kind calls
  let y2 ← fmmResult X (c.part o .fast) kind calls
  Outcome.ok (fun n => Fmm.spheroidalEvaluate (y1 n) (y2 n))

/-- `make_fmm_evaluator.cpp:199-281` and `src/fmm/impl/*.cpp` - which implementation a covariance function gets. -/
noncomputable def symResult (X : Ext d) (c : Cov d) (kind : Kind) (calls : SCalls d kind) : Outcome (Nat → Fin (kind.kn d) → ℝ) :=
  match c.k with
  | .spherical => directResult X c kind calls
  | .cubic => directResult X c kind calls
  | .spheroidal _ .direct => directResult X c kind calls
  | .spheroidal o .full => splitResult X c o kind calls
  | _ => fmmResult X c kind calls

/-- `operator.hpp:120-123`, `symmetric_evaluator.hpp:123-126` - the four elementary evaluators of a covariance function. -/
structure Elem (d : Nat) where
  c : Cov d
  a : SCalls d .value
  f : Calls d .gradient
  ft : Calls d .gradientT
  h : SCalls d .hessian

/-- `operator.hpp:92-104`, `symmetric_evaluator.hpp:81-93` -/
def Elem.setPoints (S G : List (Pos d)) (acc gacc : Option EReal) (e : Elem d) : Elem d :=
  { e with
    a := e.a ++ [.points S, .accuracy acc]
    f := e.f ++ [.source G, .target S, .accuracy acc]
    ft := e.ft ++ [.source S, .target G, .accuracy gacc]
    h := e.h ++ [.points G, .accuracy gacc] }

/-- `operator.hpp:64-67`, `symmetric_evaluator.hpp:104-109` - head and segment of the weights. -/
def Elem.setWeights (w : Nat → ℝ) (mu : Nat) (e : Elem d) : Elem d :=
  { e with
    a := e.a ++ [.weights (segment w 0 1)]
    f := e.f ++ [.weights (segment w mu d)]
    ft := e.ft ++ [.weights (segment w 0 1)]
    h := e.h ++ [.weights (segment w mu d)] }

/-- `operator.hpp:69-72`, `symmetric_evaluator.hpp:59-62` - the four results are added; the first exception ends the call. -/
noncomputable def evalElem (X : Ext d) (mu sigma : Nat) (e : Elem d) (y : Nat → ℝ) : Elem d × Outcome (Nat → ℝ) :=
  match symResult X e.c .value e.a with
  | .throws err => ({ e with a := e.a ++ [.evaluate] }, .throws err)
  | .ub => ({ e with a := e.a ++ [.evaluate] }, .ub)
  | .ok va =>
      match result X.toExt e.c .gradient e.f with
      | .throws err => ({ e with a := e.a ++ [.evaluate], f := e.f ++ [.evaluate] }, .throws err)
      | .ub => ({ e with a := e.a ++ [.evaluate], f := e.f ++ [.evaluate] }, .ub)
      | .ok vf =>
          match result X.toExt e.c .gradientT e.ft with
          | .throws err => ({ e with a := e.a ++ [.evaluate], f := e.f ++ [.evaluate], ft := e.ft ++ [.evaluate] }, .throws err)
          | .ub => ({ e with a := e.a ++ [.evaluate], f := e.f ++ [.evaluate], ft := e.ft ++ [.evaluate] }, .ub)
          | .ok vt =>
              let e' : Elem d := ⟨e.c, e.a ++ [.evaluate], e.f ++ [.evaluate], e.ft ++ [.evaluate], e.h ++ [.evaluate]⟩
              match symResult X e.c .hessian e.h with
              | .throws err => (e', .throws err)
              | .ub => (e', .ub)
              | .ok vh => (e', .ok (addAt mu (d * sigma) (flat vh) (addAt mu (d * sigma) (flat vt)
                  (addAt 0 mu (flat vf) (addAt 0 mu (flat va) y)))))

/-! ## SymmetricEvaluator and Operator -/

/-- `operator.hpp:114-125` and `symmetric_evaluator.hpp:117-127`; `polyPoints`, `polyGrads` and `polyWeights` are what the polynomial
matrix `p_` was made from and the weights of the polynomial evaluator (only used by `SymmetricEvaluator`). -/
structure State (d l : Nat) where
  mu : Nat
  sigma : Nat
  elems : List (Elem d)
  polyPoints : List (Pos d)
  polyGrads : List (Pos d)
  polyWeights : Fin l → ℝ

/-- `operator.hpp:38-54`, `symmetric_evaluator.hpp:40-53` -/
def State.new (m : Evaluator.Model d l) : State d l := ⟨0, 0, m.rbfs.map (fun c => ⟨c, [], [], [], []⟩), [], [], 0⟩

/-- `operator.hpp:84-109`, `symmetric_evaluator.hpp:73-98` - `acc` and `gacc` are the accuracies given to the elementary evaluators (C28). -/
def setPoints (S G : List (Pos d)) (acc gacc : Option EReal) (s : State d l) : State d l :=
  { s with
    mu := S.length
    sigma := G.length
    elems := s.elems.map (Elem.setPoints S G acc gacc)
    polyPoints := S
    polyGrads := G }

/-- Entry of the polynomial matrix (`monomial_basis.hpp`): row `n`, column `t`. -/
noncomputable def polyEntry (m : Evaluator.Model d l) (S G : List (Pos d)) (n : Nat) (t : Fin l) : ℝ :=
  if n < S.length then m.polyValue ((S[n]?).getD 0) t
  else if h : 0 < d then m.polyGradient ((G[(n - S.length) / d]?).getD 0) ⟨(n - S.length) % d, Nat.mod_lt _ h⟩ t
  else 0

/-- `symmetric_evaluator.hpp:100-114` -/
def setWeights (w : Nat → ℝ) (s : State d l) : State d l :=
  { s with
    elems := s.elems.map (Elem.setWeights w s.mu)
    polyWeights := fun t => w (s.mu + d * s.sigma + t) }

/-- `symmetric_evaluator.hpp:58-63` - the loop over the covariance functions. -/
noncomputable def evalElems (X : Ext d) (mu sigma : Nat) : List (Elem d) → (Nat → ℝ) → List (Elem d) × Outcome (Nat → ℝ)
  | [], y => ([], .ok y)
  | e :: es, y =>
      match evalElem X mu sigma e y with
      | (e', .ok y') => ((e' :: (evalElems X mu sigma es y').1), (evalElems X mu sigma es y').2)
      | (e', .throws err) => (e' :: es, .throws err)
      | (e', .ub) => (e' :: es, .ub)

/-- `symmetric_evaluator.hpp:55-71` -/
noncomputable def evaluate (X : Ext d) (m : Evaluator.Model d l) (s : State d l) : State d l × Outcome (Nat → ℝ) :=
  match evalElems X s.mu s.sigma s.elems 0 with
  | (es, .ok y) => ({ s with elems := es }, .ok (if 0 < l then
      (fun n => y n + ∑ t, polyEntry m s.polyPoints s.polyGrads n t * s.polyWeights t) else y))
  | (es, .throws err) => ({ s with elems := es }, .throws err)
  | (es, .ub) => ({ s with elems := es }, .ub)

/-- `operator.hpp:63-73` - the loop of the operator: the weights of a covariance function are set right before it is evaluated. -/
noncomputable def applyElems (X : Ext d) (mu sigma : Nat) (w : Nat → ℝ) : List (Elem d) → (Nat → ℝ) → List (Elem d) × Outcome (Nat → ℝ)
  | [], y => ([], .ok y)
  | e :: es, y =>
      match evalElem X mu sigma (e.setWeights w mu) y with
      | (e', .ok y') => ((e' :: (applyElems X mu sigma w es y').1), (applyElems X mu sigma w es y').2)
      | (e', .throws err) => (e' :: es, .throws err)
      | (e', .ub) => (e' :: es, .ub)

/-- `operator.hpp:75-79` - the polynomial terms: `y.head(mu_ + kDim * sigma_) += p_ * weights.tail(l_)`, then
`y.tail(l_) += p_.transpose() * weights.head(mu_ + kDim * sigma_)`; the matrix has as many rows as it had points. -/
noncomputable def addPoly (m : Evaluator.Model d l) (s : State d l) (w y : Nat → ℝ) : Nat → ℝ :=
  let n0 := s.mu + d * s.sigma
  let y := addAt 0 n0 (fun n => ∑ t : Fin l, polyEntry m s.polyPoints s.polyGrads n t * w (n0 + t)) y
  addAt n0 l (fun t => if h : t < l then ∑ n ∈ Finset.range n0, polyEntry m s.polyPoints s.polyGrads n ⟨t, h⟩ * w n else 0) y

/-- `operator.hpp:56-82` -/
noncomputable def apply (X : Ext d) (m : Evaluator.Model d l) (nugget : ℝ) (w : Nat → ℝ) (s : State d l) : State d l × Outcome (Nat → ℝ) :=
  match applyElems X s.mu s.sigma w s.elems (addAt 0 s.mu (fun n => w n * nugget) 0) with
  | (es, .ok y) => ({ s with elems := es }, .ok (if 0 < l then addPoly m s w y else y))
  | (es, .throws err) => ({ s with elems := es }, .throws err)
  | (es, .ub) => ({ s with elems := es }, .ub)

/-- The public calls of both classes. -/
inductive Op (d : Nat) where
  | points (S G : List (Pos d)) (acc gacc : Option EReal)
  | weights (w : Nat → ℝ)
  | evaluate
  | apply (w : Nat → ℝ)

/-- The effect of a call; an exception is caught by the caller.  `SymmetricEvaluator` has no `apply` and `Operator` has no `weights`
and `evaluate`; theorems hold for all mixtures. -/
noncomputable def Op.run (X : Ext d) (m : Evaluator.Model d l) (nugget : ℝ) (s : State d l) : Op d → State d l
  | .points S G acc gacc => setPoints S G acc gacc s
  | .weights w => setWeights w s
  | .evaluate => (Operator.evaluate X m s).1
  | .apply w => (Operator.apply X m nugget w s).1

/-- The object after some calls. -/
noncomputable def history (X : Ext d) (m : Evaluator.Model d l) (nugget : ℝ) (ops : List (Op d)) : State d l :=
  ops.foldl (Op.run X m nugget) (State.new m)

end Verif.Operator
