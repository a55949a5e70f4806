import Verif.Model.Interpolant
import Verif.Spec.Double

/-!
# What a user of an interpolant expects

The abstract state is the data of the most recent successful fit, if there is one and no fit failed after it.
-/

namespace Verif.Interpolant

open Verif RbfModel

/-- The result of a fit. -/
structure Fit (B : Type) where
  centers : List Pt
  gradCenters : List Pt
  bbox : B
  weights : List Dbl

/-- There are enough points for the polynomial part: at least as many as the basis has elements, or the special case of
a linear polynomial with one point and at least one gradient. -/
def EnoughPoints (dim : Nat) (m : Mdl) (mu sigma : Nat) : Prop :=
  basisSize dim m.polyDegree ≤ mu ∨ (m.polyDegree = 1 ∧ mu = 1 ∧ 1 ≤ sigma)

/-- The numeric arguments of a fit are acceptable. -/
def NumArgsOk (tol gtol : Dbl) (maxIter : Int) (acc gacc : Dbl) : Prop :=
  Dbl.Positive tol ∧ Dbl.Positive gtol ∧ 0 ≤ maxIter ∧ Dbl.Positive acc ∧ Dbl.Positive gacc

/-- Equal coordinates, as numbers: `-0` is the same coordinate as `0`, and a point with a NaN is not the same as any. -/
def SamePoint (a b : Pt) : Prop := List.Forall₂ Dbl.Equal a b

/-- Two models are the same: the same covariance functions with equal parameters and anisotropies, the same polynomial
degree, and equal nuggets. -/
def SameModel (a b : Mdl) : Prop :=
  List.Forall₂ (fun r q : Rbf => r.kind = q.kind ∧ List.Forall₂ Dbl.Equal r.params q.params ∧
    List.Forall₂ Dbl.Equal r.aniso q.aniso) a.rbfs b.rbfs ∧
  a.polyDegree = b.polyDegree ∧ Dbl.Equal a.nugget b.nugget

/-- `initial` can be used: it has a different model (and is ignored), or it has been fitted. -/
def InitOk {B : Type} (m : Mdl) (cur : Option (Fit B)) : Init B → Prop
  | .null => True
  | .self => cur.isSome
  | .other o => ¬ SameModel m o.model ∨ o.fitted = true

/-- `c` is the first center of the list equal to `p`. -/
def FirstMatch (cs : List Pt) (p : Pt) (j : Nat) : Prop :=
  (∃ c, cs[j]? = some c ∧ SamePoint c p) ∧ ∀ i < j, ∀ c, cs[i]? = some c → ¬ SamePoint c p

/-- `w` is the warm start for `points` and `grads` from the fit `f`: value weights, then `dim` gradient weights for each
gradient point, then `l` polynomial coefficients. -/
structure WarmStart {B : Type} (dim l : Nat) (f : Fit B) (points grads : List Pt) (w : List Dbl) : Prop where
  length : w.length = points.length + dim * grads.length + l
  point : ∀ (i : Nat) (p : Pt), points[i]? = some p →
    (∀ j : Nat, FirstMatch f.centers p j → w[i]? = f.weights[j]?) ∧
    ((∀ c ∈ f.centers, ¬ SamePoint c p) → w[i]? = some zero)
  grad : ∀ (i : Nat) (p : Pt), grads[i]? = some p → ∀ k < dim,
    (∀ j : Nat, FirstMatch f.gradCenters p j →
      w[points.length + dim * i + k]? = f.weights[f.centers.length + dim * j + k]?) ∧
    ((∀ c ∈ f.gradCenters, ¬ SamePoint c p) → w[points.length + dim * i + k]? = some zero)
  poly : ∀ k < l, w[points.length + dim * grads.length + k]? =
    f.weights[f.centers.length + dim * f.gradCenters.length + k]?

/-- The initial weights the fitter is given. -/
def StartOk {B : Type} (dim : Nat) (m : Mdl) (cur : Option (Fit B)) (points grads : List Pt) :
    Init B → Option (List Dbl) → Prop
  | .null, w0 => w0 = none
  | .self, w0 => ∃ f w, cur = some f ∧ w0 = some w ∧ WarmStart dim (basisSize dim m.polyDegree) f points grads w
  | .other o, w0 => ∃ w, w0 = some w ∧
      (SameModel m o.model →
        WarmStart dim (basisSize dim m.polyDegree) ⟨o.centers, o.gradCenters, o.bbox, o.weights⟩ points grads w) ∧
      (¬ SameModel m o.model →
        w = List.replicate (points.length + dim * grads.length + basisSize dim m.polyDegree) zero)

/-- The number of weights fits the numbers of centers. -/
def Fit.Sized {B : Type} (dim l : Nat) (f : Fit B) : Prop :=
  f.weights.length = f.centers.length + dim * f.gradCenters.length + l

/-- What each call may do: from the fit `cur` to the fit `cur'` with outcome `r`.  For point arguments that are not
references into the interpolant itself. -/
inductive Allowed {B : Type} (env : Env B) (m : Mdl) : Option (Fit B) → Op B → Outcome (Res B) → Option (Fit B) → Prop
  | fitRejected {cur p g values tol gtol maxIter acc gacc init solver e} :
      ¬ (EnoughPoints env.dim m p.length g.length ∧ values.length = p.length + env.dim * g.length ∧
        NumArgsOk tol gtol maxIter acc gacc ∧ InitOk m cur init) →
      Allowed env m cur (.fit (.given p) (.given g) values tol gtol maxIter acc gacc init solver) (.throws e) cur
  | fitFailed {cur p g values tol gtol maxIter acc gacc init solver w0 e} :
      EnoughPoints env.dim m p.length g.length ∧ values.length = p.length + env.dim * g.length ∧
        NumArgsOk tol gtol maxIter acc gacc ∧ InitOk m cur init →
      StartOk env.dim m cur p g init w0 → solver p g values w0 = .throws e →
      Allowed env m cur (.fit (.given p) (.given g) values tol gtol maxIter acc gacc init solver) (.throws e) none
  | fitDone {cur p g values tol gtol maxIter acc gacc init solver w0 w} :
      EnoughPoints env.dim m p.length g.length ∧ values.length = p.length + env.dim * g.length ∧
        NumArgsOk tol gtol maxIter acc gacc ∧ InitOk m cur init →
      StartOk env.dim m cur p g init w0 → solver p g values w0 = .ok w →
      Allowed env m cur (.fit (.given p) (.given g) values tol gtol maxIter acc gacc init solver) (.ok .unit)
        (some ⟨p, g, env.hull (env.fromPoints p) (env.fromPoints g), w⟩)
  | incrRejected {cur p g values tol gtol maxIter acc gacc solver e} :
      ¬ (EnoughPoints env.dim m p.length g.length ∧ values.length = p.length + env.dim * g.length ∧
        NumArgsOk tol gtol maxIter acc gacc) →
      Allowed env m cur (.fitIncrementally (.given p) (.given g) values tol gtol maxIter acc gacc solver) (.throws e) cur
  | incrFailed {cur p g values tol gtol maxIter acc gacc solver e} :
      EnoughPoints env.dim m p.length g.length ∧ values.length = p.length + env.dim * g.length ∧
        NumArgsOk tol gtol maxIter acc gacc →
      solver p g values = .throws e →
      Allowed env m cur (.fitIncrementally (.given p) (.given g) values tol gtol maxIter acc gacc solver) (.throws e) none
  | incrDone {cur p g values tol gtol maxIter acc gacc solver ci gi w} :
      EnoughPoints env.dim m p.length g.length ∧ values.length = p.length + env.dim * g.length ∧
        NumArgsOk tol gtol maxIter acc gacc →
      solver p g values = .ok (ci, gi, w) →
      Allowed env m cur (.fitIncrementally (.given p) (.given g) values tol gtol maxIter acc gacc solver) (.ok .unit)
        (some ⟨ci.filterMap (p[·]?), gi.filterMap (g[·]?),
          env.hull (env.fromPoints (ci.filterMap (p[·]?))) (env.fromPoints (gi.filterMap (g[·]?))), w⟩)
  | ineqRejected {cur p values lb ub tol maxIter acc init solver e} :
      ¬ (Dbl.Equal m.nugget zero ∧ EnoughPoints env.dim m p.length 0 ∧ values.length = p.length ∧
        lb.length = p.length ∧ ub.length = p.length ∧ NumArgsOk tol inf maxIter acc inf ∧ InitOk m cur init) →
      Allowed env m cur (.fitInequality (.given p) values lb ub tol maxIter acc init solver) (.throws e) cur
  | ineqFailed {cur p values lb ub tol maxIter acc init solver w0 e} :
      Dbl.Equal m.nugget zero ∧ EnoughPoints env.dim m p.length 0 ∧ values.length = p.length ∧
        lb.length = p.length ∧ ub.length = p.length ∧ NumArgsOk tol inf maxIter acc inf ∧ InitOk m cur init →
      StartOk env.dim m cur p [] init w0 → solver p values lb ub w0 = .throws e →
      Allowed env m cur (.fitInequality (.given p) values lb ub tol maxIter acc init solver) (.throws e) none
  | ineqDone {cur p values lb ub tol maxIter acc init solver w0 ci w} :
      Dbl.Equal m.nugget zero ∧ EnoughPoints env.dim m p.length 0 ∧ values.length = p.length ∧
        lb.length = p.length ∧ ub.length = p.length ∧ NumArgsOk tol inf maxIter acc inf ∧ InitOk m cur init →
      StartOk env.dim m cur p [] init w0 → solver p values lb ub w0 = .ok (ci, w) →
      Allowed env m cur (.fitInequality (.given p) values lb ub tol maxIter acc init solver) (.ok .unit)
        (some ⟨ci.filterMap (p[·]?), [], env.fromPoints (ci.filterMap (p[·]?)), w⟩)
  | evaluateUnfitted {p g acc gacc} : Allowed env m none (.evaluate p g acc gacc) (.throws .runtimeError) none
  | evaluateRejected {f p g acc gacc} : ¬ (Dbl.Positive acc ∧ Dbl.Positive gacc) →
      Allowed env m (some f) (.evaluate p g acc gacc) (.throws .invalidArgument) (some f)
  | evaluate {f p g acc gacc} : Dbl.Positive acc → Dbl.Positive gacc →
      Allowed env m (some f) (.evaluate p g acc gacc)
        (.ok (.vec (env.eval ⟨m, f.centers, f.gradCenters,
          env.hull (env.hull (env.fromPoints p) (env.fromPoints g)) f.bbox, acc, gacc, f.weights⟩ p g))) (some f)
  | bboxUnfitted : Allowed env m none .bbox (.throws .runtimeError) none
  | bbox {f} : Allowed env m (some f) .bbox (.ok (.box f.bbox)) (some f)
  | centersUnfitted : Allowed env m none .centers (.throws .runtimeError) none
  | centers {f} : Allowed env m (some f) .centers (.ok (.pts f.centers)) (some f)
  | gradCentersUnfitted : Allowed env m none .gradCenters (.throws .runtimeError) none
  | gradCenters {f} : Allowed env m (some f) .gradCenters (.ok (.pts f.gradCenters)) (some f)
  | weightsUnfitted : Allowed env m none .weights (.throws .runtimeError) none
  | weights {f} : Allowed env m (some f) .weights (.ok (.vec f.weights)) (some f)
  | setBboxUnfitted {b acc gacc} : Allowed env m none (.setEvaluationBbox b acc gacc) (.throws .runtimeError) none
  | setBbox {f b acc gacc} : Allowed env m (some f) (.setEvaluationBbox b acc gacc) (.ok .unit) (some f)
  | evaluateImplUnfitted {p g} : Allowed env m none (.evaluateImpl p g) (.throws .runtimeError) none
  /-- nothing is promised about the outcome of `evaluate_impl` here, see C15 -/
  | evaluateImpl {f p g r} : Allowed env m (some f) (.evaluateImpl p g) r (some f)

/-- A history the specification allows. -/
inductive AllowedHistory {B : Type} (env : Env B) (m : Mdl) :
    Option (Fit B) → List (Op B) → List (Outcome (Res B)) → Option (Fit B) → Prop
  | nil {cur} : AllowedHistory env m cur [] [] cur
  | cons {cur op r mid ops rs fin} : Allowed env m cur op r mid → AllowedHistory env m mid ops rs fin →
      AllowedHistory env m cur (op :: ops) (r :: rs) fin

/-- An interpolant in a consistent state: without a fit it has no centers, with a fit the number of weights fits. -/
def State.Good {B : Type} (dim : Nat) (s : State B) : Prop :=
  (s.fitted = false → s.centers = [] ∧ s.gradCenters = []) ∧
  (s.fitted = true → (Fit.mk s.centers s.gradCenters s.bbox s.weights).Sized dim (basisSize dim s.model.polyDegree))

/-- Point arguments are separate objects, and the fitters keep their contracts: they do not crash, the numbers of
weights they return fit, and indices are in range. -/
def GoodOp {B : Type} (dim : Nat) (m : Mdl) : Op B → Prop
  | .fit p g _ _ _ _ _ _ init f => (∃ ps gs, p = .given ps ∧ g = .given gs) ∧
      (∀ o, init = .other o → o.Good dim) ∧
      ∀ ps gs v w0, f ps gs v w0 ≠ .ub ∧
        ∀ w, f ps gs v w0 = .ok w → w.length = ps.length + dim * gs.length + basisSize dim m.polyDegree
  | .fitIncrementally p g _ _ _ _ _ _ f => (∃ ps gs, p = .given ps ∧ g = .given gs) ∧
      ∀ ps gs v, f ps gs v ≠ .ub ∧ ∀ ci gi w, f ps gs v = .ok (ci, gi, w) →
        (∀ i ∈ ci, i < ps.length) ∧ (∀ i ∈ gi, i < gs.length) ∧
        w.length = ci.length + dim * gi.length + basisSize dim m.polyDegree
  | .fitInequality p _ _ _ _ _ _ init f => (∃ ps, p = .given ps) ∧
      (∀ o, init = .other o → o.Good dim) ∧
      ∀ ps v lb ub w0, f ps v lb ub w0 ≠ .ub ∧ ∀ ci w, f ps v lb ub w0 = .ok (ci, w) →
        (∀ i ∈ ci, i < ps.length) ∧ w.length = ci.length + basisSize dim m.polyDegree
  | _ => True

end Verif.Interpolant
