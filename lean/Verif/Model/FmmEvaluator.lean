import Verif.Model.FmmConfig
import Mathlib.Algebra.BigOperators.Fin
import Mathlib.Data.Real.Basic

/-!
# src/fmm/fmm_evaluator.hpp, fmm_symmetric_evaluator.hpp, direct_evaluator.hpp, spheroidal_evaluator.hpp, full_direct.hpp

The kernel is an arbitrary function giving a `kn × km` block for two (transformed) positions.  The fast method itself
(`scalfmm`), the sorting of the particles along a space-filling curve, and the search for a configuration (modelled in
`FmmConfig.lean`) are arbitrary functions here; sorting is a permutation.  Interpolators are determined by their configuration
and are not modelled.  Doubles are real numbers.
-/

namespace Verif.Fmm

open Verif FmmConfig

variable {Pos : Type} {km kn : Nat}

/-- `fmm_evaluator.hpp:42-46` - a source particle: position, inputs, and the index of the point as a variable. -/
structure Src (Pos : Type) (km : Nat) where
  pos : Pos
  inputs : Fin km → ℝ
  idx : Nat

/-- `fmm_evaluator.hpp:48-52` - a target particle. -/
structure Trg (Pos : Type) (kn : Nat) where
  pos : Pos
  outputs : Fin kn → ℝ
  idx : Nat

/-- What the evaluator is built from: the kernel, the transformation by the anisotropy of the covariance function, the
number of points at which trees get deeper, the sorting of the particles for a level, the search for a configuration, and the
fast method, which gives the outputs of every target particle. -/
structure Env (Pos : Type) (km kn : Nat) where
  kernel : Pos → Pos → Fin kn → Fin km → ℝ
  transform : Pos → Pos
  treeHeight : Nat → Nat
  sortSrc : Nat → List (Src Pos km) → List (Src Pos km)
  sortTrg : Nat → List (Trg Pos kn) → List (Trg Pos kn)
  find : Option EReal → List (Src Pos km) → Nat → Outcome Config
  fast : Config → Nat → List (Src Pos km) → List (Trg Pos kn) → List (Trg Pos kn)

/-- `fmm_evaluator.hpp:274-294` -/
structure State (Pos : Type) (km kn : Nat) where
  accuracy : Option EReal
  src : List (Src Pos km)
  trg : List (Trg Pos kn)
  srcLevel : Nat
  trgLevel : Nat
  config : Config
  srcTree : Option (List (Src Pos km))
  trgTree : Option (List (Trg Pos kn))
  bestConfig : Nat → Option Config

/-- `InterpolatorConfiguration{}` -/
def Config.zero : Config := ⟨0, 0, 0⟩

/-- `fmm_evaluator.hpp:76-81, 280-294` - a new evaluator. -/
noncomputable def State.new : State Pos km kn := ⟨some ⊤, [], [], 0, 0, Config.zero, none, none, fun _ => none⟩

/-- `fmm_evaluator.hpp:120-124` -/
def setAccuracy (a : Option EReal) (s : State Pos km kn) : State Pos km kn :=
  { s with accuracy := a, bestConfig := fun _ => none }

/-- `fmm_evaluator.hpp:126-145` - `resize` keeps the particles it has, so their inputs survive. -/
def setSourcePoints (e : Env Pos km kn) (points : List Pos) (s : State Pos km kn) : State Pos km kn :=
  { s with
    src := points.zipIdx.map (fun p => ⟨e.transform p.1, (s.src[p.2]?.map Src.inputs).getD 0, p.2⟩)
    srcLevel := 0
    srcTree := none
    bestConfig := fun _ => none }

/-- `fmm_evaluator.hpp:147-164` -/
def setTargetPoints (e : Env Pos km kn) (points : List Pos) (s : State Pos km kn) : State Pos km kn :=
  { s with
    trg := points.zipIdx.map (fun p => ⟨e.transform p.1, (s.trg[p.2]?.map Trg.outputs).getD 0, p.2⟩)
    trgLevel := 0
    trgTree := none }

/-- `fmm_evaluator.hpp:166-192` - the weights go to the particles, or to the tree if there is one. -/
def setWeights (w : Nat → Fin km → ℝ) (s : State Pos km kn) : State Pos km kn :=
  match s.srcTree with
  | none => { s with src := s.src.map (fun p => { p with inputs := w p.idx }) }
  | some t => { s with srcTree := some (t.map (fun p => { p with inputs := w p.idx })) }

/-- `full_direct.hpp:32-53` -/
noncomputable def fullDirect (e : Env Pos km kn) (src : List (Src Pos km)) (trg : List (Trg Pos kn)) : List (Trg Pos kn) :=
  trg.map (fun p => { p with
    outputs := src.foldl (fun out q => fun i => out i + ∑ j, q.inputs j * e.kernel p.pos q.pos i j) p.outputs })

/-- `reset_outputs` -/
def resetOutputs (trg : List (Trg Pos kn)) : List (Trg Pos kn) := trg.map (fun p => { p with outputs := 0 })

/-- `fmm_evaluator.hpp:205-231` - the outputs are written at the index of the particle. -/
def potentials (trg : List (Trg Pos kn)) : Nat → Fin kn → ℝ :=
  trg.foldl (fun v p => Function.update v p.idx p.outputs) 0

/-- `fmm_evaluator.hpp:195-203` - `try_emplace` inserts an empty configuration before the search, which may throw. -/
def findBest (e : Env Pos km kn) (s : State Pos km kn) (h : Nat) : State Pos km kn × Outcome Config :=
  match s.bestConfig h with
  | some c => (s, .ok c)
  | none =>
      let s := { s with bestConfig := Function.update s.bestConfig h (some Config.zero) }
      match e.find s.accuracy s.src h with
      | .ok c => ({ s with bestConfig := Function.update s.bestConfig h (some c) }, .ok c)
      | .throws err => (s, .throws err)
      | .ub => (s, .ub)

/-- `fmm_evaluator.hpp:233-272` -/
def prepare (e : Env Pos km kn) (s : State Pos km kn) : State Pos km kn × Outcome Unit :=
  if s.src.length * s.trg.length < 1024 * 1024 then
    ({ s with srcTree := none, trgTree := none, config := Config.zero }, .ok ())
  else
    let h := e.treeHeight (max s.src.length s.trg.length)
    let s := if s.srcLevel < h - 1 then { s with src := e.sortSrc (h - 1) s.src, srcLevel := h - 1 } else s
    let s := if s.trgLevel < h - 1 then { s with trg := e.sortTrg (h - 1) s.trg, trgLevel := h - 1 } else s
    match findBest e s h with
    | (s, .throws err) => (s, .throws err)
    | (s, .ub) => (s, .ub)
    | (s, .ok config) =>
        let s := if config ≠ s.config then { s with srcTree := none, trgTree := none, config := config } else s
        let s := match s.srcTree with | none => { s with srcTree := some s.src } | some _ => s
        let s := match s.trgTree with | none => { s with trgTree := some s.trg } | some _ => s
        (s, .ok ())

/-- `fmm_evaluator.hpp:83-118` - the result and the evaluator afterwards; dereferencing a tree that is not there would be
undefined. -/
noncomputable def evaluate (e : Env Pos km kn) (s : State Pos km kn) : State Pos km kn × Outcome (Nat → Fin kn → ℝ) :=
  match prepare e s with
  | (s, .throws err) => (s, .throws err)
  | (s, .ub) => (s, .ub)
  | (s, .ok ()) =>
      if 0 < s.config.treeHeight then
        match s.srcTree, s.trgTree with
        | some st, some tt =>
            let tt := e.fast s.config (e.treeHeight (max s.src.length s.trg.length)) st (resetOutputs tt)
            ({ s with srcTree := none, trgTree := none }, .ok (potentials tt))
        | _, _ => (s, .ub)
      else
        let trg := fullDirect e s.src (resetOutputs s.trg)
        ({ s with trg := trg, srcTree := none, trgTree := none }, .ok (potentials trg))

/-- The public calls. -/
inductive Op (Pos : Type) (km : Nat) where
  | accuracy (a : Option EReal)
  | source (points : List Pos)
  | target (points : List Pos)
  | weights (w : Nat → Fin km → ℝ)
  | evaluate

/-- The effect of a call on the evaluator; an exception thrown by `evaluate` is caught by the caller. -/
noncomputable def Op.run (e : Env Pos km kn) (s : State Pos km kn) : Op Pos km → State Pos km kn
  | .accuracy a => setAccuracy a s
  | .source p => setSourcePoints e p s
  | .target p => setTargetPoints e p s
  | .weights w => setWeights w s
  | .evaluate => (Fmm.evaluate e s).1

/-! ## The evaluator for kernels of finite support (`direct_evaluator.hpp`) -/

/-- `direct_evaluator.hpp:59-65` - one source is added to the outputs at `t`; `src_particles_.at` checks the index. -/
noncomputable def directStep (kernel : Pos → Pos → Fin kn → Fin km → ℝ) (src : List Pos) (w : Nat → Fin km → ℝ) (t : Pos)
    (out : Fin kn → ℝ) (j : Nat) : Outcome (Fin kn → ℝ) :=
  match src[j]? with
  | none => .throws .outOfRange
  | some q => .ok (fun i => out i + ∑ c, w j c * kernel t q i c)

/-- `direct_evaluator.hpp:42-68` - the value at one target (transformed position `t`): only the sources reported by
`radius_search` for the support radius are added, in the order reported. -/
noncomputable def directEvaluate (kernel : Pos → Pos → Fin kn → Fin km → ℝ) (search : Pos → List Nat) (src : List Pos)
    (w : Nat → Fin km → ℝ) (t : Pos) : Outcome (Fin kn → ℝ) :=
  (search t).foldlM (directStep kernel src w t) 0

/-- `spheroidal_evaluator.hpp:24-29` - the sum of the two parts. -/
def spheroidalEvaluate (direct fast : Fin kn → ℝ) : Fin kn → ℝ := 0 + direct + fast

/-! ## The symmetric evaluator (`fmm_symmetric_evaluator.hpp`, without the fast method) -/

/-- `full_direct.hpp:7-30` followed by `fmm_symmetric_evaluator.hpp:168-203` - direct summation over the other particles, then
the self interaction, with the kernel at two equal positions `o`. -/
noncomputable def symmetricDirect (kernel : Pos → Pos → Fin kn → Fin km → ℝ) (o : Pos) (ps : List (Src Pos km)) :
    List (Trg Pos kn) :=
  ps.zipIdx.map (fun p =>
    let sum : Fin kn → ℝ := ps.zipIdx.foldl (fun out q =>
      if q.2 = p.2 then out else fun i => out i + ∑ j, q.1.inputs j * kernel p.1.pos q.1.pos i j) 0
    ⟨p.1.pos, fun i => sum i + ∑ j, p.1.inputs j * kernel o o i j, p.1.idx⟩)

end Verif.Fmm
