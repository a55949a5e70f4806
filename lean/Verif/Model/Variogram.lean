import Verif.Model.Outcome
import Mathlib.Data.Real.Sqrt
import Mathlib.Data.Fin.VecNotation
import Mathlib.Algebra.Order.Floor.Ring
import Mathlib.Algebra.BigOperators.Fin
import Mathlib.Analysis.SpecialFunctions.Trigonometric.Basic

/-!
# kriging/variogram_builder.hpp, variogram_calculator.hpp

Doubles are real numbers.  A schedule of the parallel loop is a list with, for every thread, the list of the outer loop
indices the thread runs, threads being listed in the order in which they enter the critical section.
-/

namespace Verif.Variogram

open Verif BigOperators

variable {dim : Nat}

/-- `geometry/point3d.hpp` - points and vectors -/
abbrev Vec (dim : Nat) := Fin dim → ℝ

/-- `squaredNorm()` -/
def sqNorm (v : Vec dim) : ℝ := ∑ k, v k * v k

/-- `norm()` -/
noncomputable def norm (v : Vec dim) : ℝ := Real.sqrt (sqNorm v)

/-- `u * v.transpose()` -/
def dot (u v : Vec dim) : ℝ := ∑ k, u k * v k

/-- `variogram_builder.hpp:91-98` -/
structure Builder (dim : Nat) where
  lag : ℝ
  tol : ℝ
  numLags : Int
  direction : Vec dim
  binDistance : List ℝ
  binGamma : List ℝ
  binNumPairs : List Nat

/-- `variogram_builder.hpp:22-32` - `resize` of a negative number throws (it is converted to a huge size). -/
def Builder.new (lag tol : ℝ) (numLags : Int) (direction : Vec dim) : Outcome (Builder dim) :=
  if numLags < 0 then .throws .lengthError
  else .ok ⟨lag, tol, numLags, direction, List.replicate numLags.toNat 0, List.replicate numLags.toNat 0,
    List.replicate numLags.toNat 0⟩

/-- `static_cast<Index>` of an integral double: undefined out of range. -/
def toIndex (z : Int) : Outcome Int := if -2 ^ 63 ≤ z ∧ z < 2 ^ 63 then .ok z else .ub

/-- `v.at(i) op= ...` -/
def updateAt (l : List α) (i : Nat) (f : α → α) : Outcome (List α) :=
  if i < l.length then .ok (l.modify i f) else .throws .outOfRange

/-- `variogram_builder.hpp:45-49`, one iteration -/
noncomputable def Builder.addToBin (b : Builder dim) (dist gamma : ℝ) (bin : Nat) : Outcome (Builder dim) := do
  let ds ← updateAt b.binDistance bin (fun x => x + dist)
  let gs ← updateAt b.binGamma bin (fun x => x + gamma)
  let ns ← updateAt b.binNumPairs bin (fun x => x + 1)
  return { b with binDistance := ds, binGamma := gs, binNumPairs := ns }

/-- `for` over a list of indices with a state -/
def forEach (f : σ → ι → Outcome σ) : List ι → σ → Outcome σ
  | [], s => .ok s
  | i :: is, s => do
      let s' ← f s i
      forEach f is s'

/-- `variogram_builder.hpp:34-50` - with lag distance 0 the inverse is infinite and the conversion to `Index` undefined. -/
noncomputable def Builder.addPair (b : Builder dim) (pi pj : Vec dim) (vi vj : ℝ) : Outcome (Builder dim) :=
  open Classical in
  if b.lag = 0 then .ub
  else do
    let dist := norm (pj - pi)
    let incr := vj - vi
    let gamma := 0.5 * (incr * incr)
    let inv := 1 / b.lag
    let first ← toIndex ⌈inv * (dist - b.tol)⌉
    let last ← toIndex ⌊inv * (dist + b.tol)⌋
    let first := max first 0
    let last := min last (b.numLags - 1)
    forEach (fun b bin => b.addToBin dist gamma bin) (List.range' first.toNat (last + 1 - first).toNat) b

/-- `variogram.hpp:48-51` -/
structure Vario (dim : Nat) where
  binDistance : List ℝ
  binGamma : List ℝ
  binNumPairs : List Nat
  direction : Vec dim

/-- `variogram_builder.hpp:53-71` - the loop over the three vectors -/
noncomputable def compact : List ℝ → List ℝ → List Nat → List ℝ × List ℝ × List Nat
  | d :: ds, g :: gs, n :: ns =>
      if n = 0 then compact ds gs ns
      else
        let r := compact ds gs ns
        (d / n :: r.1, g / n :: r.2.1, n :: r.2.2)
  | ds, gs, _ => (ds, gs, [])

/-- `variogram_builder.hpp:52-75` -/
noncomputable def Builder.intoVariogram (b : Builder dim) : Vario dim :=
  let r := compact b.binDistance b.binGamma b.binNumPairs
  ⟨r.1, r.2.1, r.2.2, b.direction⟩

/-- `variogram_builder.hpp:83-87`, one iteration -/
noncomputable def Builder.mergeBin (other : Builder dim) (b : Builder dim) (i : Nat) : Outcome (Builder dim) :=
  match other.binDistance[i]?, other.binGamma[i]?, other.binNumPairs[i]? with
  | some d, some g, some n => do
      let ds ← updateAt b.binDistance i (fun x => x + d)
      let gs ← updateAt b.binGamma i (fun x => x + g)
      let ns ← updateAt b.binNumPairs i (fun x => x + n)
      return { b with binDistance := ds, binGamma := gs, binNumPairs := ns }
  | _, _, _ => .throws .outOfRange

/-- `variogram_builder.hpp:77-88` - the assertions are compiled out in a release build. -/
noncomputable def Builder.merge (b other : Builder dim) : Outcome (Builder dim) :=
  forEach (mergeBin other) (List.range b.numLags.toNat) b

/-- `variogram_calculator.hpp:28-29` -/
def kAutomatic : ℝ := -1

/-- `variogram_calculator.hpp:136-140` -/
structure Calculator (dim : Nat) where
  lag : ℝ
  numLags : Int
  lagTol : ℝ
  directions : List (Vec dim)
  angleTol : ℝ

/-- `variogram_calculator.hpp:34-35, 136-140` - `kIsotropicDirections` is the unit vector in the first coordinate
(`src/kriging/variogram_calculator.cpp:6, 12, 20`). -/
def Calculator.new (lag : ℝ) (numLags : Int) : Calculator dim :=
  ⟨lag, numLags, kAutomatic, [fun k => if k.val = 0 then 1 else 0], kAutomatic⟩

/-- `variogram_calculator.hpp:111-117` - `none` is NaN -/
noncomputable def Calculator.setAngleTolerance (c : Calculator dim) (x : Option ℝ) : Calculator dim × Outcome Unit :=
  open Classical in
  match x with
  | none => (c, .throws .invalidArgument)
  | some x => if x ≠ kAutomatic ∧ ¬ x > 0 then (c, .throws .invalidArgument) else ({ c with angleTol := x }, .ok ())

/-- Eigen's `normalized()`: a zero vector is left alone. -/
noncomputable def normalized (v : Vec dim) : Vec dim :=
  open Classical in
  if sqNorm v > 0 then fun k => v k / norm v else v

/-- `variogram_calculator.hpp:119-125` -/
noncomputable def Calculator.setDirections (c : Calculator dim) (ds : List (Vec dim)) : Calculator dim × Outcome Unit :=
  if ds.length = 0 then (c, .throws .invalidArgument)
  else ({ c with directions := ds.map normalized }, .ok ())

/-- `variogram_calculator.hpp:127-133` -/
noncomputable def Calculator.setLagTolerance (c : Calculator dim) (x : Option ℝ) : Calculator dim × Outcome Unit :=
  open Classical in
  match x with
  | none => (c, .throws .invalidArgument)
  | some x => if x ≠ kAutomatic ∧ ¬ x > 0 then (c, .throws .invalidArgument) else ({ c with lagTol := x }, .ok ())

/-- `variogram_calculator.hpp:42-43` -/
noncomputable def Calculator.lagTolerance (c : Calculator dim) : ℝ :=
  open Classical in
  if c.lagTol = kAutomatic then 0.5 * c.lag else c.lagTol

/-- `variogram_calculator.hpp:44-46` -/
noncomputable def Calculator.sqCos (c : Calculator dim) : ℝ :=
  open Classical in
  if c.angleTol = kAutomatic then 0 else Real.cos c.angleTol ^ 2

/-- `variogram_calculator.hpp:72-86` - the directions a pair is counted in.  `argmax` is Eigen's `maxCoeff(&k)`, of which
only is known that it returns the position of a largest entry. -/
noncomputable def Calculator.selected (c : Calculator dim) (argmax : List ℝ → Nat) (dir : Vec dim) : List Nat :=
  open Classical in
  let sq := c.directions.map (fun u => dot dir u ^ 2)
  if c.angleTol = kAutomatic then [argmax sq]
  else
    (List.range c.directions.length).filter (fun k =>
      decide (sq.getD k 0 ≥ sqNorm dir * c.sqCos))

/-- `builders.at(k)` updated by a call -/
def updateBuilder (bs : List (Builder dim)) (k : Nat) (f : Builder dim → Outcome (Builder dim)) :
    Outcome (List (Builder dim)) :=
  match bs[k]? with
  | none => .throws .outOfRange
  | some b => do
      let b' ← f b
      return bs.set k b'

/-- `variogram_calculator.hpp:67-87` - one pair -/
noncomputable def Calculator.pair (c : Calculator dim) (argmax : List ℝ → Nat) (pts : List (Vec dim)) (vals : List ℝ)
    (i : Nat) (bs : List (Builder dim)) (j : Nat) : Outcome (List (Builder dim)) := do
  let pi ← Outcome.get pts i
  let vi ← Outcome.get vals i
  let pj ← Outcome.get pts j
  let vj ← Outcome.get vals j
  forEach (fun bs k => updateBuilder bs k (fun b => b.addPair pi pj vi vj)) (c.selected argmax (pj - pi)) bs

/-- `variogram_calculator.hpp:63-88` - one iteration of the parallel loop -/
noncomputable def Calculator.row (c : Calculator dim) (argmax : List ℝ → Nat) (pts : List (Vec dim)) (vals : List ℝ)
    (bs : List (Builder dim)) (i : Nat) : Outcome (List (Builder dim)) :=
  forEach (c.pair argmax pts vals i) (List.range' (i + 1) (pts.length - (i + 1))) bs

/-- `variogram_calculator.hpp:48-51, 55-58` -/
noncomputable def Calculator.builders (c : Calculator dim) : Outcome (List (Builder dim)) :=
  Outcome.traverse (Builder.new c.lag c.lagTolerance c.numLags) c.directions

/-- `variogram_calculator.hpp:90-93` -/
noncomputable def mergeAll (nd : Nat) (bs locals : List (Builder dim)) : Outcome (List (Builder dim)) :=
  forEach (fun bs k => match locals[k]? with
    | none => .throws .outOfRange
    | some l => updateBuilder bs k (fun b => b.merge l)) (List.range nd) bs

/-- `variogram_calculator.hpp:53-94` - one thread -/
noncomputable def Calculator.thread (c : Calculator dim) (argmax : List ℝ → Nat) (pts : List (Vec dim)) (vals : List ℝ)
    (bs : List (Builder dim)) (rows : List Nat) : Outcome (List (Builder dim)) := do
  let l0 ← c.builders
  let l ← forEach (c.row argmax pts vals) rows l0
  mergeAll c.directions.length bs l

/-- `variogram_calculator.hpp:96-102` - `num_pairs()` (`variogram.hpp:40`) is the sum of the pair counts. -/
noncomputable def collect (bs : List (Builder dim)) : List (Vario dim) :=
  (bs.map Builder.intoVariogram).filter (fun v => v.binNumPairs.sum != 0)

/-- `variogram_calculator.hpp:39-105` -/
noncomputable def Calculator.calculate (c : Calculator dim) (argmax : List ℝ → Nat) (pts : List (Vec dim))
    (vals : List ℝ) (schedule : List (List Nat)) : Outcome (List (Vario dim)) := do
  let bs ← c.builders
  let bs ← forEach (c.thread argmax pts vals) schedule bs
  return collect bs

end Verif.Variogram
