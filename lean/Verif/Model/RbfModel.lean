import Verif.Model.Outcome
import Mathlib.Data.List.Basic

/-!
# rbf/make_rbf.hpp, rbf/rbf_base.hpp, rbf/polyharmonic_*.hpp, rbf/covariance_function_base.hpp, model.hpp

The state of covariance functions and models.  A `double` is its IEEE-754 bit pattern.  The determinant test of
`set_anisotropy` is a parameter `detPos` (floating-point arithmetic is not modelled here).
Calls that may throw return the state they leave behind together with the outcome, so that "all or nothing" is a claim.
-/

namespace Verif.RbfModel

open Verif

/-- a `double`, by its bit pattern -/
abbrev Dbl := BitVec 64

def zero : Dbl := 0#64
def one : Dbl := 0x3FF0000000000000#64
def inf : Dbl := 0x7FF0000000000000#64

/-- the value is a NaN: all exponent bits set, fraction not zero -/
def isNaN (x : Dbl) : Bool := (x.extractLsb' 52 11 == 0x7FF#11) && !(x.extractLsb' 0 52 == 0#52)

/-- `x >= 0.0`: false for NaN, true for both zeros -/
def ge0 (x : Dbl) : Bool := !isNaN x && (!x.msb || x == 0x8000000000000000#64)

/-- The sixteen classes of `make_rbf.hpp:30-45`. -/
inductive Kind where
  | bh2 | bh3 | cub | exp | gau | gc3 | gc5 | gc7 | gc9 | sph | sp3 | sp5 | sp7 | sp9 | th2 | th3
  deriving DecidableEq, Repr

/-- in the order of `make_rbf.hpp:30-45` -/
def kinds : List Kind :=
  [.bh2, .bh3, .cub, .exp, .gau, .gc3, .gc5, .gc7, .gc9, .sph, .sp3, .sp5, .sp7, .sp9, .th2, .th3]

/-- `kShortName` of each class (e.g. `cov_cubic.hpp:17`). -/
def Kind.shortName : Kind → String
  | .bh2 => "bh2" | .bh3 => "bh3" | .cub => "cub" | .exp => "exp" | .gau => "gau" | .gc3 => "gc3" | .gc5 => "gc5"
  | .gc7 => "gc7" | .gc9 => "gc9" | .sph => "sph" | .sp3 => "sp3" | .sp5 => "sp5" | .sp7 => "sp7" | .sp9 => "sp9"
  | .th2 => "th2" | .th3 => "th3"

/-- `is_covariance_function()`: `covariance_function_base.hpp:19`, `rbf_base.hpp:61` -/
def Kind.isCov : Kind → Bool
  | .bh2 | .bh3 | .th2 | .th3 => false
  | _ => true

/-- The degree `K` of a polyharmonic class: `polyharmonic_even.hpp:109,127`, `polyharmonic_odd.hpp:103,121`. -/
def Kind.k : Kind → Int
  | .bh2 => 2 | .th2 => 4 | .bh3 => 1 | .th3 => 3 | _ => 0

/-- `cpd_order()`: `covariance_function_base.hpp:17`, `polyharmonic_even.hpp:31`, `polyharmonic_odd.hpp:31` -/
def Kind.cpdOrder : Kind → Int
  | .bh2 => Kind.k .bh2 / 2 + 1
  | .th2 => Kind.k .th2 / 2 + 1
  | .bh3 => (Kind.k .bh3 + 1) / 2
  | .th3 => (Kind.k .th3 + 1) / 2
  | _ => 0

/-- `num_parameters()`: `covariance_function_base.hpp:21`, `polyharmonic_even.hpp:75`, `polyharmonic_odd.hpp:69` -/
def Kind.numParameters (_ : Kind) : Nat := 2

/-- `parameter_names()`: `covariance_function_base.hpp:28-31`, `polyharmonic_even.hpp:82-85` -/
def Kind.parameterNames (k : Kind) : List String := if k.isCov then ["psill", "range"] else ["scale", "c"]

/-- `parameter_lower_bounds()`: `covariance_function_base.hpp:23-26` -/
def Kind.lowerBounds (_ : Kind) : List Dbl := [zero, zero]

/-- `parameter_upper_bounds()`: `covariance_function_base.hpp:33-37` -/
def Kind.upperBounds (_ : Kind) : List Dbl := [inf, inf]

/-- `rbf_base.hpp:99-100`; the anisotropy matrix by its entries. -/
structure Rbf where
  kind : Kind
  params : List Dbl
  aniso : List Dbl
  deriving DecidableEq

/-- `set_parameters(params)`: `rbf_base.hpp:81-87`, overridden by `polyharmonic_even.hpp:96-108` and
`polyharmonic_odd.hpp:90-102`. -/
def Rbf.setParameters (r : Rbf) (p : List Dbl) : Rbf × Outcome Unit :=
  let p' := if r.kind.isCov then p else
    match p with
    | [] => [one, zero]
    | [a] => [a, zero]
    | p => p
  if p'.length = r.kind.numParameters then ({ r with params := p' }, .ok ()) else (r, .throws .invalidArgument)

/-- `set_anisotropy(aniso)`: `rbf_base.hpp:73-79` -/
def Rbf.setAnisotropy (detPos : List Dbl → Bool) (r : Rbf) (a : List Dbl) : Rbf × Outcome Unit :=
  if detPos a then ({ r with aniso := a }, .ok ()) else (r, .throws .invalidArgument)

/-- A constructor call `RBF_NAME<Dim>(params)`; the anisotropy is the identity. -/
def newRbf (identity : List Dbl) (k : Kind) (p : List Dbl) : Outcome Rbf :=
  match Rbf.setParameters ⟨k, [], identity⟩ p with
  | (r, .ok ()) => .ok r
  | (_, .throws e) => .throws e
  | (_, .ub) => .ub

/-- `make_rbf.hpp:24-50` - the first class with that name. -/
def makeRbf (identity : List Dbl) (name : String) (p : List Dbl) : Outcome Rbf :=
  match kinds.find? (fun k => name == k.shortName) with
  | some k => newRbf identity k p
  | none => .throws .runtimeError

/-! ## Model -/

/-- `model.hpp:180-182` -/
structure Mdl where
  rbfs : List Rbf
  polyDegree : Int
  nugget : Dbl
  deriving DecidableEq

/-- `model.hpp:60-66` -/
def cpdOrder (rbfs : List Rbf) : Int := rbfs.foldl (fun o r => max o r.kind.cpdOrder) 0

/-- `model.hpp:30` -/
def kMinRequiredPolyDegree : Int := -2

/-- `model.hpp:35-51` -/
def newModel (rbfs : List Rbf) (polyDegree : Int) : Outcome Mdl :=
  if rbfs.isEmpty then .throws .invalidArgument
  else
    let minD := cpdOrder rbfs - 1
    let maxD : Int := 2
    if polyDegree = kMinRequiredPolyDegree then .ok ⟨rbfs, minD, zero⟩
    else if polyDegree ≥ minD ∧ polyDegree ≤ maxD then .ok ⟨rbfs, polyDegree, zero⟩
    else .throws .invalidArgument

/-- `model.hpp:70-77` -/
def Mdl.isCovarianceModel (m : Mdl) : Bool := m.rbfs.all (fun r => r.kind.isCov)

/-- `model.hpp:81-87` -/
def Mdl.numParameters (m : Mdl) : Nat := m.rbfs.foldl (fun np r => np + r.kind.numParameters) 1

/-- `model.hpp:91-98` -/
def Mdl.lowerBounds (m : Mdl) : List Dbl := m.rbfs.foldl (fun l r => l ++ r.kind.lowerBounds) [zero]

/-- `model.hpp:100-106` -/
def Mdl.parameterNames (m : Mdl) : List String := m.rbfs.foldl (fun l r => l ++ r.kind.parameterNames) ["nugget"]

/-- `model.hpp:108-115` -/
def Mdl.upperBounds (m : Mdl) : List Dbl := m.rbfs.foldl (fun l r => l ++ r.kind.upperBounds) [inf]

/-- `model.hpp:117-123` -/
def Mdl.parameters (m : Mdl) : List Dbl := m.rbfs.foldl (fun l r => l ++ r.params) [m.nugget]

/-- `model.hpp:135-141` -/
def Mdl.setNugget (m : Mdl) (n : Dbl) : Mdl × Outcome Unit :=
  if ge0 n then ({ m with nugget := n }, .ok ()) else (m, .throws .invalidArgument)

/-- `model.hpp:150-155` - the loop over the covariance functions; a throwing element ends it, keeping the changes made
so far. -/
def setRbfs (params : List Dbl) : Nat → List Rbf → List Rbf × Outcome Unit
  | _, [] => ([], .ok ())
  | i, r :: rs =>
      match r.setParameters ((params.drop i).take r.kind.numParameters) with
      | (r', .ok ()) =>
          let (rs', o) := setRbfs params (i + r.kind.numParameters) rs
          (r' :: rs', o)
      | (r', .throws e) => (r' :: rs, .throws e)
      | (r', .ub) => (r' :: rs, .ub)

/-- `model.hpp:143-156` -/
def Mdl.setParameters (m : Mdl) (p : List Dbl) : Mdl × Outcome Unit :=
  if p.length ≠ m.numParameters then (m, .throws .invalidArgument)
  else
    match p with
    | [] => (m, .throws .outOfRange)
    | p0 :: _ =>
        match m.setNugget p0 with
        | (m', .ok ()) =>
            let (rs, o) := setRbfs p 1 m'.rbfs
            ({ m' with rbfs := rs }, o)
        | (m', .throws e) => (m', .throws e)
        | (m', .ub) => (m', .ub)

/-- The mutating calls of the public interface of a model. `model.rbfs()[i].set_...` go through the non-const
accessor `model.hpp:131`. -/
inductive Op where
  | setNugget (n : Dbl)
  | setParameters (p : List Dbl)
  | rbfSetParameters (i : Nat) (p : List Dbl)
  | rbfSetAnisotropy (i : Nat) (a : List Dbl)

/-- One call (an exception is caught by the caller, who goes on using the object). -/
def Mdl.step (detPos : List Dbl → Bool) (m : Mdl) : Op → Mdl
  | .setNugget n => (m.setNugget n).1
  | .setParameters p => (m.setParameters p).1
  | .rbfSetParameters i p => { m with rbfs := m.rbfs.modify i (fun r => (r.setParameters p).1) }
  | .rbfSetAnisotropy i a => { m with rbfs := m.rbfs.modify i (fun r => (r.setAnisotropy detPos a).1) }

end Verif.RbfModel
