import Verif.Model.RbfModel
import Mathlib.Computability.RegularExpressions

/-!
# examples/common/make_model.hpp, examples/common/model_options.hpp: the model options of the commands

The tokens are what `boost::program_options` collects for `--rbf`.  The conversion of a number (`numeric::to_double`) and the test of the
determinant are parameters.  `std::regex_match` is membership in the language of the regular expression.
-/

namespace Verif.MakeModel

open Verif RbfModel
open RegularExpression (char)

abbrev Re := RegularExpression Char

/-- a character class -/
def cls (s : String) : Re := s.toList.foldr (fun c r => RegularExpression.char c + r) 0

def digits : String := "0123456789"
def letters : String := "ABCDEFGHIJKLMNOPQRSTUVWXYZ_abcdefghijklmnopqrstuvwxyz"
def word : String := "0123456789ABCDEFGHIJKLMNOPQRSTUVWXYZ_abcdefghijklmnopqrstuvwxyz"

/-- `r?` -/
def opt (r : Re) : Re := 1 + r

/-- `r+` -/
def plus (r : Re) : Re := r * r.star

/-- `make_model.hpp:15` - `[A-Z_a-z][0-9A-Z_a-z]*` -/
def reIdentifier : Re := cls letters * (cls word).star

/-- `make_model.hpp:21` - `-?([0-9]+\.?|[0-9]*\.[0-9]+)([Ee][+-]?[0-9]+)?` -/
def reNumber : Re :=
  opt (char '-') * ((plus (cls digits) * opt (char '.') + (cls digits).star * char '.' * plus (cls digits)) *
    opt (cls "Ee" * opt (cls "+-") * plus (cls digits)))

/-- `make_model.hpp:14-18` -/
def isIdentifier (token : String) : Bool := reIdentifier.rmatch token.toList

/-- `make_model.hpp:20-24` -/
def isNumber (token : String) : Bool := reNumber.rmatch token.toList

/-- What the conversions are: the number of a token, the test of the determinant, the identity matrix of the dimension. -/
structure Env where
  dim : Nat
  toDouble : String → Dbl
  detPos : List Dbl → Bool
  identity : List Dbl

variable (E : Env)

/-- `make_model.hpp:51-54` - the numbers after a name -/
def readParams : List String → List Dbl × List String
  | [] => ([], [])
  | t :: it =>
      if isNumber t then
        let (ps, it') := readParams it
        (E.toDouble t :: ps, it')
      else ([], t :: it)

/-- `make_model.hpp:62-69` - the loop over `Dim * Dim` numbers; `throw_unexpected_input` throws a runtime error (`make_model.hpp:26-33`). -/
def readAniso : Nat → List String → Outcome (List Dbl × List String)
  | 0, it => .ok ([], it)
  | n + 1, it =>
      match it with
      | [] => .throws .runtimeError
      | t :: it' =>
          if isNumber t then do
            let (xs, rest) ← readAniso n it'
            Outcome.ok (E.toDouble t :: xs, rest)
          else .throws .runtimeError

/-- the call of `set_anisotropy` -/
def setAniso (r : Rbf) (a : List Dbl) : Outcome Rbf :=
  match r.setAnisotropy E.detPos a with
  | (r', .ok ()) => .ok r'
  | (_, .throws e) => .throws e
  | (_, .ub) => .ub

/-- `make_model.hpp:58-75` - the loop over the anisotropies; `fuel` bounds its turns, `ub` if exceeded. -/
def readAnisos : Nat → Rbf → List String → Outcome (Rbf × List String)
  | 0, _, _ => .ub
  | fuel + 1, r, it =>
      match it with
      | [] => .ok (r, [])
      | t :: it' =>
          if t = "aniso" then do
            let (a, rest) ← readAniso E (E.dim * E.dim) it'
            let r' ← setAniso E r a
            readAnisos fuel r' rest
          else .ok (r, t :: it')

/-- `make_model.hpp:47-78` - the loop over the functions; the functions and what is left -/
def readRbfs : Nat → List String → Outcome (List Rbf × List String)
  | 0, _ => .ub
  | fuel + 1, it =>
      match it with
      | [] => .ok ([], [])
      | t :: it' =>
          if isIdentifier t then do
            let r ← makeRbf E.identity t (readParams E it').1
            let (r', rest) ← readAnisos E ((readParams E it').2.length + 1) r (readParams E it').2
            let (rs, rest') ← readRbfs fuel rest
            Outcome.ok (r' :: rs, rest')
          else .ok ([], t :: it')

/-- `model_options.hpp:7-11` -/
structure Options where
  rbfArgs : List String
  nugget : Dbl
  polyDegree : Int

/-- the call of `set_nugget` -/
def withNugget (m : Mdl) (n : Dbl) : Outcome Mdl :=
  match m.setNugget n with
  | (m', .ok ()) => .ok m'
  | (_, .throws e) => .throws e
  | (_, .ub) => .ub

/-- `make_model.hpp:35-85` -/
def makeModel (opts : Options) : Outcome Mdl := do
  let (rbfs, it) ← readRbfs E (opts.rbfArgs.length + 1) opts.rbfArgs
  if it ≠ [] then Outcome.throws .runtimeError
  else do
    let m ← newModel rbfs opts.polyDegree
    withNugget m opts.nugget

end Verif.MakeModel
