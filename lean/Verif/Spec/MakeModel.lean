import Verif.Model.MakeModel
import Verif.Lemmas.Double

/-!
# The language of the model options
-/

namespace Verif.MakeModel

open Verif RbfModel

/-- A name: a letter or underscore, then letters, digits and underscores. -/
def IsName (t : String) : Prop := ∃ c cs, t.toList = c :: cs ∧ (c.isAlpha = true ∨ c = '_') ∧ ∀ x ∈ cs, x.isAlphanum = true ∨ x = '_'

/-- only digits -/
def Digits (cs : List Char) : Prop := ∀ c ∈ cs, c.isDigit = true

/-- A number: perhaps a minus sign, digits with at most one point (at least one digit), perhaps an exponent. -/
def IsNumeral (t : String) : Prop :=
  ∃ sign whole point fraction exponent, t.toList = sign ++ whole ++ point ++ fraction ++ exponent ∧
    (sign = [] ∨ sign = ['-']) ∧ Digits whole ∧ Digits fraction ∧ (whole ≠ [] ∨ fraction ≠ []) ∧
    (point = ['.'] ∨ point = [] ∧ fraction = []) ∧
    (exponent = [] ∨ ∃ e s ds, exponent = e :: s ++ ds ∧ (e = 'E' ∨ e = 'e') ∧ (s = [] ∨ s = ['+'] ∨ s = ['-']) ∧ Digits ds ∧ ds ≠ [])

/-- One function as it is written: a name, parameters, anisotropies. -/
structure Group where
  name : String
  params : List String
  anisos : List (List String)

/-- the tokens of a function -/
def Group.tokens (g : Group) : List String := g.name :: g.params ++ g.anisos.flatMap fun a => "aniso" :: a

/-- It is well-formed in dimension `d`. -/
structure Group.WellFormed (d : Nat) (g : Group) : Prop where
  params : ∀ t ∈ g.params, IsNumeral t
  anisos : ∀ a ∈ g.anisos, a.length = d * d ∧ ∀ t ∈ a, IsNumeral t

/-- The function it stands for: the class with the name; two parameters, where polyharmonic functions may leave out the second (zero) or both (one and
zero); the last anisotropy, or the identity, all with a positive determinant. -/
structure Group.Means (E : Env) (g : Group) (r : Rbf) : Prop where
  name : g.name = r.kind.shortName
  params : r.params = g.params.map E.toDouble ∧ g.params.length = 2 ∨
    r.kind.isCov = false ∧ (g.params = [] ∧ r.params = [one, zero] ∨ ∃ t, g.params = [t] ∧ r.params = [E.toDouble t, zero])
  aniso : r.aniso = (g.anisos.map fun a => a.map E.toDouble).getLastD E.identity
  positive : ∀ a ∈ g.anisos, E.detPos (a.map E.toDouble) = true

/-- The options stand for the model: the functions in order, the degree of the trend as given or the least possible one, the nugget. -/
def Meaning (E : Env) (opts : Options) (m : Mdl) : Prop :=
  ∃ gs : List Group, opts.rbfArgs = gs.flatMap Group.tokens ∧ gs ≠ [] ∧ (∀ g ∈ gs, g.WellFormed E.dim) ∧ List.Forall₂ (Group.Means E) gs m.rbfs ∧
    (opts.polyDegree = -2 ∧ m.polyDegree = cpdOrder m.rbfs - 1 ∨ opts.polyDegree = m.polyDegree ∧ cpdOrder m.rbfs - 1 ≤ m.polyDegree ∧ m.polyDegree ≤ 2) ∧
    m.nugget = opts.nugget ∧ Dbl.NonNegative opts.nugget

end Verif.MakeModel
