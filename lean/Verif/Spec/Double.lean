import Mathlib.Data.EReal.Basic
import Mathlib.Tactic.Positivity
import Mathlib.Tactic.Ring
import Mathlib.Tactic.NormNum

/-!
# The value of a bit pattern as a number in the format binary64 of IEEE 754
-/

namespace Verif.Dbl

/-- sign bit, exponent and fraction of a bit pattern -/
def sign (x : BitVec 64) : Nat := x.toNat / 2 ^ 63
def exponent (x : BitVec 64) : Nat := x.toNat / 2 ^ 52 % 2 ^ 11
def fraction (x : BitVec 64) : Nat := x.toNat % 2 ^ 52

/-- The absolute value of a finite number, in units of 2 ^ -1074: a subnormal number is its fraction, a normal one has a leading one before it and is shifted by its exponent. -/
def magnitude (x : BitVec 64) : Nat := if exponent x = 0 then fraction x else (2 ^ 52 + fraction x) * 2 ^ (exponent x - 1)

/-- The number, infinity, or `none` for NaN. -/
noncomputable def value (x : BitVec 64) : Option EReal :=
  if exponent x = 2047 then (if fraction x = 0 then some (if sign x = 0 then ⊤ else ⊥) else none)
  else some (((if sign x = 0 then (magnitude x : ℝ) else -(magnitude x : ℝ)) * 2 ^ (-1074 : ℤ) : ℝ) : EReal)

/-- `x > 0` -/
def Positive (x : BitVec 64) : Prop := ∃ v, value x = some v ∧ 0 < v

/-- `x >= 0` -/
def NonNegative (x : BitVec 64) : Prop := ∃ v, value x = some v ∧ 0 ≤ v

/-- `x == y` -/
def Equal (x y : BitVec 64) : Prop := ∃ v, value x = some v ∧ value y = some v

end Verif.Dbl
