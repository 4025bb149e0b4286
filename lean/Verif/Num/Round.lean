import Verif.Num.Fl
import Mathlib.Data.Int.Log
import Mathlib.Algebra.Order.Round

/-!
# Rounding to double precision

`fl64` is IEEE-754 round-to-nearest-even from the reals to binary64, with overflow to infinity. It
is used where overflow decides the result (`hyperpe.log_likelihood_ratio`).
-/

noncomputable section

open Classical

namespace GW

namespace Fl

/-- Round to the nearest integer, ties to the even one. -/
def roundEven (x : ℝ) : ℤ :=
  if Int.fract x < 1 / 2 then ⌊x⌋
  else if 1 / 2 < Int.fract x then ⌊x⌋ + 1
  else if Even ⌊x⌋ then ⌊x⌋ else ⌊x⌋ + 1

/-- The exponent of the unit in the last place of a double near `x`: 52 below the binary exponent,
and not below -1074 (subnormal numbers). -/
def ulpExp (x : ℝ) : ℤ := max (Int.log 2 |x| - 52) (-1074)

/-- `x` rounded to the 53 significant bits of a double, without regard to overflow. -/
def round53 (x : ℝ) : ℝ := roundEven (x / 2 ^ ulpExp x) * 2 ^ ulpExp x

/-- Conversion of a real number to the nearest double; infinity on overflow. -/
def fl64 (x : ℝ) : Fl :=
  if bigR < round53 x then pinf else if round53 x < -bigR then ninf else fin (round53 x)

/-- The nearest double of the finite values; special values stay. -/
def toDouble : Fl → Fl
  | fin r => fl64 r
  | x => x

end Fl

end GW
