import Verif.Prelude
import Mathlib.Data.Int.Log
import Mathlib.Algebra.Order.Floor.Ring

/-!
# Python's `float`

The result of an operation on floats is the exact result rounded to the nearest number with 53 significant
bits and an exponent of at least -1074, and to the one with an even last digit in case of a tie (IEEE 754
binary64, which CPython uses on all usual platforms). Simplified: exponents are not bounded from above, and
there are no signed zeros, infinities and NaN.
-/

namespace Evogil.Binary64

variable {K : Type*} [Field K] [LinearOrder K] [IsStrictOrderedRing K] [FloorRing K]

/-- The nearest integer, the even one in case of a tie (IEEE 754, `roundTiesToEven`). -/
def roundEven (x : K) : ℤ :=
  if x - ⌊x⌋ < 1 / 2 then ⌊x⌋
  else if 1 / 2 < x - ⌊x⌋ then ⌊x⌋ + 1
  else if ⌊x⌋ % 2 = 0 then ⌊x⌋
  else ⌊x⌋ + 1

/-- The exponent of the last of the 53 digits of a positive number. -/
def lastDigit (x : K) : ℤ := max (Int.log 2 x) (-1022) - 52

/-- Rounding of numbers that are not negative. -/
def roundPos (x : K) : K := roundEven (x / (2 : K) ^ lastDigit x) * (2 : K) ^ lastDigit x

/-- The float nearest to a number, for the results of the operations on floats all over /repo (for instance
`algorithms/base/drivertools.py:10-116`) and for the literals of the sources. -/
def round64 (x : K) : K := if x < 0 then -roundPos (-x) else roundPos x

end Evogil.Binary64
