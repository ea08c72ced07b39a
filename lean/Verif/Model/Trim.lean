import Mathlib.Algebra.Order.Floor.Ring
import Mathlib.Algebra.Order.Ring.Rat
import Mathlib.Data.Int.Log
import Mathlib.Data.Rat.Floor

/-!
# Model of the truncation of decision vectors

`trim_vector` and `trim_mantissa`: `algorithms/HGS/tools.py` lines 26-33 and
`algorithms/HGS/classic/ClassicHGS.py` lines 367-374 (the same text).

A float is a rational number (see `Spec.IsFloat`). `floatextras` is a library; its functions
`as_tuple` and `from_tuple` are modelled by the decomposition they document: sign, 53 binary digits
with the most significant one first, and exponent. Simplified: the range of the exponent is not
limited (no subnormal numbers), and the sign of zero is not kept.
-/

namespace Evogil.Trim

/-- The last `n` binary digits of `m`, most significant first (part of `floatextras.as_tuple`, called
in tools.py:31). -/
def bits : ℕ → ℕ → List ℕ
  | 0, _ => []
  | n + 1, m => bits n (m / 2) ++ [m % 2]

/-- The number with the given binary digits (part of `floatextras.from_tuple`, called in
tools.py:33). -/
def ofBits (l : List ℕ) : ℕ := l.foldl (fun a d => 2 * a + d) 0

/-- `floatextras.as_tuple(value)`, tools.py:31: `True` is a negative sign. -/
def asTuple (x : ℚ) : Bool × List ℕ × ℤ :=
  let e := Int.log 2 |x| - 52
  (decide (x < 0), bits 53 ⌊|x| / 2 ^ e⌋₊, e)

/-- `floatextras.from_tuple(t)`, tools.py:33. -/
def fromTuple (t : Bool × List ℕ × ℤ) : ℚ :=
  (if t.1 then -1 else 1) * (ofBits t.2.1 : ℚ) * 2 ^ t.2.2

/-- The new digits, tools.py:32 and ClassicHGS.py:373. -/
def keepDigits (bitsNo : ℕ) (digits : List ℕ) : List ℕ :=
  digits.zipIdx.map fun p => if p.2 < bitsNo then p.1 else 0

/-- `trim_mantissa`, tools.py:30-33 and ClassicHGS.py:371-374. -/
def trimMantissa (x : ℚ) (bitsNo : ℕ) : ℚ :=
  let t := asTuple x
  fromTuple (t.1, keepDigits bitsNo t.2.1, t.2.2)

/-- `trim_vector`, tools.py:26-27 and ClassicHGS.py:367-368. -/
def trimVector (v : List ℚ) (bitsNo : ℕ) : List ℚ := v.map fun x => trimMantissa x bitsNo

end Evogil.Trim
