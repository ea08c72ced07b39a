import Mathlib.Algebra.Order.Ring.Rat
import Mathlib.Data.Rat.Floor

/-! # Numbers with a bounded number of significant binary digits -/

namespace Evogil.Spec

/-- `x` has at most `b` significant binary digits. -/
def HasBits (b : ℕ) (x : ℚ) : Prop := ∃ (m : ℕ) (e : ℤ), m < 2 ^ b ∧ |x| = m * 2 ^ e

/-- A floating point number, without a limit on the exponent. -/
def IsFloat (x : ℚ) : Prop := HasBits 53 x

/-- `y` is `x` rounded towards zero to `b` significant binary digits: of the numbers with `b` digits
that are not larger in magnitude than `x`, it is the largest one, and it does not have the opposite
sign. -/
structure RoundedToZero (b : ℕ) (x y : ℚ) : Prop where
  digits : HasBits b y
  sign : 0 ≤ x * y
  le : |y| ≤ |x|
  largest : ∀ z, HasBits b z → |z| ≤ |x| → |z| ≤ |y|

end Evogil.Spec
