import Verif.Prelude
import Mathlib.Algebra.Order.Field.Basic

/-! # What is used about floats, powers and `random.random()` -/

namespace Evogil.Spec

variable {K : Type*} [Field K] [LinearOrder K]

/-- Rounding to numbers of 53 binary digits: monotone, numbers that are rounded already do not change, and
neither do the multiples of `u = 2⁻⁵³` up to 1, their doubles, and the doubles of rounded numbers. -/
structure IsRounding (fl : K → K) (u : K) : Prop where
  mono : ∀ x y, x ≤ y → fl x ≤ fl y
  idem : ∀ x, fl (fl x) = fl x
  unit : (2 : K) ^ 53 * u = 1
  grid : ∀ n : ℕ, n ≤ 2 ^ 53 → fl (n * u) = n * u
  double : ∀ x, fl x = x → fl (2 * x) = 2 * x

/-- Powers as computed by a library: not negative for bases that are not negative, at most 1 for bases up to 1
and exponents that are not negative, and for bases from 1 on and exponents that are not positive. -/
structure PowerLaws (pw : K → K → K) : Prop where
  nonneg : ∀ b e, 0 ≤ b → 0 ≤ pw b e
  small : ∀ b e, 0 ≤ b → b ≤ 1 → 0 ≤ e → pw b e ≤ 1
  large : ∀ b e, 1 ≤ b → e ≤ 0 → pw b e ≤ 1

/-- The values of `random.random()`: multiples of `u = 2⁻⁵³` in [0, 1). -/
def IsDraw (u r : K) : Prop := ∃ n : ℕ, n < 2 ^ 53 ∧ r = n * u

/-- All entries are floats. -/
def Floats (fl : K → K) (xs : List K) : Prop := ∀ x ∈ xs, fl x = x

/-- The bounds of all dimensions are floats, the lower one first. -/
def FloatBox (fl : K → K) (dims : List (K × K)) : Prop :=
  ∀ d ∈ dims, fl d.1 = d.1 ∧ fl d.2 = d.2 ∧ d.1 ≤ d.2

end Evogil.Spec
