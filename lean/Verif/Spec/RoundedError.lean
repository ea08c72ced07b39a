import Verif.Prelude
import Mathlib.Algebra.Order.Field.Basic

/-! # Relative errors -/

namespace Evogil.Spec

variable {K : Type*} [Field K] [LinearOrder K]

/-- Rounding with a relative error of at most `u` above `2⁻¹⁰²²`: monotone, odd, and the powers of two from `2⁻¹⁰²²` to
1 do not change. -/
structure IsAccurate (fl : K → K) (u : K) : Prop where
  mono : ∀ x y, x ≤ y → fl x ≤ fl y
  neg : ∀ x, fl (-x) = -fl x
  power : ∀ e : ℕ, e ≤ 1022 → fl ((1 / 2) ^ e) = (1 / 2) ^ e
  error : ∀ x, (1 / 2) ^ 1022 ≤ |x| → |fl x - x| ≤ u * |x|

/-- Two numbers that are not negative differ by at most `k` relative errors `u`: none is smaller than `(1 - u)^k` times
the other. -/
structure Near (u : K) (k : ℕ) (a b : K) : Prop where
  nonneg : 0 ≤ a
  nonneg' : 0 ≤ b
  le : (1 - u) ^ k * a ≤ b
  le' : (1 - u) ^ k * b ≤ a

end Evogil.Spec
