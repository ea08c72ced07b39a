import Mathlib.Data.Finset.Prod
import Mathlib.Data.Finset.Range
import Mathlib.Data.Rat.Defs
import Mathlib.Algebra.Field.Defs

/-!
# How likely an individual is to become a parent

A tournament draws two positions of a list of `n` individuals; all pairs are equally likely. A coin
shows one side with the probability `p`. These definitions count; they do not refer to the model.
-/

namespace Evogil.Spec

variable {ι : Type*} [DecidableEq ι]

/-- The number of pairs of positions below `n` for which `x` wins. -/
def wins (n : ℕ) (pick : ℕ → ℕ → Option ι) (x : ι) : ℕ :=
  ((Finset.range n ×ˢ Finset.range n).filter fun q => pick q.1 q.2 = some x).card

/-- The probability that `x` wins when each of the `n * n` pairs of positions is equally likely and
the coin shows `true` with the probability `p`. -/
def chance {K : Type*} [Field K] (p : K) (n : ℕ) (pick : Bool → ℕ → ℕ → Option ι) (x : ι) : K :=
  (p * (wins n (pick true) x : K) + (1 - p) * (wins n (pick false) x : K)) / ((n : K) * (n : K))

/-- The probability that `x` wins when each of the `n * (n - 1)` pairs of different positions is
equally likely; `pick` has no value for equal positions. -/
def chanceDistinct {K : Type*} [Field K] (n : ℕ) (pick : ℕ → ℕ → Option ι) (x : ι) : K :=
  (wins n pick x : K) / ((n : K) * ((n : K) - 1))

end Evogil.Spec
