import Verif.Prelude
import Mathlib.Algebra.Order.Floor.Ring

/-! # What a progress report should say -/

namespace Evogil.Spec

variable {K : Type*} [Field K] [LinearOrder K] [IsStrictOrderedRing K] [FloorRing K]

/-- The share of finished jobs in percent. -/
def percentDone (finished count : ℕ) : K := 100 * (finished : K) / (count : K)

/-- Hours, minutes and seconds that make up a duration. -/
def IsClock (seconds : ℤ) (h m s : ℤ) : Prop :=
  0 ≤ h ∧ 0 ≤ m ∧ m < 60 ∧ 0 ≤ s ∧ s < 60 ∧ 3600 * h + 60 * m + s = seconds

/-- The time the remaining jobs take if they take as long as the finished ones on average. -/
def timeLeft (elapsed : K) (finished count : ℕ) : K :=
  elapsed / (finished : K) * ((count : K) - (finished : K))

end Evogil.Spec
