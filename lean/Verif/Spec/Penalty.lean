import Mathlib.Analysis.SpecialFunctions.Exp
import Mathlib.Analysis.SpecialFunctions.Pow.Real

/-!
# Specification: the penalty of the rotated benchmark problems

The factor that a decision vector pays for leaving the unit cube after the rotation. Nothing here refers to the model of the
code.
-/

namespace Evogil.Spec

/-- How far a number is away from the interval from 0 to 1. -/
noncomputable def excess (t : ℝ) : ℝ := max 0 (max (-t) (t - 1))

/-- The factor: 1 inside of the cube, growing towards 2 with the distance from it. Only the first `m` coordinates count. -/
noncomputable def penalty (z : List ℝ) (m : ℕ) : ℝ :=
  2 / (1 + Real.exp (-Real.sqrt ((z.take m).map fun t => excess t ^ 2).sum))

/-- A coordinate before the `m`-th one is outside of the interval from 0 to 1. -/
def Leaves (z : List ℝ) (m : ℕ) : Prop := ∃ t ∈ z.take m, t < 0 ∨ 1 < t

end Evogil.Spec
