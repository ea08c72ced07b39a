import Verif.Prelude
import Mathlib.Analysis.SpecialFunctions.Pow.Real

/-! # Lengths, distances from lines, and the accuracy of numpy -/

namespace Evogil.Spec

/-- The Euclidean length of a vector. -/
noncomputable def length₂ (a : List ℝ) : ℝ := Real.sqrt (a.map fun x => x ^ 2).sum

/-- The inner product. -/
def inner₂ (a b : List ℝ) : ℝ := (List.zipWith (fun x y => x * y) a b).sum

/-- How far `y` reaches along the line through 0 and `r`. -/
noncomputable def along (y r : List ℝ) : ℝ := inner₂ y r / length₂ r

/-- The distance of `y` from the line through 0 and `r`. -/
noncomputable def lineDist (y r : List ℝ) : ℝ := ⨅ t : ℝ, length₂ (List.zipWith (fun a b => a - t * b) y r)

/-- `numpy.dot` and `numpy.linalg.norm` are off by at most `δ`, for `m` coordinates in [-1, 1] and in [-5m, 5m]. -/
structure IsNumpy (m : ℕ) (δ : ℝ) (dot : List ℝ → List ℝ → ℝ) (norm : List ℝ → ℝ) : Prop where
  dot : ∀ a b : List ℝ, a.length = m → b.length = m → (∀ x ∈ a, |x| ≤ 1) → (∀ x ∈ b, |x| ≤ 1) → |dot a b - inner₂ a b| ≤ δ
  norm : ∀ a : List ℝ, a.length = m → (∀ x ∈ a, |x| ≤ 5 * m) → |norm a - length₂ a| ≤ δ

end Evogil.Spec
