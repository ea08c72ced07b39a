import Mathlib.Data.Real.Basic
import Mathlib.Algebra.BigOperators.Group.Finset.Basic
import Mathlib.Algebra.BigOperators.Fin
import Mathlib.Order.Bounds.Basic

/-!
# Specification of the quality indicators (independent of the model)
-/

namespace Evogil.Spec

/-- Squared Euclidean distance of two points with `d` coordinates given as lists. -/
noncomputable def sqDist (d : ℕ) (x y : List ℝ) : ℝ :=
  ∑ i ∈ Finset.range d, (x.getD i 0 - y.getD i 0) ^ 2

/-- `e` is enough to shift the points of `R` so that each point of `A` is weakly dominated. -/
def ShiftCovers {α : Type*} [AddCommGroup α] [LinearOrder α] {d : ℕ} (A R : List (Fin d → α))
    (e : α) : Prop := ∀ a ∈ A, ∃ r ∈ R, ∀ k, r k - e ≤ a k

end Evogil.Spec
