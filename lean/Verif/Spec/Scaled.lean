import Verif.Prelude
import Mathlib.Algebra.Field.Defs
import Mathlib.Order.Bounds.Basic

/-! # Scaled objective vectors -/

namespace Evogil.Spec

/-- `y` is `o` with every coordinate scaled: 0 for the least value of that coordinate in `hist`, almost 1 for the greatest
in `objs`. -/
def IsScaled {K : Type*} [Field K] [LinearOrder K] (eps : K) (hist objs : List (List K)) (o y : List K) : Prop :=
  y.length = o.length ∧ ∀ (i : ℕ) (x : K), o[i]? = some x → ∃ a b, IsLeast {v | ∃ p ∈ hist, p[i]? = some v} a ∧
    IsGreatest {v | ∃ p ∈ objs, p[i]? = some v} b ∧ y[i]? = some ((x - a) / (b - a + eps))

end Evogil.Spec
