import Verif.Spec.Box
import Verif.Spec.Pareto
import Mathlib.Data.Real.Basic

/-!
# Specification: what a reference front of a benchmark problem should be

A problem is given by its objective functions and its box. Nothing here refers to the model of the
code.
-/

namespace Evogil.Spec

/-- `y` is the objective vector of some decision vector of the box. -/
def Attainable (fits : List (List ℝ → ℝ)) (dims : List (ℝ × ℝ)) (y : List ℝ) : Prop :=
  ∃ x, InBox x dims ∧ fits.map (fun f => f x) = y

/-- No decision vector of the box has an objective vector that dominates `y`. -/
def Undominated (fits : List (List ℝ → ℝ)) (dims : List (ℝ × ℝ)) (y : List ℝ) : Prop :=
  ∀ x, InBox x dims → ¬ LDom (fits.map fun f => f x) y

/-- Every decision vector of the box is matched by a member of `front` that is at most `tol` worse in
the first objective and no worse in the others. -/
def Covers (tol : ℝ) (fits : List (List ℝ → ℝ)) (dims : List (ℝ × ℝ)) (front : List (List ℝ)) :
    Prop :=
  ∀ x, InBox x dims → ∃ y ∈ front, y.length = fits.length ∧
    ∀ (i : ℕ) (f : List ℝ → ℝ) (v : ℝ), fits[i]? = some f → y[i]? = some v →
      v ≤ f x + if i = 0 then tol else 0

end Evogil.Spec
