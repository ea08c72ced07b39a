import Mathlib.Order.Basic
import Mathlib.Data.List.Basic
import Mathlib.Data.List.OfFn

/-!
# Specification: Pareto dominance

Nothing here refers to the model of the code.  Objective vectors are functions
`Fin d → α` ("minimise every objective").
-/

namespace Evogil.Spec

variable {α : Type*} [LinearOrder α] {d : ℕ}

/-- `x` Pareto-dominates `y`: no worse in every objective, strictly better in one. -/
def ParetoDom (x y : Fin d → α) : Prop :=
  (∀ i, x i ≤ y i) ∧ ∃ i, x i < y i

/-- `x` weakly dominates `y`: no worse in every objective. -/
def WeakDom (x y : Fin d → α) : Prop := ∀ i, x i ≤ y i

/-- Pareto dominance for vectors given as lists (used for whole populations):
both have the same length, coordinatewise `≤`, and `<` somewhere. -/
def LDom (x y : List α) : Prop :=
  x.length = y.length ∧
  (∀ (i : ℕ) (hx : i < x.length) (hy : i < y.length), x[i] ≤ y[i]) ∧
  ∃ (i : ℕ) (hx : i < x.length) (hy : i < y.length), x[i] < y[i]

/-- A member of a collection is non-dominated in it. -/
def NonDominated {β : Type*} (dom : β → β → Prop) (S : List β) (x : β) : Prop :=
  ∀ y ∈ S, ¬ dom y x

end Evogil.Spec
