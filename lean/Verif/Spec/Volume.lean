import Mathlib.MeasureTheory.Measure.Lebesgue.Basic

/-! # Dominated volume

The region dominated by a front and bounded by a reference point, and its Lebesgue measure.
Minimisation; a point is a list of coordinates. -/

namespace Evogil.Spec

open MeasureTheory

/-- The points between some point of the front and the reference point. -/
def dominated (ref : List ℝ) (front : List (List ℝ)) : Set (Fin ref.length → ℝ) :=
  {z | ∃ p ∈ front, ∀ i : Fin ref.length, p.getD i 0 ≤ z i ∧ z i ≤ ref.getD i 0}

/-- The volume (length, area, …) of that region. -/
noncomputable def dominatedVolume (ref : List ℝ) (front : List (List ℝ)) : ℝ :=
  (volume (dominated ref front)).toReal

end Evogil.Spec
