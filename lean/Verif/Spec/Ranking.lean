import Verif.Prelude
import Mathlib.Algebra.Order.Field.Basic

/-! # Specification vocabulary for the statistics

Independent of the model: what it means for two scores to be close, for a score to be the best of a
table, and which cumulated weight interval belongs to an item. -/

namespace Evogil.Spec

/-- Whether a metric is better when larger (`max`) or when smaller (`min`). -/
inductive Sense | max | min

/-- `x` is at least as good as `y`. -/
def Sense.AsGood {K : Type*} [LE K] : Sense → K → K → Prop
  | .max, x, y => y ≤ x
  | .min, x, y => x ≤ y

/-- `b` is the best score occurring in the table. -/
def IsBest {K A : Type*} [LE K] (s : Sense) (table : List (A × K)) (b : K) : Prop :=
  (∃ a, (a, b) ∈ table) ∧ ∀ e ∈ table, s.AsGood b e.2

/-- Two scores are within the relative tolerance `err` of each other (both shifted by `eps`). -/
def Close {K : Type*} [Field K] [LinearOrder K] (eps err x y : K) : Prop :=
  (1 - err) * (max x y + eps) ≤ min x y + eps

instance {K : Type*} [Field K] [LinearOrder K] (eps err x y : K) : Decidable (Close eps err x y) :=
  inferInstanceAs (Decidable (_ ≤ _))

/-- The names of the table whose score is close to `b`. -/
def closeNames {K A : Type*} [Field K] [LinearOrder K] (eps err b : K) (table : List (A × K)) :
    List A :=
  (table.filter fun e => decide (Close eps err e.2 b)).map Prod.fst

end Evogil.Spec
