import Verif.Prelude

/-! # Quartiles of a list of values -/

namespace Evogil.Spec

/-- `q` is a `k`-th quartile of the data: fewer than `k/4 (n-1) + 1` values are smaller and fewer than
`(1-k/4) (n-1) + 1` values are larger. -/
def IsQuartile {K : Type*} [LinearOrder K] (k : ℕ) (data : List K) (q : K) : Prop :=
  4 * data.countP (fun x => decide (x < q)) < k * (data.length - 1) + 4 ∧
  4 * data.countP (fun x => decide (q < x)) < (4 - k) * (data.length - 1) + 4

end Evogil.Spec
