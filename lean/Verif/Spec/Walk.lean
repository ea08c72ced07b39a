import Verif.Prelude

/-! # Following pointers -/

namespace Evogil.Spec

/-- The first `k` nodes met by following the pointers `nx` from node `x`. -/
def walk (nx : ℕ → ℕ) : ℕ → ℕ → List ℕ
  | 0, _ => []
  | k + 1, x => nx x :: walk nx k (nx x)

/-- Following `nx` from the sentinel 0 meets exactly the nodes `L`, in this order, and then the
sentinel again. -/
def Circuit (nx : ℕ → ℕ) (L : List ℕ) : Prop := walk nx (L.length + 1) 0 = L ++ [0]

end Evogil.Spec
