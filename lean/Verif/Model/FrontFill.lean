import Verif.Prelude

/-!
# Filling the next population with whole fronts

The loops at `algorithms/NSGAIII/NSGAIII.py` lines 283-289 and `algorithms/NSLS/NSLS.py` lines
163-172, which have the same shape.
-/

namespace Evogil

variable {ι : Type*}

/-- NSGAIII.py:283-289 and NSLS.py:163-172. `fronts` is the list of the non-empty fronts 1, 2, ...
not yet looked at; every later front of the `defaultdict` is the empty list. Returns the individuals
taken and the first front that does not fit. `fuel` bounds the number of evaluations of the loop
condition (`none`: not enough). -/
def fillFronts (size : ℕ) : ℕ → List ι → List (List ι) → Option (List ι × List ι)
  | 0, _, _ => none
  | fuel + 1, acc, fronts =>
    let front := fronts.headD []
    if acc.length + front.length ≤ size then fillFronts size fuel (acc ++ front) fronts.tail
    else some (acc, front)

/-- `random.sample(l, n)`: `n` different positions of `l`, in any order. -/
def IsSample (l : List ι) (n : ℕ) (s : List ι) : Prop := s.length = n ∧ s.Subperm l

end Evogil
