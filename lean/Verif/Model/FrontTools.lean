import Mathlib.Algebra.Order.Field.Basic

/-! # Model of `split_front`, evotools/ea_utils.py lines 86-103 -/

namespace Evogil.FrontTools

variable {K : Type*} [Field K] [LinearOrder K]

/-- The loop of `split_front`, ea_utils.py:91-97; the state is `prev_x`, `groups`, `group`. -/
def splitLoop (eps : K) : List (K × K) → K → List (List (K × K)) → List (K × K) →
    List (List (K × K)) × List (K × K)
  | [], _, groups, group => (groups, group)
  | (x, y) :: rest, prevX, groups, group =>
    if x - prevX > eps ∧ group.length > 1 then splitLoop eps rest x (groups ++ [group]) [(x, y)]
    else splitLoop eps rest x groups (group ++ [(x, y)])

/-- `split_front`, ea_utils.py:86-103; `none` is the `IndexError` of `groups[-1]` in line 99. -/
def splitFront (front : List (K × K)) (eps : K) : Option (List (List (K × K))) :=
  let r := splitLoop eps front 0 [] []
  match r.1.getLast? with
  | none => none
  | some g => some (if g ≠ r.2 then r.1 ++ [r.2] else r.1)

end Evogil.FrontTools
