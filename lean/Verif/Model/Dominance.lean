import Mathlib.Order.Basic
import Mathlib.Data.List.Basic

/-!
# Model of the dominance tests

`evotools/ea_utils.py` lines 14-36, `algorithms/NSGAII/NSGAII.py` lines 11-25 and
`algorithms/OMOPSO/OMOPSO.py` lines 250-267.
-/

namespace Evogil

section order
variable {α : Type*} [LinearOrder α]

/-- `ndir = (-1, 0, 1)[(i <= j) + (i < j)]`, evotools/ea_utils.py:31.
The conversion `float(x)` (line 30) is idealised: values are elements of a linear
order (no NaN). -/
def ndir (i j : α) : Int :=
  match (if i ≤ j then 1 else 0) + (if i < j then 1 else 0) with
  | 0 => -1
  | 1 => 0
  | _ => 1

/-- The `for` loop of `domination_cmp`, evotools/ea_utils.py:30-36, with the loop
variable `direction` as an argument. -/
def dominationCmpLoop : List (α × α) → Int → Int
  | [], direction => direction
  | (i, j) :: rest, direction =>
    if ndir i j ≠ 0 then
      if direction ≠ 0 ∧ ndir i j ≠ direction then 0
      else dominationCmpLoop rest (ndir i j)
    else dominationCmpLoop rest direction

/-- `domination_cmp`, evotools/ea_utils.py:23-36. Like Python's `zip`, `List.zip`
truncates to the shorter list. -/
def dominationCmp (xs ys : List α) : Int :=
  dominationCmpLoop (xs.zip ys) 0

/-- `dominates`, evotools/ea_utils.py:14-20. -/
def dominates (xs ys : List α) : Bool :=
  decide (dominationCmp xs ys > 0)

/-- `dominates_weak`, algorithms/NSGAII/NSGAII.py:11-12. The `objectives`
dictionaries of the two individuals are given by their list of values (both are
built from the same list of objective functions, so in the same order). -/
def nsgaiiDominatesWeak (x y : List α) : Bool :=
  (x.zip y).all fun p => decide (p.1 ≤ p.2)

/-- `dominates`, algorithms/NSGAII/NSGAII.py:15-25 (also used by NSLS, see
algorithms/NSLS/NSLS.py:142-144). -/
def nsgaiiDominates (x y : List α) : Bool :=
  nsgaiiDominatesWeak x y && !nsgaiiDominatesWeak y x

/-- `Individual.equal_obj`, algorithms/OMOPSO/OMOPSO.py:263-267; an index past the end
of the second vector is an `IndexError` (`none`). -/
def omopsoEqualObj : List α → List α → Option Bool
  | [], _ => some true
  | _ :: _, [] => none
  | a :: as, b :: bs => if a ≠ b then some false else omopsoEqualObj as bs

end order

section field
variable {K : Type*} [LinearOrder K] [Div K] [Add K] [One K]

/-- Loop of `Individual.dominates`, algorithms/OMOPSO/OMOPSO.py:250-258, with
`at_least_one` as an argument; an index past the end of the second vector is an
`IndexError` (`none`). -/
def omopsoDominatesLoop (eta : K) : List K → List K → Bool → Option Bool
  | [], _, atLeastOne => some atLeastOne
  | _ :: _, [], _ => none
  | s :: ss, p :: ps, atLeastOne =>
    if p < s / (1 + eta) then some false
    else if p > s / (1 + eta) then omopsoDominatesLoop eta ss ps true
    else omopsoDominatesLoop eta ss ps atLeastOne

/-- `Individual.dominates(self, p2, eta)`, algorithms/OMOPSO/OMOPSO.py:250-258. -/
def omopsoDominates (eta : K) (self p2 : List K) : Option Bool :=
  omopsoDominatesLoop eta self p2 false

end field

end Evogil
