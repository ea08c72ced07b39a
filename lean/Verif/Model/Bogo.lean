import Verif.Model.Dominance

/-! # Model of the archive of BOGO (`algorithms/BOGO/BOGO.py`) -/

namespace Evogil.Bogo

variable {ι α : Type*} [LinearOrder α]

/-- The loop of `refresh_archive`, BOGO.py:38-42; the flag is `individual_dominated`, `fit x` the
attribute `fit` (BOGO.py:10). Returns `new_archive` and the flag. -/
def refreshLoop (fit : ι → List α) (x : ι) : List ι → Bool → List ι × Bool
  | [], dominated => ([], dominated)
  | a :: rest, dominated =>
    if !dominated && dominates (fit a) (fit x) then refreshLoop fit x rest true
    else if !dominates (fit x) (fit a) then
      let r := refreshLoop fit x rest dominated
      (a :: r.1, r.2)
    else refreshLoop fit x rest dominated

/-- `refresh_archive`, BOGO.py:35-45. -/
def refresh (fit : ι → List α) (archive : List ι) (x : ι) : List ι :=
  let r := refreshLoop fit x archive false
  if r.2 then r.1 else r.1 ++ [x]

/-- The constructor loop BOGO.py:29-32 followed by calls of `step` (BOGO.py:50-54): all
individuals in order of creation. -/
def refreshAll (fit : ι → List α) (xs : List ι) : List ι := xs.foldl (refresh fit) []

end Evogil.Bogo
