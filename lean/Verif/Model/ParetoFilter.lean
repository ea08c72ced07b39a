import Verif.Model.Dominance
import Verif.Model.PyBase

/-! # Model of `metrics/metrics_utils.py` lines 101-127 -/

namespace Evogil

variable {α : Type*} [LinearOrder α]

/-- Body of the outer loop of `filter_not_dominated`, metrics/metrics_utils.py:117-126:
the inner loop keeps the members not dominated by the newcomer and records whether
some member dominates it. -/
def filterStep (notDominated : List (List α)) (ind : List α) : List (List α) :=
  let newNotDominated := notDominated.filter fun nd => !dominates ind nd
  let dominatedBySth := notDominated.any fun nd => dominates nd ind
  if dominatedBySth then newNotDominated else newNotDominated ++ [ind]

/-- `filter_not_dominated`, metrics/metrics_utils.py:114-127. -/
def filterNotDominated (indSet : List (List α)) : List (List α) :=
  indSet.foldl filterStep []

/-- `filter_not_dominated2`, metrics/metrics_utils.py:101-111. The dictionary keyed by
`tuple(ind)` keeps the first occurrence of every key, in insertion order. -/
def filterNotDominated2 (indSet : List (List α)) : List (List α) :=
  (dictKeys indSet).filter fun ind => indSet.all fun other => !dominates other ind

end Evogil
