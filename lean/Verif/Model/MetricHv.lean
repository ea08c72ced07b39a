import Verif.Model.HyperVolume
import Mathlib.Algebra.Order.Ring.Defs

/-! # Model of the hypervolume metric (`metrics/metrics.py`) -/

namespace Evogil.Hv

variable {K : Type*} [CommRing K] [LinearOrder K]

/-- `hypervolume`, metrics.py:55-61. `pareto[0]` raises for an empty `pareto`; the reference point
has as many coordinates 50 as the first point of `pareto`. -/
def metricHypervolume (lowest : K) (_solution notDominated pareto : List (List K)) : Option K :=
  match pareto with
  | [] => none
  | p :: _ => compute lowest (List.replicate p.length 50) notDominated

end Evogil.Hv
