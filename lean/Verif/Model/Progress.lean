import Verif.Prelude
import Mathlib.Algebra.Order.Floor.Ring
import Mathlib.Algebra.BigOperators.Group.List.Basic

/-!
# The reports during a run

`log_simulation_stats` in `simulation/run_parallel.py:55-71` and when it is called (lines 40-50).

Simplified: times are seconds in an ordered field, microseconds and floats are not rounded.
-/

namespace Evogil.Progress

variable {K : Type*} [Field K] [LinearOrder K] [IsStrictOrderedRing K] [FloorRing K]

/-- The three numbers printed for the time left, `simulation/run_parallel.py:64-66`, on the attributes `days`
and `seconds` of the `timedelta`. -/
def fields (timeLeft : K) : ℤ × ℤ × ℤ :=
  let days := ⌊timeLeft⌋ / 86400
  let seconds := ⌊timeLeft⌋ % 86400
  (days * 24 + seconds / 3600, seconds / 60, seconds % 60)

/-- What is printed: the percentage and, if it is known, the time left, `simulation/run_parallel.py:61-71`.
(The time of day at which the run should end is left out.) -/
structure Report (K : Type*) where
  percent : K
  left : Option (ℤ × ℤ × ℤ)

/-- `log_simulation_stats`, `simulation/run_parallel.py:55-71`; `elapsed` is `diff_time`. Dividing it by 0
raises the exception caught in line 70. -/
def logStats (elapsed : K) (simulationId count : ℕ) : Report K :=
  let ratio : K := simulationId * 1 / count
  if ratio = 0 then ⟨ratio, none⟩
  else ⟨ratio * 100, some (fields (elapsed / ratio - elapsed))⟩

/-- The reports of a run, `simulation/run_parallel.py:40-50`: the jobs run one after the other, and the
`i`-th worker returns `i` as `simulation_no` (line 45, `simulation/worker.py:61`). The durations are those of
the jobs. -/
def reports (durations : List K) : List (Report K) :=
  (List.range durations.length).map fun i =>
    logStats (durations.take (i + 1)).sum i durations.length

end Evogil.Progress
