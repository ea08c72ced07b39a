import Verif.Model.Statistics
import Verif.Model.RoundedStats

/-!
# Model of one cell of the ranking with rounding (`statistic/ranking.py`)

As the section `ranking` of `Verif.Model.Statistics`, with `fl` applied after every operation, beginning with the values
of the metric in every run instead of the averages.
-/

namespace Evogil.Rounded.Ranking

open Evogil.Statistics (bestOf)

variable {K : Type*} [Field K] [LinearOrder K] {A : Type*} [DecidableEq A]

/-- The test of `get_weak_winners`, `statistic/ranking.py:44-45`. `rate` is the float written in lines 14-22, `eps` is
`sys.float_info.epsilon` (line 39). -/
def weakTest (fl : K → K) (eps rate x y : K) : Bool :=
  decide (fl (1 - rate) ≤ fl (fl (min x y + eps) / fl (max x y + eps)))

/-- `get_weak_winners`, `statistic/ranking.py:38-46` -/
def getWeakWinners (fl : K → K) (eps : K) (scoring : List (A × K)) (winner : A × K) (rate : K) : List (A × K) :=
  scoring.filter fun e => decide (e.1 ≠ winner.1) && weakTest fl eps rate e.2 winner.2

/-- The names passed to `Counter.update` for one problem and metric, `statistic/ranking.py:102-121` and 276-289 -/
def awards (fl : K → K) (eps : K) (better : K → K → Bool) (scoring : List (A × K)) (rate : K) : Option (List A) :=
  match bestOf better scoring with
  | none => none
  | some winner =>
    let weak := getWeakWinners fl eps scoring winner rate
    if weak.isEmpty then some [winner.1, winner.1]
    else some (winner.1 :: weak.map Prod.fst)

/-- One cell of the ranking from the values of the metric in the runs of every algorithm: the scores
`data_analysis["btstrpd"]["metrics"]` of `statistic/ranking.py:90-98` and 263-269 are the averages of
`stats_bootstrap.py:29-32` and 47, then the points. Simplified: every algorithm has a run, so that `yield_analysis` does
not raise and the average is not `-inf`. -/
def cell (fl : K → K) (eps : K) (better : K → K → Bool) (data : List (A × List K)) (rate : K) : Option (List A) :=
  awards fl eps better (data.map fun e => (e.1, Stats.mean fl e.2)) rate

end Evogil.Rounded.Ranking
