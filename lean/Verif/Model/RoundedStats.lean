import Verif.Model.Outliers
import Verif.Model.RoundedMetrics

/-!
# Model of `yield_analysis` with rounding (`statistic/stats_bootstrap.py`, lines 29-32 and 51-153)

As `Verif.Model.Outliers`, with `fl` applied after every operation. `sqr` is the square `** 2`, `sqrt` is `math.sqrt`.
Simplified: the positions `int(1.0 * n * alpha)` of lines 45 and 46 are calculated exactly.
-/

namespace Evogil.Rounded.Stats

open Evogil.Statistics (Analysis Interval bootstrap)

variable {K : Type*} [Field K] [LinearOrder K]

/-- `numpy.percentile(data, 25 * quarters)` with linear interpolation, `stats_bootstrap.py:52-53`: the values at the
positions below and above are multiplied by their weights (exact multiples of 1/4) and the products are added. -/
def quartile (fl : K → K) (quarters : ℕ) (data : List K) : Option K :=
  let sorted := pySorted id data
  let pos := quarters * (data.length - 1)
  match sorted[pos / 4]? with
  | none => none
  | some a =>
    let b := sorted.getD (pos / 4 + 1) a
    some (fl (fl (a * (1 - ((pos % 4 : ℕ) : K) / 4)) + fl (b * (((pos % 4 : ℕ) : K) / 4))))

/-- `sum(xs) * 1.0 / len(xs)`, `stats_bootstrap.py:32` -/
def mean (fl : K → K) (xs : List K) : K := fl (sumUp fl xs / (xs.length : K))

/-- `average`, `stats_bootstrap.py:29-32`; `⊥` stands for `-float("inf")`. -/
def average (fl : K → K) (xs : List K) : WithBot K := if xs.length = 0 then ⊥ else ((mean fl xs : K) : WithBot K)

/-- Mean and standard deviation, `stats_bootstrap.py:81-93` and 101-103; `none` is the `ValueError` for an empty list. -/
def meanStdev (fl sqr sqrt : K → K) (xs : List K) : Option (K × K) :=
  if xs.length = 0 then none
  else
    let m := mean fl xs
    some (m, sqrt (mean fl (xs.map fun x => sqr (fl (x - m)))))

/-- `100.0 * (a - b) / b`, `none` for the `ZeroDivisionError`, `stats_bootstrap.py:114-122` -/
def relDiff (fl : K → K) (a b : K) : Option K := if b = 0 then none else some (fl (fl (100 * fl (a - b)) / b))

/-- `yield_analysis`, `stats_bootstrap.py:51-153` -/
def yieldAnalysis (fl sqr sqrt : K → K) (draws : List (List ℕ)) (data : List K) : Option (Analysis K) :=
  match quartile fl 1 data, quartile fl 3 data with
  | some q1, some q3 =>
    let iq := fl (q3 - q1)
    let lowInn := fl (q1 - fl (3 / 2 * iq))
    let uppInn := fl (q3 + fl (3 / 2 * iq))
    let lowOut := fl (q1 - fl (3 * iq))
    let uppOut := fl (q3 + fl (3 * iq))
    let extr := (data.filter fun x => x < lowOut ∨ uppOut < x).length
    let mild := (data.filter fun x => x < lowInn ∨ uppInn < x).length - extr
    let regular := data.filter fun x => lowInn ≤ x ∧ x ≤ uppInn
    match bootstrap data (average fl) draws (1 / 40), meanStdev fl sqr sqrt data with
    | some btstrpd, some (mean, stdev) =>
      let lower := fl (mean - fl (3 * stdev))
      let upper := fl (mean + fl (3 * stdev))
      let within := (data.filter fun x => lower ≤ x ∧ x ≤ upper).length
      some {
        lowInn, uppInn, lowOut, uppOut, stdev, mean, lower, upper
        goodbench := ¬ ((within : K) < fl (fl (95 / 100) * (data.length : K)))
        btstrpd, mild, extr
        metricsNooutliers := average fl regular
        meanDiff := (meanStdev fl sqr sqrt regular).bind fun r => relDiff fl r.1 mean
        stdevNooutliers := (meanStdev fl sqr sqrt regular).map fun r => r.2
        stdevDiff := (meanStdev fl sqr sqrt regular).bind fun r => relDiff fl r.2 stdev }
    | _, _ => none
  | _, _ => none

end Evogil.Rounded.Stats
