import Verif.Model.Statistics
import Verif.Model.PySorted

/-!
# Model of `yield_analysis` (`statistic/stats_bootstrap.py`, lines 51-153)

Floats are elements of an ordered field, the square root is a parameter, the draws of the bootstrap
are parameters.
-/

namespace Evogil.Statistics

variable {K : Type*} [Field K] [LinearOrder K]

/-- `numpy.percentile(data, 25 * quarters)` with the default linear interpolation,
`stats_bootstrap.py:52-53`: with `n` sorted values the position is `quarters / 4 * (n - 1)`. `none` is
the `IndexError` for empty data. -/
def quartile (quarters : ℕ) (data : List K) : Option K :=
  let sorted := pySorted id data
  let pos := quarters * (data.length - 1)
  match sorted[pos / 4]? with
  | none => none
  | some a =>
    let b := sorted.getD (pos / 4 + 1) a
    some (a + ((pos % 4 : ℕ) : K) / 4 * (b - a))

/-- The entries of the dictionary returned by `yield_analysis`, `stats_bootstrap.py:134-153`, in that
order. `extr` and `mild` are the numbers of outliers; the code returns them as percentages of the
number of values, and `--` for none (lines 68-77). `none` in `stdevNooutliers` is the branch of lines
91-93, `none` in the differences is the infinity of lines 114-122. Left out: `pr_dispersion` and
`dispersion_warn`. -/
structure Analysis (K : Type*) where
  lowInn : K
  uppInn : K
  lowOut : K
  uppOut : K
  stdev : K
  mean : K
  lower : K
  upper : K
  goodbench : Bool
  btstrpd : Interval (WithBot K)
  mild : ℕ
  extr : ℕ
  metricsNooutliers : WithBot K
  meanDiff : Option K
  stdevNooutliers : Option K
  stdevDiff : Option K

/-- Mean and standard deviation, lines 81-93 and 101-103: averages of non-empty lists. `none` is the
`ValueError` of `sqrt` for an empty list, whose average is minus infinity. -/
def meanStdev (sq : K → K) (xs : List K) : Option (K × K) :=
  if xs.length = 0 then none
  else
    let mean := xs.sum / (xs.length : K)
    some (mean, sq ((xs.map fun x => (x - mean) ^ 2).sum / (xs.length : K)))

/-- `100.0 * (a - b) / b`, `none` for the `ZeroDivisionError`, lines 114-122 -/
def relDiff (a b : K) : Option K := if b = 0 then none else some (100 * (a - b) / b)

/-- `yield_analysis`, `stats_bootstrap.py:51-153`. `draws` are the draws of the bootstrap,
`boot_size` lists of `int(len(data) * 0.66)` positions. In the branch of lines 91-93 (no value within
the fences) the differences of lines 114-122 are infinite or not a number; they are `none` here. -/
def yieldAnalysis (sq : K → K) (draws : List (List ℕ)) (data : List K) : Option (Analysis K) :=
  match quartile 1 data, quartile 3 data with
  | some q1, some q3 =>
    let iq := q3 - q1
    let lowInn := q1 - 3 / 2 * iq
    let uppInn := q3 + 3 / 2 * iq
    let lowOut := q1 - 3 * iq
    let uppOut := q3 + 3 * iq
    let extr := (data.filter fun x => x < lowOut ∨ uppOut < x).length
    let mild := (data.filter fun x => x < lowInn ∨ uppInn < x).length - extr
    let regular := data.filter fun x => lowInn ≤ x ∧ x ≤ uppInn
    match bootstrap data average draws (1 / 40), meanStdev sq data with
    | some btstrpd, some (mean, stdev) =>
      let lower := mean - 3 * stdev
      let upper := mean + 3 * stdev
      let within := (data.filter fun x => lower ≤ x ∧ x ≤ upper).length
      some {
        lowInn, uppInn, lowOut, uppOut, stdev, mean, lower, upper
        goodbench := ¬ ((within : K) < 95 / 100 * (data.length : K))
        btstrpd, mild, extr
        metricsNooutliers := average regular
        meanDiff := (meanStdev sq regular).bind fun r => relDiff r.1 mean
        stdevNooutliers := (meanStdev sq regular).map fun r => r.2
        stdevDiff := (meanStdev sq regular).bind fun r => relDiff r.2 stdev }
    | _, _ => none
  | _, _ => none

end Evogil.Statistics
