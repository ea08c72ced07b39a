import Verif.Prelude
import Mathlib.Algebra.Order.Field.Basic
import Mathlib.Algebra.Order.Floor.Ring
import Mathlib.Algebra.Order.Archimedean.Basic
import Mathlib.Data.List.Sort

/-! # Statistics over stored results

Models of `statistic/stats_bootstrap.py` (lines 6-48), `statistic/ranking.py` (lines 38-46 and
274-289) and `evotools/random_tools.py` (lines 6-17). Floats are elements of an ordered field,
random draws are parameters. -/

namespace Evogil.Statistics

/-- A stored result group as the statistics see it: its budget and the values of its `cost` metric.
`costs = none` when the group has no metric called `cost`
(`/repo/simulation/serialization.py` yields the pairs read in
`/repo/statistic/stats_bootstrap.py` lines 7-12). Simplified: the other metrics of the group play
no role in the search. -/
structure Group (K : Type*) where
  /-- `result["budget"]`, `/repo/statistic/stats_bootstrap.py` line 7 -/
  budget : K
  /-- the data of the metric `cost`, `/repo/statistic/stats_bootstrap.py` lines 8-10 -/
  costs : Option (List K)

section field
variable {K : Type*} [Field K] [LinearOrder K]

/-- `average`, `/repo/statistic/stats_bootstrap.py` lines 29-32; `⊥` stands for `-float("inf")`. -/
def average (xs : List K) : WithBot K :=
  if xs.length = 0 then ⊥ else ((xs.sum / (xs.length : K) : K) : WithBot K)

/-- `validate_cost`, `/repo/statistic/stats_bootstrap.py` lines 6-14. The field
`["btstrpd"]["metrics"]` read from `yield_analysis` in line 12 is `f(population)` of line 47 with
`f = average`, hence the plain average of the data. Simplified: `yield_analysis` is taken not to
raise, that is the data is non-empty and `boot_size` is positive. -/
def validateCost (g : Group K) (delta : K) : Bool :=
  match g.costs with
  | some data => decide (average data ≤ ((g.budget + delta : K) : WithBot K))
  | none => true

/-- the loop of `find_acceptable_result_for_budget`,
`/repo/statistic/stats_bootstrap.py` lines 20-26, over the reversed list -/
def findLoop (delta prevBudget : K) : List (Group K) → Option (Group K)
  | [] => none
  | g :: rest =>
    let delta := delta + (prevBudget - g.budget)
    if validateCost g delta then some g
    else findLoop delta g.budget rest

/-- `find_acceptable_result_for_budget`, `/repo/statistic/stats_bootstrap.py` lines 17-26. The
outer `Option` is `none` when `results[-1]` raises `IndexError`. -/
def findAcceptable (results : List (Group K)) : Option (Option (Group K)) :=
  match results.getLast? with
  | none => none
  | some last => some (findLoop 500 last.budget results.reverse)

end field

/-- `sample_wr`, `/repo/statistic/stats_bootstrap.py` lines 35-38, the values of `randint` being
the list `idx` (of length `k`); `none` for an index outside the population. -/
def sampleWr {α : Type*} (population : List α) (idx : List ℕ) : Option (List α) :=
  idx.mapM (fun i => population[i]?)

/-- The dictionary returned by `bootstrap`, `/repo/statistic/stats_bootstrap.py` lines 43-48;
`confidence` is left out. -/
structure Interval (β : Type*) where
  /-- key `from`, line 45 -/
  lower : β
  /-- key `to`, line 46 -/
  upper : β
  /-- key `metrics`, line 47 -/
  metrics : β

/-- `bootstrap`, `/repo/statistic/stats_bootstrap.py` lines 41-48. `draws` holds the `n` lists of
random indices. `none` when an index of line 38, 45 or 46 is out of range. -/
def bootstrap {α β : Type*} [LinearOrder β] (population : List α) (f : List α → β)
    (draws : List (List ℕ)) (alpha : ℚ) : Option (Interval β) :=
  match draws.mapM (sampleWr population) with
  | none => none
  | some samples =>
    let btstrp := (samples.map f).insertionSort (· ≤ ·)
    let n : ℚ := draws.length
    match btstrp[⌊n * alpha⌋₊]?, btstrp[⌊n * (1 - alpha)⌋₊]? with
    | some lo, some hi => some { lower := lo, upper := hi, metrics := f population }
    | _, _ => none

section ranking
variable {K : Type*} [Field K] [LinearOrder K] {A : Type*} [DecidableEq A]

/-- Python's `max(l, key=lambda x: x[1])` resp. `min`: the first entry with extreme score, as in
`/repo/statistic/ranking.py` line 276 with `best_func` of lines 26-33. `better a b` says that the
later score `a` replaces the current one `b` (`>` for `max`, `<` for `min`). -/
def bestOf (better : K → K → Bool) : List (A × K) → Option (A × K)
  | [] => none
  | e :: rest => some (rest.foldl (fun acc x => if better x.2 acc.2 then x else acc) e)

/-- `get_weak_winners`, `/repo/statistic/ranking.py` lines 38-46. `eps` is
`sys.float_info.epsilon`. -/
def getWeakWinners (eps : K) (scoring : List (A × K)) (winner : A × K) (errorRate : K) :
    List (A × K) :=
  scoring.filter fun e =>
    decide (e.1 ≠ winner.1) &&
      decide (1 - errorRate ≤ (min e.2 winner.2 + eps) / (max e.2 winner.2 + eps))

/-- The list of names passed to `Counter.update` for one problem and metric,
`/repo/statistic/ranking.py` lines 276-289 (and lines 102-121). `none` cannot happen in the code:
`scoring` only holds non-empty lists. -/
def awards (eps : K) (better : K → K → Bool) (scoring : List (A × K)) (errorRate : K) :
    Option (List A) :=
  match bestOf better scoring with
  | none => none
  | some winner =>
    let weak := getWeakWinners eps scoring winner errorRate
    if weak.isEmpty then some [winner.1, winner.1]
    else some (winner.1 :: weak.map Prod.fst)

end ranking

section choice
variable {K : Type*} [AddCommMonoid K] [LinearOrder K] {A : Type*}

/-- the loop of `weighted_choice`, `/repo/evotools/random_tools.py` lines 12-17; `none` is the
failing assertion of line 17 -/
def weightedLoop (r upto : K) : List (A × K) → Option A
  | [] => none
  | (c, w) :: rest => if upto + w > r then some c else weightedLoop r (upto + w) rest

/-- `weighted_choice`, `/repo/evotools/random_tools.py` lines 6-17, where `r` is the value drawn
by `random.uniform(0, total)` -/
def weightedChoice (r : K) (choices : List (A × K)) : Option A :=
  weightedLoop r 0 choices

end choice

end Evogil.Statistics
