import Verif.Model.Statistics

/-!
# The ranking of the algorithms over all stored results

`rank` in `statistic/ranking.py:237-299` with what it reads: the groups of results of every algorithm
directory of every problem directory (`simulation/serialization.py:92-116`) and their metrics
(`simulation/metrics_processor.py:18-67`).

Simplified: floats are elements of an ordered field; the values of the metrics are given (computing and
caching them is the subject of `Verif.Model.MetricCache` and `Verif.Model.PdiCache`); `boot_size` is
positive, so that `bootstrap` does not raise for non-empty data. `none` means that the code raises.
-/

namespace Evogil.RankingRun

open Statistics

/-- A group of results of one budget, `simulation/serialization.py:57-60`: the budget and the values of
the metric of each name, one for every result of the group. -/
abbrev Res (K : Type*) := K × (String → List K)

/-- What the directories hold: problems, their algorithms, the groups of results of an algorithm, in
the order in which they are listed, `simulation/serialization.py:107-116`. -/
abbrev Dirs (K : Type*) := List (String × List (String × List (Res K)))

section
variable {K : Type*} [Field K] [LinearOrder K]

/-- `yield_metrics`, `simulation/metrics_processor.py:18-67`. -/
def yieldMetrics (r : Res K) : List (String × List K) :=
  ["cost", "gd", "igd", "ahd", "epsilon", "extent", "spacing", "ndr", "hypervolume", "pdi"].map
    fun m => (m, r.2 m)

/-- The dictionary of lines 99-105 of `simulation/serialization.py`; `analysis` is a generator, so the
list holds what has not been read yet. -/
structure Item (K : Type*) where
  budget : K
  analysis : List (String × List K)

/-- `yield_analysis(data, boot_size)["btstrpd"]["metrics"]`, `statistic/stats_bootstrap.py:29-32, 47,
95-97`; `numpy.percentile` raises for empty data (line 52). -/
def score (data : List K) : Option K :=
  if data.isEmpty then none else some (data.sum / (data.length : K))

/-- `validate_cost`, `statistic/stats_bootstrap.py:6-14`: the verdict and what is left of the
generator. -/
def validate (bound : K) : List (String × List K) → Option (Bool × List (String × List K))
  | [] => some (true, [])
  | e :: rest =>
    if e.1 = "cost" then (score e.2).map fun c => (decide (c ≤ bound), rest)
    else validate bound rest

/-- The loop of `find_acceptable_result_for_budget`, `statistic/stats_bootstrap.py:20-26`, over the
reversed list. -/
def findItem (delta prevBudget : K) : List (Item K) → Option (Option (Item K))
  | [] => some none
  | g :: rest =>
    let delta := delta + (prevBudget - g.budget)
    match validate (g.budget + delta) g.analysis with
    | none => none
    | some (true, left) => some (some ⟨g.budget, left⟩)
    | some (false, _) => findItem delta g.budget rest

/-- `find_acceptable_result_for_budget`, `statistic/stats_bootstrap.py:17-26`; `results[-1]` raises if
there are no results. -/
def findResult (results : List (Item K)) : Option (Option (Item K)) :=
  match results.getLast? with
  | none => none
  | some last => findItem 500 last.budget results.reverse

/-- `best_func`, `statistic/ranking.py:26-33`: which metrics are ranked, and whether by `max`. -/
def bestFunc : String → Option Bool
  | "hypervolume" => some true
  | "igd" => some false
  | "ahd" => some false
  | "spacing" => some false
  | "gd" => some false
  | "pdi" => some true
  | _ => none

/-- `winner_tolerance`, `statistic/ranking.py:14-22`. -/
def winnerTolerance : String → Option K
  | "hypervolume" => some (5 / 1000)
  | "igd" => some (5 / 100)
  | "ahd" => some (5 / 100)
  | "spacing" => some (5 / 100)
  | "gd" => some (5 / 100)
  | "pdi" => some (5 / 1000)
  | _ => none

/-- `d[k].append(v)` for a `defaultdict(list)`, `statistic/ranking.py:267-269`; a dictionary is the
list of its items in the order of insertion. -/
def push {κ β : Type*} [DecidableEq κ] (k : κ) (v : β) : List (κ × List β) → List (κ × List β)
  | [] => [(k, [v])]
  | e :: rest => if e.1 = k then (e.1, e.2 ++ [v]) :: rest else e :: push k v rest

/-- `scoring` in `rank`, `statistic/ranking.py:245`. -/
abbrev Scoring (K : Type*) := List ((String × String) × List (String × K))

/-- The loop over the metrics, `statistic/ranking.py:256-269`. -/
def addMetrics (problem algo : String) : List (String × List K) → Scoring K → Option (Scoring K)
  | [], scoring => some scoring
  | e :: rest, scoring =>
    if (bestFunc e.1).isSome then
      match score e.2 with
      | none => none
      | some x => addMetrics problem algo rest (push (problem, e.1) (algo, x) scoring)
    else addMetrics problem algo rest scoring

/-- The body of the loop over the algorithms of a problem, `statistic/ranking.py:251-269`. -/
def addAlgo (problem : String) (scoring : Scoring K) (algo : String × List (Res K)) :
    Option (Scoring K) :=
  match findResult (algo.2.map fun r => ⟨r.1, yieldMetrics r⟩) with
  | none => none
  | some none => some scoring
  | some (some g) => addMetrics problem algo.1 g.analysis scoring

/-- The loops of `statistic/ranking.py:248-269`. -/
def collect (dirs : Dirs K) : Option (Scoring K) :=
  dirs.foldlM (fun scoring problem => problem.2.foldlM (addAlgo problem.1) scoring) []

/-- `c[a] += 1` for a `Counter`, as in `Counter.update`. -/
def bump {κ : Type*} [DecidableEq κ] (a : κ) : List (κ × ℕ) → List (κ × ℕ)
  | [] => [(a, 1)]
  | e :: rest => if e.1 = a then (e.1, e.2 + 1) :: rest else e :: bump a rest

/-- `global_scoring[m].update(names)`, `statistic/ranking.py:285-289`. -/
def award {κ : Type*} [DecidableEq κ] (m : κ) (names : List String) :
    List (κ × List (String × ℕ)) → List (κ × List (String × ℕ))
  | [] => [(m, names.foldl (fun c a => bump a c) [])]
  | e :: rest =>
    if e.1 = m then (e.1, names.foldl (fun c a => bump a c) e.2) :: rest else e :: award m names rest

/-- `Counter.most_common()`: the items by decreasing count, equal ones in the order of insertion. -/
def mostCommon {κ : Type*} (c : List (κ × ℕ)) : List (κ × ℕ) := c.insertionSort fun x y => y.2 ≤ x.2

/-- What `rank` prints: the winner for every problem and metric, `statistic/ranking.py:273-277`, and
the ranking for every metric, lines 291-299. -/
structure Printed where
  problems : List ((String × String) × String)
  overall : List (String × List (String × ℕ))

/-- The loop of `statistic/ranking.py:274-289` over the items of `scoring`, with `eps` =
`sys.float_info.epsilon`. -/
def judge (eps : K) : Scoring K → Printed → Option Printed
  | [], out => some out
  | e :: rest, out =>
    match bestFunc e.1.2, winnerTolerance (K := K) e.1.2 with
    | some isMax, some tol =>
      let better : K → K → Bool := fun x y => if isMax then decide (y < x) else decide (x < y)
      match bestOf better e.2, awards eps better e.2 tol with
      | some w, some names =>
        judge eps rest ⟨out.problems ++ [(e.1, w.1)], award e.1.2 names out.overall⟩
      | _, _ => none
    | _, _ => none

/-- `rank`, `statistic/ranking.py:237-299`. -/
def rank (eps : K) (dirs : Dirs K) : Option Printed :=
  match collect dirs with
  | none => none
  | some scoring =>
    (judge eps scoring ⟨[], []⟩).map fun out =>
      ⟨out.problems, out.overall.map fun e => (e.1, mostCommon e.2)⟩

end

end Evogil.RankingRun
