import Verif.Model.RankingRun

/-!
# The ranking by budget and the table of three result sets

`detailed_rank` (`statistic/ranking.py:186-234`) and `table_rank` (lines 49-183), which are run by
`evogil.py rank_details` and `evogil.py table`. They read the same directories as `rank`
(`Verif.Model.RankingRun`), one board for each of the directories in `result_dirs` (line 35).

Simplified: as in `Verif.Model.RankingRun`; of what is printed, the rows are kept as data, without the
LaTeX around them and without the label of the budget. `none` means that the code raises.
-/

namespace Evogil.RankingRun

open Statistics

section
variable {K : Type*} [Field K] [LinearOrder K]

/-- The loop over the metrics of a result, `statistic/ranking.py:206-219` and `83-96`; `key` makes the
key of `scoring` from the name of the metric. -/
def addScores {κ : Type*} [DecidableEq κ] (key : String → κ) (algo : String) :
    List (String × List K) → List (κ × List (String × K)) → Option (List (κ × List (String × K)))
  | [], scoring => some scoring
  | e :: rest, scoring =>
    if (bestFunc e.1).isSome then
      match score e.2 with
      | none => none
      | some x => addScores key algo rest (push (key e.1) (algo, x) scoring)
    else addScores key algo rest scoring

/-- The order of the keys `(budget, metric_name)`, tuples of Python, `statistic/ranking.py:227`. -/
def keyLe (x y : K × String) : Prop := x.1 < y.1 ∨ x.1 = y.1 ∧ x.2 ≤ y.2

instance : DecidableRel (keyLe (K := K)) := fun _ _ => inferInstanceAs (Decidable (_ ∨ _ ∧ _))

/-! ## `detailed_rank` -/

/-- `scoring` in `detailed_rank`, `statistic/ranking.py:196`. -/
abbrev DetailedScoring (K : Type*) := List ((String × K × String) × List (String × K))

/-- The body of the loop over the results of an algorithm, `statistic/ranking.py:204-219`, with
`validate_cost` of `statistic/stats_bootstrap.py:6-14` and its default `delta=500`. -/
def detailedGroup (problem algo : String) (scoring : DetailedScoring K) (r : Res K) :
    Option (DetailedScoring K) :=
  match validate (r.1 + 500) (yieldMetrics r) with
  | none => none
  | some (false, _) => some scoring
  | some (true, left) => addScores (fun m => (problem, r.1, m)) algo left scoring

/-- The loops of `statistic/ranking.py:199-219`. -/
def detailedCollect (dirs : Dirs K) : Option (DetailedScoring K) :=
  dirs.foldlM (fun scoring problem =>
    problem.2.foldlM (fun scoring algo => algo.2.foldlM (detailedGroup problem.1 algo.1) scoring) scoring) []

/-- The loop of `statistic/ranking.py:223-227`: the winner of each entry gets a point. -/
def detailedJudge : DetailedScoring K → List ((K × String) × List (String × ℕ)) →
    Option (List ((K × String) × List (String × ℕ)))
  | [], d => some d
  | e :: rest, d =>
    match bestFunc e.1.2.2 with
    | none => none
    | some isMax =>
      let better : K → K → Bool := fun x y => if isMax then decide (y < x) else decide (x < y)
      match bestOf better e.2 with
      | none => none
      | some w => detailedJudge rest (award e.1.2 [w.1] d)

/-- The rows that `detailed_rank` prints for one directory of results, `statistic/ranking.py:194-234`. -/
def detailedRank (dirs : Dirs K) : Option (List ((K × String) × List (String × ℕ))) :=
  match detailedCollect dirs with
  | none => none
  | some scoring =>
    (detailedJudge scoring []).map fun d =>
      (d.insertionSort fun x y => keyLe x.1 y.1).map fun e => (e.1, mostCommon e.2)

/-! ## `table_rank` -/

/-- `results` in `table_rank`, `statistic/ranking.py:55-57`: points by budget and metric, by directory and
by algorithm. -/
abbrev TableResults (K : Type*) := List ((K × String) × List (String × List (String × ℕ)))

/-- The only budget that is looked at, `statistic/ranking.py:71`. -/
def tableBudget : K := 40

/-- The body of the loop over the results of an algorithm, `statistic/ranking.py:69-96`. The cost of a
result does not matter here, its analysis is read from the beginning. -/
def tableGroup (algo : String) (scoring : List ((K × String) × List (String × K))) (r : Res K) :
    Option (List ((K × String) × List (String × K))) :=
  if r.1 = tableBudget then addScores (fun m => (r.1, m)) algo (yieldMetrics r) scoring else some scoring

/-- `scoring` of one problem, `statistic/ranking.py:65-96`. -/
def tableCollect (algos : List (String × List (Res K))) :
    Option (List ((K × String) × List (String × K))) :=
  algos.foldlM (fun scoring algo => algo.2.foldlM (tableGroup algo.1) scoring) []

/-- `results[k][result_set].update(names)`, `statistic/ranking.py:112-119`. -/
def award2 (k : K × String) (set : String) (names : List String) : TableResults K → TableResults K
  | [] => [(k, award set names [])]
  | e :: rest => if e.1 = k then (e.1, award set names e.2) :: rest else e :: award2 k set names rest

/-- The loop of `statistic/ranking.py:98-119` over the sorted keys of `scoring`. -/
def tableJudge (eps : K) (set : String) : List ((K × String) × List (String × K)) → TableResults K →
    Option (TableResults K)
  | [], d => some d
  | e :: rest, d =>
    match bestFunc e.1.2, winnerTolerance (K := K) e.1.2 with
    | some isMax, some tol =>
      match awards eps (fun x y => if isMax then decide (y < x) else decide (x < y)) e.2 tol with
      | some names => tableJudge eps set rest (award2 e.1 set names d)
      | none => none
    | _, _ => none

/-- One problem of one directory, `statistic/ranking.py:62-119`. -/
def tableProblem (eps : K) (set : String) (d : TableResults K) (p : String × List (String × List (Res K))) :
    Option (TableResults K) :=
  match tableCollect p.2 with
  | none => none
  | some scoring => tableJudge eps set (scoring.insertionSort fun x y => keyLe x.1 y.1) d

/-- The loops of `statistic/ranking.py:59-119` over the directories, given by name and content. -/
def tableResults (eps : K) (sets : List (String × Dirs K)) : Option (TableResults K) :=
  sets.foldlM (fun d set => set.2.foldlM (tableProblem eps set.1) d) []

/-- `format_result`, `statistic/ranking.py:180-183`: algorithm, points and whether there is a star. -/
def formatResult (algoScore : String × ℕ) (results : List ℕ) (count : ℕ) : String × ℕ × Bool :=
  (algoScore.1, algoScore.2, decide (count < results.count algoScore.2))

/-- A cell of the table, `statistic/ranking.py:159-173`. -/
def tableCell (counter : List (String × ℕ)) : List (String × ℕ × Bool) :=
  let values := counter.map Prod.snd
  match (mostCommon counter).take 2 with
  | [x, y] => [formatResult x values 2, formatResult y values (if x.2 ≠ y.2 then 1 else 2)]
  | [x] => [formatResult x values 2]
  | _ => []

/-- `metrics_order`, `statistic/ranking.py:24`. -/
def metricsOrder : List String := ["ahd", "gd", "igd", "hypervolume", "pdi", "spacing"]

/-- `d[set]` for a `defaultdict(Counter)`, `statistic/ranking.py:158`. -/
def lookupCounter (set : String) : List (String × List (String × ℕ)) → List (String × ℕ)
  | [] => []
  | e :: rest => if e.1 = set then e.2 else lookupCounter set rest

/-- The rows of the table, `statistic/ranking.py:144-175`: budget and metric, and one cell for each
directory. All metrics in `results` occur in `metricsOrder`, so `index` does not raise. -/
def tableRank (eps : K) (sets : List (String × Dirs K)) :
    Option (List ((K × String) × List (List (String × ℕ × Bool)))) :=
  (tableResults eps sets).map fun d =>
    ((d.insertionSort fun x y => metricsOrder.idxOf x.1.2 ≤ metricsOrder.idxOf y.1.2).insertionSort
      fun x y => x.1.1 ≤ y.1.1).map fun e =>
        (e.1, sets.map fun set => tableCell (lookupCounter set.1 e.2))

end

end Evogil.RankingRun
