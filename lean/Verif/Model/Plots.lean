import Verif.Model.RankingRun
import Mathlib.Data.String.Basic

/-!
# What the figures show

The commands `pictures`, `pictures_summary`, `violin` and `best_fronts` of `evogil.py:117-130`:
`pictures_time` and `pictures_summary` in `plots/pictures.py`, `plots/violin.py` and
`plots/best_fronts.py`. They read the same directories as `rank` (`Verif.Model.RankingRun`).

Simplified: as in `Verif.Model.RankingRun`; of a figure the data handed to matplotlib are kept, not the
colours, fonts and file names; matplotlib itself is taken not to raise. The standard deviations that
`plot_results` carries along without drawing them are left out. `none` means that the code raises.
-/

namespace Evogil.Plots

open RankingRun

/-! ## The tables at the head of `plots/pictures.py` -/

/-- `drivers`, `simulation/run_config.py:3`. -/
def drivers : List String := ["SPEA2", "IBEA", "NSGAII", "OMOPSO", "NSGAIII", "JGBL", "SMSEMOA", "NSLS"]

/-- `metaalgorithms`, `simulation/run_config.py:5`. -/
def metaalgorithms : List String := ["IMGA", "HGS", "DHGS"]

/-- The drivers for which there is a constant `…_LS`, `plots/pictures.py:39-45`. -/
def lineStyles : List String := ["SPEA2", "NSGAII", "NSGAIII", "IBEA", "OMOPSO", "JGBL", "NSLS"]

/-- The drivers for which there is a constant `…_M`, `plots/pictures.py:47-53`. -/
def markers : List String := ["SPEA2", "NSGAII", "IBEA", "OMOPSO", "NSGAIII", "JGBL", "NSLS"]

/-- The names for which there is a constant `…_CL`, `plots/pictures.py:55-58`. -/
def colours : List String := ["BARE", "IMGA", "HGS", "DHGS"]

/-- The keys of `algos`, `plots/pictures.py:60-73`. -/
def algos : List String :=
  (metaalgorithms ++ ["BARE"]).flatMap fun prefixName =>
    drivers.filterMap fun algo =>
      if algo ∈ lineStyles ∧ algo ∈ markers ∧ prefixName ∈ colours then
        some (if prefixName ≠ "BARE" then prefixName ++ "+" ++ algo else algo)
      else none

/-- `algos_base`, `plots/pictures.py:77-79`. -/
def algosBase : List String := ["NSGAII", "IBEA", "OMOPSO", "NSGAIII", "JGBL", "NSLS"]

/-- `algos_order`, `plots/pictures.py:77-81`. -/
def algosOrder : List String :=
  algosBase ++ metaalgorithms.flatMap fun prefixName => algosBase.map fun algo => prefixName ++ "+" ++ algo

/-- `algos_groups_configuration`, `plots/pictures.py:84` and `145`. -/
def groupsConfiguration : List (List String × List String) := [(algosOrder, [""])]

/-- `algos_groups`, `plots/pictures.py:147-151`. -/
def algosGroups : List (String × List String) :=
  groupsConfiguration.flatMap fun c => c.1.map fun a => (a, c.2)

/-- `problems_order`, `plots/pictures.py:123-143`. -/
def problemsOrder : List String :=
  ["EWA1", "EWA2", "ZDT1", "ZDT2", "ZDT3", "ZDT4", "ZDT6", "UF1", "UF2", "UF3", "UF4", "UF5", "UF6", "UF7",
    "UF8", "UF9", "UF10", "UF11", "UF12"]

/-- `d[k]` for a dictionary made from a list of pairs, as in `plots/pictures.py:147-151` and `424`: of
equal keys the last one counts. -/
def dictGet {β : Type*} (l : List (String × β)) (k : String) : Option β :=
  (l.reverse.find? fun e => decide (e.1 = k)).map Prod.snd

section
variable {K : Type*} [Field K] [LinearOrder K]

/-! ## `pictures` -/

/-- `plot_data` in `pictures_time`, `plots/pictures.py:532`: for a problem, an algorithm, a metric and a
group the times and the scores. -/
abbrev Series (K : Type*) := List ((String × String × String × String) × List (K × K))

/-- The loop over the metrics of a result, `plots/pictures.py:541-561`. -/
def addSeries (problem algo : String) (time : K) : List (String × List K) → Series K → Option (Series K)
  | [], d => some d
  | e :: rest, d =>
    if (bestFunc e.1).isSome then
      let name := if e.1 = "dst from pareto" then "dst" else e.1
      match score e.2, dictGet algosGroups algo with
      | some x, some groups =>
        addSeries problem algo time rest
          (groups.foldl (fun d g => push (problem, algo, name, g) (time, x) d) d)
      | _, _ => none
    else addSeries problem algo time rest d

/-- The loops of `plots/pictures.py:534-561`; the results are those of the time slots, `Res.1` is the
time. -/
def collectTime (dirs : Dirs K) : Option (Series K) :=
  dirs.foldlM (fun d problem => problem.2.foldlM (fun d algo =>
    algo.2.foldlM (fun d r => addSeries problem.1 algo.1 r.1 (yieldMetrics r) d) d) d) []

/-- A figure of `plot_results`, `plots/pictures.py:395-473`: what it is about, the visible range of the
times and for every algorithm drawn the points of its line. -/
structure Figure (K : Type*) where
  problem : String
  metric : String
  group : String
  range : K × K
  curves : List (String × List (K × K))

/-- `to_plot`, `plots/pictures.py:378-393`. -/
def toPlot (results : Series K) : List ((String × String × String) × List (String × List (K × K))) :=
  results.foldl (fun d e =>
    push (e.1.1, e.1.2.2) (e.1.2.1, e.2.insertionSort fun x y => x.1 ≤ y.1) d) []

/-- The loop over `algos_order`, `plots/pictures.py:426-440`, on the dictionary of line 424. -/
def curves (data : List (String × List (K × K))) : List String → Option (List (String × List (K × K)))
  | [] => some []
  | a :: rest =>
    match dictGet data a with
    | none => curves data rest
    | some points => if a ∈ algos then (curves data rest).map fun l => (a, points) :: l else none

/-- `plot_results`, `plots/pictures.py:375-473`. -/
def plotResults (results : Series K) (range : K × K) : Option (List (Figure K)) :=
  (toPlot results).mapM fun e =>
    (curves (e.2.insertionSort fun x y => x.1 ≤ y.1) algosOrder).map fun c =>
      ⟨e.1.1, e.1.2.1, e.1.2.2, range, c⟩

/-- `pictures_time`, `plots/pictures.py:524-564`. The maximum of a list of tuples has the largest first
component. -/
def picturesTime (dirs : Dirs K) : Option (List (Figure K)) :=
  match collectTime dirs with
  | none => none
  | some [] => none
  | some (e :: rest) =>
    match (e.2.map Prod.fst).max? with
    | none => none
    | some maxTime => plotResults (e :: rest) (0, maxTime)

/-! ## `pictures_summary` -/

/-- `d[k]` for a dictionary. -/
def dget {κ β : Type*} [DecidableEq κ] (k : κ) : List (κ × β) → Option β
  | [] => none
  | e :: rest => if e.1 = k then some e.2 else dget k rest

/-- `d[k]` replaced by `f(d[k])` in a `defaultdict` with the default `b`, as in `plots/pictures.py:651`
and `665` and `plots/violin.py:47-49`. -/
def dset {κ β : Type*} [DecidableEq κ] (k : κ) (b : β) (f : β → β) : List (κ × β) → List (κ × β)
  | [] => [(k, f b)]
  | e :: rest => if e.1 = k then (e.1, f e.2) :: rest else e :: dset k b f rest

/-- `scoring` in `pictures_summary`, `plots/pictures.py:621`: by metric, algorithm and problem. -/
abbrev Summary (K : Type*) := List (String × List (String × List (String × K)))

/-- The loop over the metrics of the accepted result of an algorithm, `plots/pictures.py:638-652`, on
`scoring` and `problem_score`; `ln` is `math.log`. -/
def addSummary (ln : K → K) (problem algo : String) : List (String × List K) →
    Summary K × List (String × List (String × K)) → Option (Summary K × List (String × List (String × K)))
  | [], d => some d
  | e :: rest, d =>
    if (bestFunc e.1).isSome then
      match score e.2 with
      | none => none
      | some x =>
        let s := ln (|x| + 1)
        addSummary ln problem algo rest
          (dset e.1 [] (dset algo [] (dset problem s fun _ => s)) d.1, push e.1 (algo, s) d.2)
    else addSummary ln problem algo rest d

/-- The body of the loop over the algorithms, `plots/pictures.py:630-654`. -/
def summaryAlgo (ln : K → K) (problem : String) (d : Summary K × List (String × List (String × K)))
    (algo : String × List (Res K)) : Option (Summary K × List (String × List (String × K))) :=
  match findResult (algo.2.map fun r => ⟨r.1, yieldMetrics r⟩) with
  | none => none
  | some none => some d
  | some (some g) => addSummary ln problem algo.1 g.analysis d

/-- The loop of `plots/pictures.py:662-667`: the scores of the problem are divided by the largest one. -/
def scale (problem : String) (c : K) (names : List String) (d : List (String × List (String × K))) :
    List (String × List (String × K)) :=
  names.foldl (fun d a =>
    if ((dget a d).bind (dget problem)).isSome then dset a [] (dset problem 0 fun x => x / c) d else d) d

/-- The loop of `plots/pictures.py:656-667` over the metrics of `scoring`; `max` raises for a metric for
which the problem has no score. -/
def normalize (problem : String) (names : List String) (scores : List (String × List (String × K))) :
    Summary K → Option (Summary K)
  | [] => some []
  | e :: rest =>
    if e.1 ≠ "pdi" then
      match ((((dget e.1 scores).getD []).map Prod.snd).max?) with
      | none => none
      | some m =>
        (normalize problem names scores rest).map fun l =>
          (e.1, scale problem (m + 1 / 10000) names e.2) :: l
    else (normalize problem names scores rest).map fun l => e :: l

/-- The body of the loop over the problems, `plots/pictures.py:624-667`. -/
def summaryProblem (ln : K → K) (d : Summary K) (p : String × List (String × List (Res K))) :
    Option (Summary K) :=
  match p.2.foldlM (summaryAlgo ln p.1) (d, []) with
  | none => none
  | some (scoring, scores) => normalize p.1 (p.2.map Prod.fst) scores scoring

/-- A figure of `plot_results_summary`, `plots/pictures.py:567-610`: the metric, the labels, the visible
range (if it is set) and for every algorithm the labelled points and whether they are joined by a line. -/
structure SummaryFigure (K : Type*) where
  metric : String
  labels : List String
  window : Option (K × K)
  points : List (String × List (String × K) × Bool)

/-- The loop of `plots/pictures.py:585-590`: the points of an algorithm. -/
def summaryPoints (labels : List String) (n : ℕ) (score : List (String × K)) :
    Option (List (String × K)) :=
  ((List.range n).mapM fun x => (labels[x]?).map fun problem =>
    ((dget problem score).map fun y => (problem, y)).toList).map List.flatten

/-- `plt.ylim`, `plots/pictures.py:577-580`. -/
def window (metric : String) : Option (K × K) :=
  if metric = "hypervolume" then some (98 / 100, 1001 / 1000)
  else if metric ≠ "pdi" then some (-1 / 10, 11 / 10)
  else none

/-- `plot_results_summary`, `plots/pictures.py:567-610`; `problems` is a set, given by its elements. -/
def plotSummary (problems : List String) (selected : List String) (scoring : Summary K) :
    Option (List (SummaryFigure K)) :=
  scoring.mapM fun e =>
    let labels := problemsOrder.filter fun p => decide (p ∈ problems)
    (algosOrder.mapM fun algo =>
      if algo ∈ algos then
        (summaryPoints labels problems.length ((dget algo e.2).getD [])).map fun pts =>
          (algo, pts, decide (algo ∈ selected))
      else none).map fun points => ⟨e.1, labels, window e.1, points⟩

/-- `pictures_summary`, `plots/pictures.py:613-671`; `selected` is `args["--selected"].upper().split(",")`. -/
def picturesSummary (ln : K → K) (selected : List String) (dirs : Dirs K) :
    Option (List (SummaryFigure K)) :=
  match dirs.foldlM (summaryProblem ln) [] with
  | none => none
  | some scoring => plotSummary (dirs.map Prod.fst).dedup selected scoring

/-! ## `violin` -/

/-- `global_data` in `violin`, `plots/violin.py:32`. -/
abbrev Samples (K : Type*) := List ((String × String) × List (String × List K))

/-- The body of the loop over the algorithms, `plots/violin.py:41-49`. -/
def violinAlgo (problem : String) (d : Samples K) (algo : String × List (Res K)) : Option (Samples K) :=
  match findResult (algo.2.map fun r => ⟨r.1, yieldMetrics r⟩) with
  | none => none
  | some none => some d
  | some (some g) =>
    some ((g.analysis.filter fun e => (bestFunc e.1).isSome).foldl
      (fun d e => dset (problem, e.1) [] (dset algo.1 [] fun _ => e.2) d) d)

/-- `prepare_data`, `plots/violin.py:27-28`, with `eps` = `sys.float_info.epsilon`. -/
def prepareData (eps : K) (data : List (List K)) : List (List K) :=
  data.map fun d => d.map fun v => if v ≠ 0 then v else eps

/-- A figure of `violin`, `plots/violin.py:58-103`: problem, metric and for every violin the algorithm and
the sample. -/
structure ViolinFigure (K : Type*) where
  problem : String
  metric : String
  violins : List (String × List K)

/-- The body of the loop over the data, `plots/violin.py:53-103`. -/
def violinFigure (eps : K) (e : (String × String) × List (String × List K)) : Option (ViolinFigure K) :=
  let accepted := algosOrder.filter fun a =>
    (dget a e.2).any fun l => decide (l ≠ List.replicate l.length 0)
  let data := prepareData eps (accepted.map fun a => (dget a e.2).getD [])
  if data ≠ [] then some ⟨e.1.1, e.1.2, List.zip accepted data⟩ else none

/-- `violin`, `plots/violin.py:31-109`: the figures, or `none` if it raises. Reading
`global_data[("UF2", "pdi")]` in line 51 makes an entry. -/
def violin (eps : K) (dirs : Dirs K) : Option (List (ViolinFigure K)) :=
  (dirs.foldlM (fun (d : Samples K) (problem : String × List (String × List (Res K))) =>
    problem.2.foldlM (violinAlgo problem.1) d) []).map fun d =>
    (dset ("UF2", "pdi") [] id d).filterMap (violinFigure eps)

/-! ## `best_fronts` -/

/-- What `best_fronts` reads of an algorithm: its groups of results and, by budget, the objective vectors of
the results (`best_result["results"]`, `simulation/serialization.py:57-60, 99-105`). -/
abbrev Stored (K : Type*) := List (Res K) × (K → List (List (List K)))

/-- The coordinates of a point, `plots/best_fronts.py:72-86` (without the non-dominated points, which are
the empty set for `best_fronts`): three of them if the first vector has more than two objectives. -/
def coordinates (first : List K) (v : List K) : Option (List K) :=
  match v with
  | x :: y :: rest =>
    if 2 < first.length then rest.head?.map fun z => [x, y, z] else some [x, y]
  | _ => none

/-- `plot_results`, `plots/best_fronts.py:69-106`: the points of an algorithm; `fitnesses[0]` raises for an
empty front and `algos[best_result_name]` for an unknown algorithm. -/
def plotFront (algo : String) (front : List (List K)) : Option (String × List (List K)) :=
  if algo ∈ algos then
    match front with
    | [] => none
    | first :: rest => ((first :: rest).mapM (coordinates first)).map fun pts => (algo, pts)
  else none

/-- The body of the loop over the algorithms, `plots/best_fronts.py:148-153`: nothing or one series of
points. -/
def frontAlgo (algo : String × Stored K) : Option (List (String × List (List K))) :=
  match findResult (algo.2.1.map fun r => ⟨r.1, yieldMetrics r⟩) with
  | none => none
  | some none => some []
  | some (some g) =>
    if algo.1 ∈ algos then
      match algo.2.2 g.budget with
      | [] => none
      | best :: _ => (plotFront algo.1 best).map fun s => [s]
    else some []

/-- `best_fronts`, `plots/best_fronts.py:136-155`: for every problem the series of points. Left out: the
reference front, which is drawn in the background (lines 24-56). -/
def bestFronts (dirs : List (String × List (String × Stored K))) :
    Option (List (String × List (String × List (List K)))) :=
  dirs.mapM fun problem => (problem.2.mapM frontAlgo).map fun l => (problem.1, l.flatten)

end

end Evogil.Plots
