import Verif.Spec.RankingRun

/-!
# What the figures should show
-/

namespace Evogil.Spec

variable {K : Type*} [Field K] [LinearOrder K]

/-- Problems, the algorithms of a problem and the groups (budgets or times) of an algorithm occur once,
and every metric has a value for every result. -/
structure Filed (dirs : List (String × List (String × List (K × (String → List K))))) : Prop where
  problems : (dirs.map Prod.fst).Nodup
  algos : ∀ p ∈ dirs, (p.2.map Prod.fst).Nodup
  groups : ∀ p ∈ dirs, ∀ a ∈ p.2, (a.2.map Prod.fst).Nodup
  values : ∀ p ∈ dirs, ∀ a ∈ p.2, ∀ g ∈ a.2, ∀ m, g.2 m ≠ []

/-- The algorithms that have a curve, in the order of the legend. -/
def legend : List String :=
  ["NSGAII", "IBEA", "OMOPSO", "NSGAIII", "JGBL", "NSLS",
    "IMGA+NSGAII", "IMGA+IBEA", "IMGA+OMOPSO", "IMGA+NSGAIII", "IMGA+JGBL", "IMGA+NSLS",
    "HGS+NSGAII", "HGS+IBEA", "HGS+OMOPSO", "HGS+NSGAIII", "HGS+JGBL", "HGS+NSLS",
    "DHGS+NSGAII", "DHGS+IBEA", "DHGS+OMOPSO", "DHGS+NSGAIII", "DHGS+JGBL", "DHGS+NSLS"]

/-- The metrics that have a figure. -/
def drawn : List String := ["gd", "igd", "ahd", "spacing", "hypervolume", "pdi"]

/-- The curve of an algorithm for a metric: one point per group at the mean, from left to right. -/
def IsCurve (groups : List (K × (String → List K))) (metric : String) (points : List (K × K)) : Prop :=
  points.Pairwise (fun x y => x.1 < y.1) ∧
    points.Perm (groups.map fun g => (g.1, meanOf (g.2 metric)))

/-- What the curves of a problem show for a metric: of the algorithms of the legend those with results,
each with its curve, in the order of the legend. -/
structure CurvesOk (algos : List (String × List (K × (String → List K)))) (metric : String)
    (curves : List (String × List (K × K))) : Prop where
  order : (curves.map Prod.fst).Sublist legend
  all : ∀ a ∈ algos, a.2 ≠ [] → a.1 ∈ curves.map Prod.fst
  each : ∀ c ∈ curves, ∃ a ∈ algos, a.1 = c.1 ∧ a.2 ≠ [] ∧ IsCurve a.2 metric c.2

/-! ## The summary -/

/-- The problems of the summary, from left to right. -/
def axis : List String :=
  ["EWA1", "EWA2", "ZDT1", "ZDT2", "ZDT3", "ZDT4", "ZDT6", "UF1", "UF2", "UF3", "UF4", "UF5", "UF6", "UF7",
    "UF8", "UF9", "UF10", "UF11", "UF12"]

/-- The logarithmic scores of the algorithms for one problem and one metric. -/
def logScores (ln : K → K) (algos : List (String × List (K × (String → List K)))) (metric : String) :
    List (String × K) :=
  (scores algos metric).map fun e => (e.1, ln (|e.2| + 1))

/-- The height at which an algorithm is shown: its logarithmic score in proportion to the largest one (a
little increased), for the pdi the score itself. -/
def height (ln : K → K) (algos : List (String × List (K × (String → List K)))) (metric algo : String) :
    Option K :=
  match ((logScores ln algos metric).map Prod.snd).max? with
  | none => none
  | some largest => ((logScores ln algos metric).find? fun e => decide (e.1 = algo)).map fun e =>
      if metric = "pdi" then e.2 else e.2 / (largest + 1 / 10000)

/-- The points of an algorithm: one for every problem for which a result counts. -/
def heights (ln : K → K) (dirs : List (String × List (String × List (K × (String → List K)))))
    (metric algo : String) : List (String × K) :=
  axis.filterMap fun p => (dirs.find? fun q => decide (q.1 = p)).bind fun q =>
    (height ln q.2 metric algo).map fun y => (p, y)

/-! ## The violins -/

/-- The sample of an algorithm for a problem and a metric: the values of the group that counts. -/
def sample (dirs : List (String × List (String × List (K × (String → List K))))) (problem metric algo : String) :
    Option (List K) :=
  (dirs.find? fun q => decide (q.1 = problem)).bind fun q =>
    (q.2.find? fun a => decide (a.1 = algo)).bind fun a => (counted a.2).map fun value => value metric

/-- The violins of a figure: the samples of the algorithms of the legend that are not zero throughout, with
`eps` instead of zeros. -/
def violins (eps : K) (dirs : List (String × List (String × List (K × (String → List K)))))
    (problem metric : String) : List (String × List K) :=
  legend.filterMap fun a => (sample dirs problem metric a).bind fun l =>
    if ∀ x ∈ l, x = 0 then none else some (a, l.map fun x => if x = 0 then eps else x)

/-! ## The fronts -/

/-- The algorithms whose fronts are shown. -/
def fronted : List String :=
  legend ++ ["SPEA2", "IMGA+SPEA2", "HGS+SPEA2", "DHGS+SPEA2"]

/-- The budget that counts (see `counted`). -/
def countedBudget (groups : List (K × (String → List K))) : Option K :=
  match groups.getLast? with
  | none => none
  | some last =>
    ((groups.filter fun g => decide (meanOf (g.2 "cost") ≤ last.1 + 500)).getLast?).map Prod.fst

/-- What is seen of a front of the given number of objectives: the first two or three of them. -/
def seen (objectives : ℕ) (front : List (List K)) : List (List K) :=
  front.map fun v => v.take (if objectives ≤ 2 then 2 else 3)

/-- Every algorithm has groups of results, every group has costs and runs, and every run has a front of
vectors of the same number of objectives, two at least. -/
structure Runs (objectives : ℕ) (groups : List (K × (String → List K))) (runs : K → List (List (List K))) : Prop where
  two : 2 ≤ objectives
  some : groups ≠ []
  costs : ∀ g ∈ groups, g.2 "cost" ≠ []
  stored : ∀ g ∈ groups, runs g.1 ≠ []
  fronts : ∀ g ∈ groups, ∀ front ∈ runs g.1, front ≠ [] ∧ ∀ v ∈ front, v.length = objectives

/-- A front that is surpassed by another one: each of its points is dominated. -/
def Surpassed (front other : List (List K)) : Prop :=
  ∀ v ∈ front, ∃ w ∈ other, List.Forall₂ (· ≤ ·) w v ∧ w ≠ v

end Evogil.Spec
