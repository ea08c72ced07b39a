import Verif.Spec.RankingRun

/-!
# What the ranking by budget and the table should say
-/

namespace Evogil.Spec

variable {K : Type*} [Field K] [LinearOrder K]

/-- The scores of the algorithms for one problem, one budget and one metric: those whose results for this
budget did on average not cost more than 500 evaluations above it. -/
def budgetScores (algos : List (String × List (K × (String → List K)))) (budget : K) (metric : String) :
    List (String × K) :=
  algos.flatMap fun a => (a.2.filter fun g => decide (g.1 = budget ∧ meanOf (g.2 "cost") ≤ budget + 500)).map
    fun g => (a.1, meanOf (g.2 metric))

/-- The scores of the algorithms for one problem, one budget and one metric, whatever the results
cost. -/
def rawScores (algos : List (String × List (K × (String → List K)))) (budget : K) (metric : String) :
    List (String × K) :=
  algos.flatMap fun a => (a.2.filter fun g => decide (g.1 = budget)).map fun g => (a.1, meanOf (g.2 metric))

/-- The first name with the best score. -/
def firstBest (s : Sense) (table : List (String × K)) : Option String :=
  (table.find? fun e => decide (bestValue s (table.map Prod.snd) = some e.2)).map Prod.fst

/-- Problems, the algorithms of a problem and the budgets of an algorithm occur once, every metric has a
value for every result, and no value is negative. -/
structure Tidy (dirs : List (String × List (String × List (K × (String → List K))))) : Prop where
  problems : (dirs.map Prod.fst).Nodup
  algos : ∀ p ∈ dirs, (p.2.map Prod.fst).Nodup
  budgets : ∀ p ∈ dirs, ∀ a ∈ p.2, (a.2.map Prod.fst).Nodup
  values : ∀ p ∈ dirs, ∀ a ∈ p.2, ∀ g ∈ a.2, ∀ m, g.2 m ≠ [] ∧ ∀ x ∈ g.2 m, 0 ≤ x

/-- A cell of the table for algorithms with the given points: at most two algorithms with points, with
their points, by decreasing number; nobody is left out in favour of someone with fewer points; there is room left
only if nobody else has points; and a star says that someone who is not shown has as many points. -/
structure CellOk (points : String → ℕ) (cell : List (String × ℕ × Bool)) : Prop where
  size : cell.length ≤ 2
  names : (cell.map Prod.fst).Nodup
  sorted : cell.Pairwise fun x y => y.2.1 ≤ x.2.1
  score : ∀ e ∈ cell, e.2.1 = points e.1 ∧ 0 < e.2.1
  best : ∀ a, a ∉ cell.map Prod.fst → ∀ e ∈ cell, points a ≤ e.2.1
  full : cell.length < 2 → ∀ a, a ∉ cell.map Prod.fst → points a = 0
  star : ∀ e ∈ cell, e.2.2 = true ↔ ∃ a, a ∉ cell.map Prod.fst ∧ points a = e.2.1

end Evogil.Spec
