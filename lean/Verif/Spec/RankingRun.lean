import Verif.Spec.Ranking

/-!
# What the ranking should say

A scoreboard is a list of problems with their algorithms; each of the groups of results of an algorithm
is given by its budget and the values of the metrics.
-/

namespace Evogil.Spec

variable {K : Type*} [Field K] [LinearOrder K]

/-- The arithmetic mean. -/
def meanOf (l : List K) : K := l.sum / (l.length : K)

/-- The metrics that are ranked, whether the larger or the smaller value is better, and the relative
difference up to which two values count as equally good. -/
def ranked : List (String × Sense × K) :=
  [("hypervolume", .max, 5 / 1000), ("pdi", .max, 5 / 1000), ("gd", .min, 5 / 100),
    ("igd", .min, 5 / 100), ("ahd", .min, 5 / 100), ("spacing", .min, 5 / 100)]

/-- The group that counts: the one of the largest budget among those that on average did not spend more
than 500 evaluations above the largest budget of all. The groups are given by increasing budget. -/
def counted (groups : List (K × (String → List K))) : Option (String → List K) :=
  match groups.getLast? with
  | none => none
  | some last =>
    ((groups.filter fun g => decide (meanOf (g.2 "cost") ≤ last.1 + 500)).getLast?).map Prod.snd

/-- The scores of the algorithms for one problem and one metric. -/
def scores (algos : List (String × List (K × (String → List K)))) (metric : String) :
    List (String × K) :=
  algos.filterMap fun a => (counted a.2).map fun value => (a.1, meanOf (value metric))

/-- The best value of a list. -/
def bestValue : Sense → List K → Option K
  | .max, l => l.max?
  | .min, l => l.min?

/-- The points an algorithm deserves for one table of scores: two if nobody else is close to the best
score, one if it shares that place, otherwise none. -/
def deserved (eps tol : K) (s : Sense) (table : List (String × K)) (a : String) : ℕ :=
  match bestValue s (table.map Prod.snd) with
  | none => 0
  | some b =>
    if closeNames eps tol b table = [a] then 2
    else if a ∈ closeNames eps tol b table then 1
    else 0

/-- Problems and the algorithms of a problem have different names, every algorithm has results, every
metric has a value for every result, and no value is negative. -/
structure Board (dirs : List (String × List (String × List (K × (String → List K))))) : Prop where
  problems : (dirs.map Prod.fst).Nodup
  algos : ∀ p ∈ dirs, (p.2.map Prod.fst).Nodup
  groups : ∀ p ∈ dirs, ∀ a ∈ p.2, a.2 ≠ []
  values : ∀ p ∈ dirs, ∀ a ∈ p.2, ∀ g ∈ a.2, ∀ m, g.2 m ≠ [] ∧ ∀ x ∈ g.2 m, 0 ≤ x

/-- The same problems with the same algorithms, listed in any order. -/
def SameBoard (dirs dirs' : List (String × List (String × List (K × (String → List K))))) : Prop :=
  ∃ mid, dirs.Perm mid ∧ List.Forall₂ (fun p q => p.1 = q.1 ∧ p.2.Perm q.2) mid dirs'

end Evogil.Spec
