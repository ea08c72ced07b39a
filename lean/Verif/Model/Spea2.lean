import Verif.Model.PySorted
import Verif.Model.Dominance
import Mathlib.Algebra.Order.Field.Basic
import Mathlib.Algebra.BigOperators.Group.List.Basic
import Mathlib.Data.Nat.Sqrt

/-!
# Model of SPEA2 (`algorithms/SPEA2/SPEA2.py`)

Individuals are dictionaries; here they are elements of a type `ι` (the objects), `obj x` is
`x["objectives"]` and `dist` is `euclid_distance` (metrics_utils.py:48-49) on objective vectors.
-/

namespace Evogil.Spea2

variable {ι : Type*} [DecidableEq ι]

section fitness
variable {K : Type*} [Field K] [LinearOrder K]

/-- `p["dominates"]`, SPEA2.py:126-130 -/
def strength (obj : ι → List K) (pop : List ι) (p : ι) : ℕ :=
  (pop.filter fun x => decide (p ≠ x) && dominates (obj p) (obj x)).length

/-- `calculate_raw_fitness`, SPEA2.py:103-104 -/
def rawFitness (obj : ι → List K) (pop : List ι) (p1 : ι) : K :=
  0 + ((pop.filter fun y => dominates (obj y) (obj p1)).map
    fun y => (strength obj pop y : K)).sum

/-- `calculate_density`, SPEA2.py:106-111; `none` is the `IndexError` of line 111.
`int(math.sqrt(n))` is the integer square root. -/
def density (dist : List K → List K → K) (obj : ι → List K) (pop : List ι) (p1 : ι) : Option K :=
  let distances := pySorted id (pop.map fun p2 => dist (obj p1) (obj p2))
  match distances[Nat.sqrt pop.length]? with
  | none => none
  | some d => some (1 / (d + 2))

/-- `p["fitness"]`, SPEA2.py:97-100 -/
def fitness (dist : List K → List K → K) (obj : ι → List K) (union : List ι) (p : ι) : Option K :=
  match density dist obj union p with
  | none => none
  | some d => some (rawFitness obj union p + d)

end fitness

section selection
variable {K : Type*} [Field K] [LinearOrder K]

/-- `get_domination_index`, SPEA2.py:157-163 -/
def dominationIndex (fit : ι → K) (sortedPop : List ι) : ℕ :=
  match sortedPop.findIdx? (fun p => decide (fit p > 1)) with
  | some i => i
  | none => sortedPop.length

/-- Lines 193-198: the leading candidates with the same distance at `level` as the first one. -/
def tied (level : ℕ) : List (ι × List K) → List (ι × List K)
  | [] => []
  | first :: rest =>
    first :: rest.takeWhile fun d => decide (d.2.getD level 0 = first.2.getD level 0)

omit [DecidableEq ι] in
theorem tied_length_le (level : ℕ) (l : List (ι × List K)) : (tied level l).length ≤ l.length := by
  cases l with
  | nil => simp [tied]
  | cons a l =>
    simp only [tied, List.length_cons]
    exact Nat.succ_le_succ ((List.takeWhile_prefix _).length_le)

/-- `get_min`, SPEA2.py:188-203. A candidate is an individual with its sorted distances (the
individuals stored beside the distances are not used). The index `level` is always valid: the
number of candidates never exceeds the number of distances; so the default value is never taken.
`none` is the `IndexError` for no candidates. -/
def getMin (distances : List (ι × List K)) (level : ℕ) : Option (ι × List K) :=
  if level ≥ distances.length then distances.head?
  else
    let sorted := pySorted (fun d : ι × List K => d.2.getD level 0) distances
    let result := tied level sorted
    if result.length > 1 then getMin result (level + 1) else result.head?
termination_by distances.length - level
decreasing_by
  have h1 := tied_length_le level (pySorted (fun d : ι × List K => d.2.getD level 0) distances)
  rw [pySorted_length] at h1
  omega

/-- The list `distances` of SPEA2.py:166-184. -/
def distanceTable (dist : List K → List K → K) (obj : ι → List K) (pop : List ι) :
    List (ι × List K) :=
  pop.map fun p => (p, pySorted id (pop.map fun p2 => dist (obj p) (obj p2)))

/-- `choose_to_truncate`, SPEA2.py:165-186 -/
def chooseToTruncate (dist : List K → List K → K) (obj : ι → List K) (pop : List ι) : Option ι :=
  (getMin (distanceTable dist obj pop) 0).map Prod.fst

/-- The loop at SPEA2.py:151-153. `list.remove` deletes the first dictionary equal to the chosen
one; `same` is that equality. `fuel` bounds the number of turns. -/
def truncLoop (same : ι → ι → Bool) (dist : List K → List K → K) (obj : ι → List K) (size : ℕ) :
    ℕ → List ι → Option (List ι)
  | fuel, environment =>
    if environment.length > size then
      match fuel with
      | 0 => none
      | fuel + 1 =>
        match chooseToTruncate dist obj environment with
        | none => none
        | some x => truncLoop same dist obj size fuel (environment.eraseP (same x))
    else some environment

/-- `environmental_selection`, SPEA2.py:140-155 -/
def environmentalSelection (same : ι → ι → Bool) (dist : List K → List K → K) (obj : ι → List K)
    (fit : ι → K) (size fuel : ℕ) (pop archive : List ι) : Option (List ι) :=
  let union := archive ++ pop
  let sortedUnion := pySorted fit union
  let index := dominationIndex fit sortedUnion
  let environment := sortedUnion.take index
  if environment.length < size then
    some (environment ++ (sortedUnion.drop index).take (size - environment.length))
  else if environment.length > size then truncLoop same dist obj size fuel environment
  else some environment

/-- The tournament, SPEA2.py:21-23, on the two individuals drawn. -/
def tournament (fit : ι → K) (a b : ι) : ι := if fit b < fit a then b else a

/-- `Tournament.__call__`, SPEA2.py:21-23: `random.sample(pool, 2)` draws the different positions
`i` and `j`; with fewer than two individuals there are none and `ValueError` is raised (`none`). -/
def select (fit : ι → K) (pool : List ι) (i j : ℕ) : Option ι :=
  if i = j then none
  else
    match pool[i]?, pool[j]? with
    | some a, some b => some (tournament fit a b)
    | _, _ => none

end selection

end Evogil.Spea2
