import Verif.Model.PyMinMax
import Verif.Model.ParetoFilter
import Mathlib.Analysis.Real.Sqrt
import Mathlib.Data.List.FinRange
import Mathlib.Order.WithBot

/-!
# Model of the quality indicators: `metrics/metrics_utils.py`, `metrics/epsilon.py`,
`metrics/metrics.py`

`none` stands for an exception (`IndexError`, `ValueError`, `ZeroDivisionError`).
-/

namespace Evogil

/-! ## distances -/

/-- `euclid_sqr_distance`, metrics_utils.py:52-53. -/
def sqrDistance {K : Type*} [Field K] (xs ys : List K) : K :=
  ((xs.zip ys).map fun p => (p.1 - p.2) ^ 2).sum

/-- The list `distances` at metrics_utils.py:90; `min([])` raises. -/
def minDistances {K : Type*} [Field K] [LinearOrder K] (fromSet toSet : List (List K)) :
    Option (List K) :=
  fromSet.mapM fun f => pyMin (toSet.map fun t => sqrDistance f t)

/-- `distance`, metrics_utils.py:89-91; an empty `from_set` raises `ZeroDivisionError`. -/
noncomputable def distance (fromSet toSet : List (List ℝ)) : Option ℝ := do
  let distances ← minDistances fromSet toSet
  if distances.length = 0 then none
  else some (Real.sqrt (distances.sum / distances.length))

/-- `generational_distance`, metrics_utils.py:56-57. -/
noncomputable def generationalDistance (solution pareto : List (List ℝ)) : Option ℝ :=
  distance solution pareto

/-- `inverse_generational_distance`, metrics_utils.py:60-61. -/
noncomputable def inverseGenerationalDistance (solution pareto : List (List ℝ)) : Option ℝ :=
  distance pareto solution

/-- `generational_distance`, metrics.py:18-19. -/
noncomputable def metricGD (_solution nd pareto : List (List ℝ)) : Option ℝ :=
  generationalDistance nd pareto

/-- `inverse_generational_distance`, metrics.py:23-24. -/
noncomputable def metricIGD (solution _nd pareto : List (List ℝ)) : Option ℝ :=
  inverseGenerationalDistance solution pareto

/-- `average_hausdorff_distance`, metrics.py:28-32. -/
noncomputable def metricAHD (solution nd pareto : List (List ℝ)) : Option ℝ := do
  let a ← metricGD solution nd pareto
  let b ← metricIGD solution nd pareto
  pure (max a b)

/-! ## additive epsilon

Simplification: all points have the same number `d` of coordinates (the code raises
`IndexError` otherwise) and are functions on `Fin d`. -/

section epsilon
variable {α : Type*} [AddCommGroup α] [LinearOrder α] {d : ℕ}

/-- The innermost loop, epsilon.py:17-26 (`_obj` is all zeros, line 38-39): `epsK` is the value
of `eps_k` before the loop. -/
def epsLoopK (p s : Fin d → α) (epsK : α) : α :=
  (List.finRange d).foldl (fun acc k =>
    let t := p k - s k
    if k.val = 0 then t else if acc < t then t else acc) epsK

/-- The loop over the front, epsilon.py:16-30; the state is `(eps_j, eps_k)`. -/
def epsLoopJ (pareto : List (Fin d → α)) (s : Fin d → α) (st : α × α) : α × α :=
  (pareto.zipIdx).foldl (fun st pj =>
    let epsK := epsLoopK pj.1 s st.2
    let epsJ := if pj.2 = 0 then epsK else if epsK < st.1 then epsK else st.1
    (epsJ, epsK)) st

/-- Body of the outer loop, epsilon.py:16-34; the state is `(eps, eps_j, eps_k)`, `⊥` is
`-inf`. -/
def epsStepI (pareto : List (Fin d → α)) (st : WithBot α × α × α) (si : (Fin d → α) × ℕ) :
    WithBot α × α × α :=
  let jk := epsLoopJ pareto si.1 st.2
  let epsJ : WithBot α := jk.1
  let eps : WithBot α := if si.2 = 0 then epsJ else if st.1 < epsJ then epsJ else st.1
  (eps, jk)

/-- The outer loop, epsilon.py:15-34. -/
def epsLoopI (solution pareto : List (Fin d → α)) (st : WithBot α × α × α) :
    WithBot α × α × α :=
  (solution.zipIdx).foldl (epsStepI pareto) st

/-- `Epsilon.epsilon`, epsilon.py:6-36; `pareto[0]` raises for an empty front (line 10). -/
def epsilonIndicator (solution pareto : List (Fin d → α)) : Option (WithBot α) :=
  if pareto = [] then none else some (epsLoopI solution pareto (⊥, 0, 0)).1

end epsilon

/-! ## spread indicators -/

section spread
variable {d : ℕ}

/-- L1 distance of two points, metrics_utils.py:76 (all points have `d` coordinates). -/
def l1Dist {K : Type*} [Field K] [LinearOrder K] (a b : Fin d → K) : K :=
  ((List.finRange d).map fun k => |a k - b k|).sum

/-- The list `min_distances`, metrics_utils.py:71-79. -/
def nnDistances {K : Type*} [Field K] [LinearOrder K] (solution : List (Fin d → K)) : List K :=
  solution.zipIdx.filterMap fun a =>
    pyMin ((solution.zipIdx.filter fun b => ¬ a.2 = b.2).map fun b => l1Dist a.1 b.1)

/-- `spacing`, metrics_utils.py:68-86; `solution[0]` raises for an empty solution. -/
noncomputable def spacing (eps : ℝ) (solution : List (Fin d → ℝ)) : Option ℝ :=
  if solution = [] then none
  else
    let ms := nnDistances solution
    let mean : ℝ := if 0 < ms.length then ms.sum / ms.length else 0
    let distSum := (ms.map fun x => (mean - x) ^ 2).sum
    some (Real.sqrt (distSum / ((solution.length : ℝ) - 1 + eps)))

/-- The largest difference in coordinate `i`, metrics_utils.py:42. -/
def spreadIn {K : Type*} [Field K] [LinearOrder K] (solution : List (Fin d → K)) (i : Fin d) :
    Option K :=
  pyMax (solution.flatMap fun x => solution.map fun y => |x i - y i|)

/-- `extent`, metrics_utils.py:37-45. -/
noncomputable def extent (solution : List (Fin d → ℝ)) : Option ℝ :=
  if solution = [] then none
  else do
    let ms ← (List.finRange d).mapM fun i => spreadIn solution i
    pure (Real.sqrt ms.sum)

/-- `non_domination_ratio`, metrics_utils.py:64-65. -/
def nonDominationRatio {α : Type*} (solution nd : List α) : Option ℚ :=
  if solution.length = 0 then none else some ((nd.length : ℚ) / (solution.length : ℚ))

/-- `pareto_dominance_indicator`, metrics_utils.py:94-98; `all` is the list of the members of
the Python set `all_solutions`. -/
def paretoDominanceIndicator {α : Type*} [DecidableEq α] (nd all : List α) : Option ℚ :=
  if all.length = 0 then none
  else some (((nd.filter fun s => s ∈ all).length : ℚ) / (all.length : ℚ))

end spread

/-- The set of combined non-dominated solutions, metrics_processor.py:241-243. -/
def combinedFront {α : Type*} [LinearOrder α] (solutions : List (List (List α))) :
    List (List α) :=
  dictKeys (filterNotDominated solutions.flatten)

end Evogil
