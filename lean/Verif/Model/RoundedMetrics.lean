import Verif.Model.Metrics

/-!
# The quality indicators with rounding

`metrics/metrics_utils.py`, `metrics/epsilon.py` and `metrics/metrics.py` with every result of an operation rounded by the
parameter `fl`. `sqr` is `… ** 2`, the function `pow` of the C library, and `sqrt` is `math.sqrt`. `none` stands for an
exception. Simplified: exponents are not bounded from above, and numbers of points are below 2⁵³.
-/

namespace Evogil.Rounded

section distance

variable {K : Type*} [Field K] [LinearOrder K]

/-- `sum`, as in Python up to 3.11: one addition after the other, beginning with 0. -/
def sumUp (fl : K → K) (xs : List K) : K := xs.foldl (fun s x => fl (s + x)) 0

/-- `euclid_sqr_distance`, metrics_utils.py:52-53. -/
def sqrDistance (fl sqr : K → K) (xs ys : List K) : K := sumUp fl ((xs.zip ys).map fun p => sqr (fl (p.1 - p.2)))

/-- The list `distances` at metrics_utils.py:90; `min([])` raises. -/
def minDistances (fl sqr : K → K) (fromSet toSet : List (List K)) : Option (List K) :=
  fromSet.mapM fun f => pyMin (toSet.map fun t => sqrDistance fl sqr f t)

/-- `distance`, metrics_utils.py:89-91; an empty `from_set` raises `ZeroDivisionError`. -/
def distance (fl sqr sqrt : K → K) (fromSet toSet : List (List K)) : Option K := do
  let distances ← minDistances fl sqr fromSet toSet
  if distances.length = 0 then none
  else some (sqrt (fl (sumUp fl distances / distances.length)))

/-- `generational_distance`, metrics_utils.py:56-57 and metrics.py:18-19. -/
def metricGD (fl sqr sqrt : K → K) (_solution nd pareto : List (List K)) : Option K := distance fl sqr sqrt nd pareto

/-- `inverse_generational_distance`, metrics_utils.py:60-61 and metrics.py:23-24. -/
def metricIGD (fl sqr sqrt : K → K) (solution _nd pareto : List (List K)) : Option K :=
  distance fl sqr sqrt pareto solution

/-- `average_hausdorff_distance`, metrics.py:28-32. -/
def metricAHD (fl sqr sqrt : K → K) (solution nd pareto : List (List K)) : Option K := do
  let a ← metricGD fl sqr sqrt solution nd pareto
  let b ← metricIGD fl sqr sqrt solution nd pareto
  pure (max a b)

end distance

section epsilon

variable {K : Type*} [Field K] [LinearOrder K] {d : ℕ}

/-- The innermost loop, epsilon.py:17-26. -/
def epsLoopK (fl : K → K) (p s : Fin d → K) (epsK : K) : K :=
  (List.finRange d).foldl (fun acc k =>
    let t := fl (p k - s k)
    if k.val = 0 then t else if acc < t then t else acc) epsK

/-- The loop over the front, epsilon.py:16-30; the state is `(eps_j, eps_k)`. -/
def epsLoopJ (fl : K → K) (pareto : List (Fin d → K)) (s : Fin d → K) (st : K × K) : K × K :=
  (pareto.zipIdx).foldl (fun st pj =>
    let epsK := epsLoopK fl pj.1 s st.2
    let epsJ := if pj.2 = 0 then epsK else if epsK < st.1 then epsK else st.1
    (epsJ, epsK)) st

/-- Body of the outer loop, epsilon.py:16-34; the state is `(eps, eps_j, eps_k)`, `⊥` is `-inf`. -/
def epsStepI (fl : K → K) (pareto : List (Fin d → K)) (st : WithBot K × K × K) (si : (Fin d → K) × ℕ) :
    WithBot K × K × K :=
  let jk := epsLoopJ fl pareto si.1 st.2
  let epsJ : WithBot K := jk.1
  let eps : WithBot K := if si.2 = 0 then epsJ else if st.1 < epsJ then epsJ else st.1
  (eps, jk)

/-- `Epsilon.epsilon`, epsilon.py:6-36; `pareto[0]` raises for an empty front (line 10). -/
def epsilonIndicator (fl : K → K) (solution pareto : List (Fin d → K)) : Option (WithBot K) :=
  if pareto = [] then none else some ((solution.zipIdx).foldl (epsStepI fl pareto) (⊥, 0, 0)).1

end epsilon

section extent

variable {K : Type*} [Field K] [LinearOrder K] {d : ℕ}

/-- The largest difference in coordinate `i`, metrics_utils.py:42. -/
def spreadIn (fl : K → K) (solution : List (Fin d → K)) (i : Fin d) : Option K :=
  pyMax (solution.flatMap fun x => solution.map fun y => |fl (x i - y i)|)

/-- `extent`, metrics_utils.py:37-45. -/
def extent (fl sqrt : K → K) (solution : List (Fin d → K)) : Option K :=
  if solution = [] then none
  else do
    let ms ← (List.finRange d).mapM fun i => spreadIn fl solution i
    pure (sqrt (sumUp fl ms))

end extent

end Evogil.Rounded
