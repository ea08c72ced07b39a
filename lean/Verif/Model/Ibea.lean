import Verif.Model.PySorted
import Verif.Model.PyMinMax
import Mathlib.Algebra.Order.Field.Basic
import Mathlib.Algebra.BigOperators.Group.List.Basic

/-!
# Model of IBEA (`algorithms/IBEA/IBEA.py`)

Individuals are objects with identity (`ι`); `o x` is an objective applied to `x.v`. `ex` is
`math.exp` and `eps` is `sys.float_info.epsilon`. The problem has at least one objective.
-/

namespace Evogil.Ibea

variable {ι : Type*} [DecidableEq ι] {K : Type*} [Field K] [LinearOrder K]

/-- `_scale`, IBEA.py:93-98 -/
def scale (eps : K) (fn : ι → K) (minO maxO : K) (x : ι) : K :=
  (fn x - minO) / (maxO - minO + eps)

/-- `scaled_objectives`, IBEA.py:77-91 (the accounting of lines 78-83 is modelled in
`Verif.Model.Evaluation`); `none`: `min` of an empty population. -/
def scaledObjectives (eps : K) (objectives : List (ι → K)) (individuals : List ι) :
    Option (List (ι → K)) :=
  objectives.mapM fun o =>
    match pyMin (individuals.map o), pyMax (individuals.map o) with
    | some minO, some maxO => some (scale eps o minO maxO)
    | _, _ => none

/-- `EPlusIndicator.__call__`, IBEA.py:192-198 -/
def indicator (scaled : List (ι → K)) (x1 x2 : ι) : K :=
  (pyMax (scaled.map fun o => o x1 - o x2)).getD 0

/-- `c`, IBEA.py:101-105: the largest absolute indicator value; `none` for an empty population -/
def maxIndicator (scaled : List (ι → K)) (individuals : List ι) : Option K :=
  pyMax ((individuals.product individuals).map fun p => |indicator scaled p.1 p.2|)

/-- `math.exp((-1) * (indicators[(x2, x1)] / abs(c * k + eps)))`, IBEA.py:110-116 and 131-137 -/
def loss (ex : K → K) (eps c k : K) (scaled : List (ι → K)) (x2 x1 : ι) : K :=
  ex ((-1) * (indicator scaled x2 x1 / |c * k + eps|))

/-- `fitness`, IBEA.py:106-122, for given loss values -/
def fitness (e : ι → ι → K) (individuals : List ι) (x1 : ι) : K :=
  ((individuals.filter fun x2 => decide (x2 ≠ x1)).map fun x2 => (-1) * e x2 x1).sum

/-- `_environmental_selection`, IBEA.py:124-137: individuals and fitness table after the loop.
`sorted(..., reverse=True)` is a stable sort by decreasing key. -/
def selectionLoop (e : ι → ι → K) (size : ℕ) :
    ℕ → List ι → (ι → K) → Option (List ι × (ι → K))
  | fuel, individuals, fit =>
    if individuals.length > size then
      match fuel with
      | 0 => none
      | fuel + 1 =>
        let sorted := pySorted (fun y => OrderDual.toDual (fit y)) individuals
        match sorted.getLast? with
        | none => none
        | some removed =>
          selectionLoop e size fuel sorted.dropLast
            (fun x => if x ∈ sorted.dropLast then fit x + e removed x else fit x)
    else some (individuals, fit)

/-- `_calculate_fitness` followed by `_environmental_selection` (lines 65-66 and 60-61) -/
def select (ex : K → K) (eps k : K) (scaled : List (ι → K)) (size fuel : ℕ)
    (individuals : List ι) : Option (List ι × (ι → K)) :=
  match maxIndicator scaled individuals with
  | none => none
  | some c =>
    selectionLoop (loss ex eps c k scaled) size fuel individuals
      (fitness (loss ex eps c k scaled) individuals)

/-- `better`, IBEA.py:141-145; `coin` is the outcome of `random.random() < p`. -/
def better (fit : ι → K) (coin : Bool) (x1 x2 : ι) : ι :=
  if coin then (if fit x1 < fit x2 then x1 else x2)
  else (if fit x1 > fit x2 then x1 else x2)

end Evogil.Ibea
