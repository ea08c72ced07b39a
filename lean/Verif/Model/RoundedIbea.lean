import Verif.Model.RoundedSelection
import Verif.Model.PyMinMax

/-!
# The environmental selection of IBEA with rounding

`_scale_objectives`, `_calculate_fitness` and `_environmental_selection` of `algorithms/IBEA/IBEA.py`, with every
result of an operation rounded by the parameter `fl`. `ex` is `math.exp` as computed and `eps` is
`sys.float_info.epsilon`. Individuals are objects with identity (`ι`); `o x` is an objective applied to `x.v`. The
problem has at least one objective. Simplified: exponents are not bounded from above.
-/

namespace Evogil.Rounded.Ibea

variable {ι : Type*} [DecidableEq ι] {K : Type*} [Field K] [LinearOrder K]

/-- `scaled_objectives`, IBEA.py:84-98 (the accounting of lines 79-83 is modelled in `Verif.Model.Evaluation`);
`none`: `min` of an empty population. -/
def scaledObjectives (fl : K → K) (eps : K) (objectives : List (ι → K)) (individuals : List ι) :
    Option (List (ι → K)) :=
  objectives.mapM fun o =>
    match pyMin (individuals.map o), pyMax (individuals.map o) with
    | some minO, some maxO => some fun x => scaled fl eps minO maxO (o x)
    | _, _ => none

/-- `EPlusIndicator.__call__`, IBEA.py:192-198. -/
def indicator (fl : K → K) (scaled : List (ι → K)) (x1 x2 : ι) : K :=
  (pyMax (scaled.map fun o => fl (o x1 - o x2))).getD 0

/-- `c`, IBEA.py:101-105: the largest absolute indicator value; `none` for an empty population. -/
def maxIndicator (fl : K → K) (scaled : List (ι → K)) (individuals : List ι) : Option K :=
  pyMax ((individuals.product individuals).map fun p => |indicator fl scaled p.1 p.2|)

/-- `math.exp((-1) * (indicators[(x2, x1)] / abs(c * k + eps)))`, IBEA.py:110-116 and 131-137. -/
def loss (fl ex : K → K) (eps c k : K) (scaled : List (ι → K)) (x2 x1 : ι) : K :=
  ex (exponent fl eps c k (indicator fl scaled x2 x1))

/-- `fitness`, IBEA.py:106-122, for given loss values; `sum` adds one after the other. -/
def fitness (fl : K → K) (e : ι → ι → K) (individuals : List ι) (x1 : ι) : K :=
  runningSum fl ((individuals.filter fun x2 => decide (x2 ≠ x1)).map fun x2 => -e x2 x1)

/-- `_environmental_selection`, IBEA.py:124-137: individuals and fitness table after the loop, in which each removal
is corrected by a rounded addition. `sorted(..., reverse=True)` is a stable sort by decreasing key. -/
def selectionLoop (fl : K → K) (e : ι → ι → K) (size : ℕ) :
    ℕ → List ι → (ι → K) → Option (List ι × (ι → K))
  | fuel, individuals, fit =>
    if individuals.length > size then
      match fuel with
      | 0 => none
      | fuel + 1 =>
        let sorted := pySorted (fun y => OrderDual.toDual (fit y)) individuals
        match sorted.getLast? with
        | none => none
        | some removed =>
          selectionLoop fl e size fuel sorted.dropLast
            (fun x => if x ∈ sorted.dropLast then fl (fit x + e removed x) else fit x)
    else some (individuals, fit)

/-- `_calculate_fitness` followed by `_environmental_selection`, IBEA.py:100-137, after `_scale_objectives`. -/
def select (fl ex : K → K) (eps k : K) (objectives : List (ι → K)) (size fuel : ℕ)
    (individuals : List ι) : Option (List ι × (ι → K)) :=
  match scaledObjectives fl eps objectives individuals with
  | none => none
  | some scaled =>
    match maxIndicator fl scaled individuals with
    | none => none
    | some c =>
      selectionLoop fl (loss fl ex eps c k scaled) size fuel individuals
        (fitness fl (loss fl ex eps c k scaled) individuals)

end Evogil.Rounded.Ibea
