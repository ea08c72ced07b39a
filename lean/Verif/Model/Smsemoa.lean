import Verif.Model.NdSort
import Verif.Model.PyMinMaxBy
import Mathlib.Algebra.Order.Field.Basic

/-!
# Model of SMS-EMOA (`algorithms/SMSEMOA/SMSEMOA.py`)

`obj x` is `x.objectives`; `hv` is `HyperVolume(reference_point).compute`
(`algorithms/base/hv.py`), a parameter here.
-/

namespace Evogil.Smsemoa

variable {ι : Type*} [DecidableEq ι] {K : Type*} [Field K] [LinearOrder K]

/-- `calculate_hypervolume_contribution`, SMSEMOA.py:101-110 -/
def contributions (hv : List (List K) → K) (obj : ι → List K) (pop : List ι) : List (ι × K) :=
  let results := pop.map obj
  let hvGlobal := hv results
  pop.zipIdx.map fun p => (p.1, hvGlobal - hv (results.take p.2 ++ results.drop (p.2 + 1)))

/-- `reduce_population`, SMSEMOA.py:91-99: the non-dominated sort (`Verif.Model.NdSort`), the front
with the largest number, the member with the smallest contribution. `none`: exception (no
individuals), or not enough `fuel` for the sort. -/
def reducePopulation (iter : List ι → List ι) (fuel : ℕ) (hv : List (List K) → K)
    (obj : ι → List K) (pop : List ι) : Option (List ι) :=
  match ndSort iter (smsemoaDom obj) fuel pop with
  | none => none
  | some fronts =>
    match fronts.getLast? with
    | none => none
    | some worstFront =>
      match pyMinBy Prod.snd (contributions hv obj worstFront) with
      | none => none
      | some minContributor => some (pop.erase minContributor.1)

/-- `step`, SMSEMOA.py:58-62: one reduction per generated child. The children made by `generate`
(lines 75-89) are given. -/
def step (iter : List ι → List ι) (fuel : ℕ) (hv : List (List K) → K) (obj : ι → List K) :
    List ι → List ι → Option (List ι)
  | pop, [] => some pop
  | pop, child :: children =>
    match reducePopulation iter fuel hv obj (pop ++ [child]) with
    | none => none
    | some pop' => step iter fuel hv obj pop' children

end Evogil.Smsemoa
