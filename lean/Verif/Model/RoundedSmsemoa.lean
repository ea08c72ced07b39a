import Verif.Model.Smsemoa
import Verif.Model.RoundedHv

/-!
# SMS-EMOA with rounding

The reduction of `algorithms/SMSEMOA/SMSEMOA.py` with the hypervolume of `Verif.Model.RoundedHv` and rounded differences. An
individual is compared by identity, `obj x` is `x.objectives`. Simplified: as `Verif.Model.RoundedHv`; for more than three
objectives, which that model does not cover, `hv` is 0 here.
-/

namespace Evogil.Rounded

variable {ι : Type*} [DecidableEq ι] {K : Type*} [Field K] [LinearOrder K]

/-- `calculate_hypervolume_contribution`, SMSEMOA.py:101-110. -/
def smsContributions (fl : K → K) (ref : List K) (obj : ι → List K) (pop : List ι) : List (ι × K) :=
  let hv := fun l => (hypervolume fl ref l).getD 0
  let results := pop.map obj
  let hvGlobal := hv results
  pop.zipIdx.map fun p => (p.1, fl (hvGlobal - hv (results.take p.2 ++ results.drop (p.2 + 1))))

/-- `reduce_population`, SMSEMOA.py:91-99. `none`: exception (no individuals), or not enough `fuel` for the sort. -/
def smsReduce (fl : K → K) (ref : List K) (iter : List ι → List ι) (fuel : ℕ) (obj : ι → List K) (pop : List ι) :
    Option (List ι) :=
  match ndSort iter (smsemoaDom obj) fuel pop with
  | none => none
  | some fronts =>
    match fronts.getLast? with
    | none => none
    | some worstFront =>
      match pyMinBy Prod.snd (smsContributions fl ref obj worstFront) with
      | none => none
      | some minContributor => some (pop.erase minContributor.1)

/-- `step`, SMSEMOA.py:58-62: one reduction per generated child. The children made by `generate` (lines 75-89) are given. -/
def smsStep (fl : K → K) (ref : List K) (iter : List ι → List ι) (fuel : ℕ) (obj : ι → List K) :
    List ι → List ι → Option (List ι)
  | pop, [] => some pop
  | pop, child :: children =>
    match smsReduce fl ref iter fuel obj (pop ++ [child]) with
    | none => none
    | some pop' => smsStep fl ref iter fuel obj pop' children

end Evogil.Rounded
