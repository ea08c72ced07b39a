import Verif.Model.Nsls
import Verif.Model.GenerationsRun

/-!
# Runs of NSLS (`algorithms/NSLS/NSLS.py`) with costs

No fitness archive.
-/

namespace Evogil.Nsls

open Generations

variable {K : Type*} [Field K] [LinearOrder K]

/-- The driver with its attributes `population_size` and `cost`, NSLS.py:41-48. -/
structure Costed (K : Type*) where
  inds : List (Ind K)
  size : ℕ
  cost : ℕ

/-- The constructor, NSLS.py:26-48. -/
def initCosted (trim : List K → List K) (population : List (List K)) : Costed K :=
  let p := setPopulation (population.map trim)
  ⟨p.1, p.2, 0⟩

/-- The cost of one step, NSLS.py:81 and 107: individuals without objectives, and two new ones in each
of the `len(individuals) * dims_no` turns of the local search. -/
def stepCost (dims : List (K × K)) (inds : List (Ind K)) : ℕ :=
  (inds.filter fun x => x.objectives.isNone).length + inds.length * (dims.length * 2)

/-- `step` with its cost, NSLS.py:80-84. The loops of the sorting and of the selection end within
`2 N + 1` turns, or never (C32). -/
def stepCosted (dims : List (K × K)) (trim : List K → List K) (f : List K → List K) (m : ℕ)
    (vdist : List K → List K → K) (ds : ℕ → ℕ → LsDraw K) (iter : List ℕ → List ℕ)
    (sample : List ℕ → ℕ → List ℕ) (s : Costed K) : Option (Costed K) :=
  (step dims trim f m vdist ds iter sample (2 * s.size + 1) s.size s.inds).map fun inds' =>
    ⟨inds', s.size, s.cost + stepCost dims s.inds⟩

/-- NSLS as a driver, NSLS.py:60-61, 80-84. -/
def driver (dims : List (K × K)) (trim : List K → List K) (f : List K → List K) (m : ℕ)
    (vdist : List K → List K → K) (ds : ℕ → ℕ → ℕ → LsDraw K) (iter : ℕ → List ℕ → List ℕ)
    (sample : ℕ → List ℕ → ℕ → List ℕ) :
    DriverSig (Option (ℕ × Costed K)) (Option (List (List K))) :=
  optDriver (fun n => stepCosted dims trim f m vdist (ds n) (iter n) (sample n)) (fun s => s.cost)
    (fun _ s => some (s, s.inds.map Ind.v))

end Evogil.Nsls
