import Verif.Model.Nsgaiii
import Verif.Model.GenerationsRun

/-!
# Runs of NSGA-III (`algorithms/NSGAIII/NSGAIII.py`) with costs

No fitness archive.
-/

namespace Evogil.Nsgaiii

open Generations

variable {K : Type*} [Field K] [LinearOrder K]

/-- The evaluations of `_calculate_objectives`, NSGAIII.py:94-105: one for each individual without
objectives (lines 96 and 102). -/
def evaluations (inds : List (Ind K)) : ℕ := (inds.filter fun x => x.objectives.isNone).length

/-- The driver with its attribute `cost`, NSGAIII.py:58. -/
structure Costed (K : Type*) where
  st : State K
  cost : ℕ

/-- The constructor, NSGAIII.py:48-63: line 63 evaluates the population. -/
def initCosted (f : List K → List K) (cf : Conf K) (pop : List (List K)) : Costed K :=
  ⟨init f cf pop, evaluations (pop.map fun v => (⟨cf.trim v, none⟩ : Ind K))⟩

/-- `step` with the cost of line 127, NSGAIII.py:117-206. The loops of the sorting and of the selection
end within `2 N + 1` turns. -/
def stepCosted (pw : K → K → K) (sq : K → K) (eps : K) (f : List K → List K) (cf : Conf K)
    (ds : ℕ → PairDraw K) (iter : List ℕ → List ℕ) (sample : List ℕ → ℕ → List ℕ)
    (s : Costed K) : Option (Costed K) :=
  match makeOffspring pw eps cf ds s.st.inds (s.st.size / 2) 0 with
  | none => none
  | some raw =>
    (step pw sq eps f cf ds iter sample (2 * s.st.size + 1) s.st).map fun st' =>
      ⟨st', s.cost + evaluations raw⟩

/-- NSGA-III as a driver, NSGAIII.py:114-206: `finalized_population` returns the vectors. -/
def driver (pw : K → K → K) (sq : K → K) (eps : K) (f : List K → List K) (cf : Conf K)
    (ds : ℕ → ℕ → PairDraw K) (iter : ℕ → List ℕ → List ℕ)
    (sample : ℕ → List ℕ → ℕ → List ℕ) :
    DriverSig (Option (ℕ × Costed K)) (Option (List (List K))) :=
  optDriver (fun n => stepCosted pw sq eps f cf (ds n) (iter n) (sample n)) (fun s => s.cost)
    (fun _ s => some (s, s.st.inds.map Ind.v))

end Evogil.Nsgaiii
