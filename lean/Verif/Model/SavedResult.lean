import Verif.Model.Driver

/-!
# Model of what the workers save (`process_results` in `simulation/worker.py`)

`Verif.Model.Driver` leaves open what kind of object `finalized_population` returns. It matters: the
object is gone through once for the objective values, and is saved afterwards.
-/

namespace Evogil

/-- An object returned by `finalized_population`: a list, or an iterator, given by the elements it has
still to deliver. IMGA returns an `itertools.chain` (algorithms/IMGA/IMGA.py:62-65), the other drivers
return lists (SMSEMOA.py:55-56, BOGO.py:47-48, NSGAII.py:81-86, IBEA.py:58-62, SPEA2.py:64-65,
NSLS.py:60-61, NSGAIII.py:114-115, ClassicHGS.py:86-90, OMOPSO.py:71-72). -/
inductive Iterable (V : Type*) where
  | list (l : List V)
  | iterator (remaining : List V)
  deriving DecidableEq

namespace Iterable
variable {V : Type*}

/-- What a loop over the object sees. -/
def elements : Iterable V → List V
  | list l => l
  | iterator r => r

/-- The object after a loop over it: an iterator is used up. -/
def afterLoop : Iterable V → Iterable V
  | list l => list l
  | iterator _ => iterator []

/-- `len(x)`, as used at statistic/stats.py:96; `none` is the `TypeError`. -/
def len : Iterable V → Option ℕ
  | list l => some l.length
  | iterator _ => none

end Iterable

/-- A result file: its name, and the attributes of `Result`, simulation/serializer.py:9-13 (the cost
is in `additional_data`). Pickling keeps a list, and of an iterator what it has still to deliver. -/
structure Saved (V F : Type*) where
  name : ℤ
  cost : ℤ
  population : Iterable V
  fitnesses : List F
  deriving DecidableEq

section
variable {σ V F : Type*}

/-- `process_results`, worker.py:115-121 and 159-170: line 117 goes through the population, line 119
saves it; `fit` gives the list of objective values. -/
def processResults (fit : V → F) (r : Stored (Iterable V)) : Saved V F :=
  { name := r.name
    cost := r.cost
    population := r.pop.afterLoop
    fitnesses := r.pop.elements.map fit }

/-- A driver whose `finalized_population` wraps its vectors as told by `wrap`; `none` is a driver
that has raised. -/
def wrapResult (wrap : List V → Iterable V) (D : DriverSig σ (Option (List V))) :
    DriverSig σ (Option (Iterable V)) where
  step := D.step
  cost := D.cost
  finalize := fun s => ((D.finalize s).1, (D.finalize s).2.map wrap)

/-- The files saved by `BudgetWorker.run_driver`, worker.py:109-139; `none` if it does not end or
the driver raises. -/
def savedFiles (fit : V → F) (D : DriverSig σ (Option (Iterable V))) (fuel : ℕ) (budgets : List ℤ)
    (o : DriverObj σ) : Option (List (Saved V F)) :=
  (budgetWorker D fuel budgets o).bind fun r =>
    r.1.mapM fun x => x.pop.map fun p => processResults fit ⟨x.name, x.cost, p⟩

end

end Evogil
