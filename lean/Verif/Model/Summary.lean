import Verif.Model.Storage
import Verif.Model.Factory

/-!
# Model of `run budget` as far as files are concerned, and of `summary`

`evogil.py run budget` makes the simulation cases (`simulation/factory.py`), shuffles them and lets one
worker after the other run (`simulation/run_parallel.py`, `simulation/worker.py`); `evogil.py summary`
walks through the results (`simulation/serialization.py`, `statistic/summary.py`).

Simplified: budgets are natural numbers; a `store` that raises is taken to leave no directories behind; rows
that `summary` printed before it raised are not kept.
-/

namespace Evogil.Storage

variable {C : Type*}

/-! ## Running -/

/-- The arguments of the constructor, simulation/factory.py:61-71, and the identifier made by it,
simulation/model.py:28 (`today` and `rnd` are the clock and the draw at that moment). -/
def makeCase (dir : RPath) (c : Name × Name × ℕ) (today : Name) (rnd : ℕ) : Case :=
  ⟨dir, c.1, c.2.1, getSimulationId (.int c.2.2) none today rnd⟩

/-- The list comprehension of simulation/factory.py:61-71; the clock and the draws by position. -/
def makeCases (dir : RPath) (plan : List (Name × Name × ℕ)) (today : ℕ → Name) (rnd : ℕ → ℕ) :
    List Case :=
  plan.zipIdx.map fun x => makeCase dir x.1 (today x.2) (rnd x.2)

/-- `BudgetWorker.run_driver`, simulation/worker.py:110-138: the results of the budgets are stored one
after the other under the name `str(budget)`. `results` are those the driver delivers, the flag tells whether
it raises after the last of them. The answer is `false` if the worker returns nothing
(simulation/worker.py:68-69). -/
def work (fs : FS C) (s : Case) (fails : Bool) : List (ℕ × C) → FS C × Bool
  | [] => (fs, !fails)
  | (b, v) :: rest =>
    match store fs s v (showNat b) with
    | .error _ => (fs, false)
    | .ok fs' => work fs' s fails rest

/-- A case of the queue with what its driver delivers. -/
structure Task (C : Type*) where
  case : Case
  results : List (ℕ × C)
  fails : Bool

/-- The pipeline of simulation/run_parallel.py:42-52: a worker that returns nothing ends the command
(line 40), the others are not started. -/
def runTasks (fs : FS C) : List (Task C) → FS C × Bool
  | [] => (fs, true)
  | t :: rest =>
    match work fs t.case t.fails t.results with
    | (fs', true) => runTasks fs' rest
    | (fs', false) => (fs', false)

/-! ## Listing everything -/

/-- The packages of the directory `problems`, which contain a module `problem`:
simulation/serialization.py:114-115 and the directory problems of the repository. -/
def problemModules : List Name :=
  ["EWA1", "EWA2", "UF1", "UF10", "UF11", "UF12", "UF2", "UF3", "UF4", "UF5", "UF6", "UF7", "UF8", "UF9",
    "ZDT1", "ZDT2", "ZDT3", "ZDT4", "ZDT6", "ackley", "kursawe"].map String.toList

/-- The exceptions of `summary`. -/
inductive SumErr where
  | storage (e : Err)
  | moduleNotFound
  deriving DecidableEq

/-- A line of the output of `summary`, statistic/summary.py:14-19: problem, algorithm, budget, number of
results. -/
abbrev Row := Name × Name × ℕ × ℕ

/-- `f_problem` and `f_algo`, simulation/serialization.py:93-110, with the loops of
statistic/summary.py:12-21, over the entries of the directory of a problem. -/
def algoRows (fs : FS C) (ls : RPath → List Name) (dir : RPath) (today : Name) (rnd : ℕ) (p : Name) :
    List Name → Except SumErr (List Row)
  | [] => .ok []
  | a :: rest =>
    if isDir (fs (a :: p :: dir)) then
      match loadAll fs ls dir p a today rnd with
      | .error e => .error (.storage e)
      | .ok groups =>
        match algoRows fs ls dir today rnd p rest with
        | .error e => .error e
        | .ok rows => .ok (groups.map (fun g => (p, a, g.1, g.2.length)) ++ rows)
    else algoRows fs ls dir today rnd p rest

/-- The loop of `each_result`, simulation/serialization.py:113-116, with that of
statistic/summary.py:9. -/
def problemRows (fs : FS C) (ls : RPath → List Name) (dir : RPath) (today : Name) (rnd : ℕ) :
    List Name → Except SumErr (List Row)
  | [] => .ok []
  | p :: rest =>
    if p ∈ problemModules then
      match iterdir fs ls (p :: dir) with
      | .error e => .error (.storage e)
      | .ok names =>
        match algoRows fs ls dir today rnd p names with
        | .error e => .error e
        | .ok rows =>
          match problemRows fs ls dir today rnd rest with
          | .error e => .error e
          | .ok more => .ok (rows ++ more)
    else .error .moduleNotFound

/-- `analyse_results`, statistic/summary.py:8-21, and `each_result`, simulation/serialization.py:92-116:
a missing directory is suppressed (line 112). `dir` is always `RESULTS_DIR` in the code. -/
def summary (fs : FS C) (ls : RPath → List Name) (dir : RPath) (today : Name) (rnd : ℕ) :
    Except SumErr (List Row) :=
  match iterdir fs ls dir with
  | .error .fileNotFound => .ok []
  | .error e => .error (.storage e)
  | .ok names => problemRows fs ls dir today rnd names

end Evogil.Storage
