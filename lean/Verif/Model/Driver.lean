import Verif.Prelude
import Mathlib.Algebra.Order.Floor.Defs
import Mathlib.Algebra.Order.Field.Basic

/-!
# Model of the runs (`algorithms/base/driver.py`) and workers (`simulation/worker.py`)

A driver is an arbitrary state machine; its state contains everything the algorithm can
see (populations, random source, ...), so `step` may be any function.
-/

namespace Evogil

/-- `ProgressMessage`, algorithms/base/model.py:16-19. -/
structure ProgressMessage where
  stepNo : ℕ
  cost : ℤ
  deriving DecidableEq

/-- An algorithm driver: what `Driver` (algorithms/base/driver.py:29-48) leaves abstract.
`finalize` is `finalized_population`, which may change the driver's state (e.g.
NSGAII.py:81-86). -/
structure DriverSig (σ π : Type*) where
  /-- `step()`, driver.py:47-48 -/
  step : σ → σ
  /-- the attribute `cost`, driver.py:33 -/
  cost : σ → ℤ
  /-- `finalized_population()`, driver.py:40-41 -/
  finalize : σ → σ × π

/-- A driver object: the algorithm's state and the attribute `step_no` (driver.py:34). -/
structure DriverObj (σ : Type*) where
  st : σ
  stepNo : ℕ
  deriving DecidableEq

variable {σ π : Type*}

/-- `next_step` wrapped by `counting_step`, driver.py:21-24 and 43-45 with the default
adapter `ProgressMessageAdapter.emit_result`, model.py:49-50: step, build the message with
the *current* `step_no`, then increment `step_no`. -/
def nextStep (D : DriverSig σ π) (o : DriverObj σ) : DriverObj σ × ProgressMessage :=
  let s := D.step o.st
  let msg : ProgressMessage := { stepNo := o.stepNo, cost := D.cost s }
  ({ st := s, stepNo := o.stepNo + 1 }, msg)

/-- Events seen by an observer of a run. -/
inductive Event (μ : Type*) where
  | next (m : μ)
  | completed
  deriving DecidableEq

/-- `BudgetRun._start`, driver.py:69-72; `fuel` bounds the number of steps (`none`: the
loop is still running). -/
def budgetRun (D : DriverSig σ π) (budget : ℤ) :
    ℕ → DriverObj σ → Option (List (Event ProgressMessage) × DriverObj σ)
  | fuel, o =>
    if D.cost o.st < budget then
      match fuel with
      | 0 => none
      | fuel + 1 =>
        let r := nextStep D o
        (budgetRun D budget fuel r.1).map fun res => (.next r.2 :: res.1, res.2)
    else some ([.completed], o)

/-- `StepsRun.create_job`, driver.py:79-80: `rx.range(0, steps)` emits `steps` items and
completes, each item is mapped to `driver.next_step()`. -/
def stepsRun (D : DriverSig σ π) : ℕ → DriverObj σ → List (Event ProgressMessage) × DriverObj σ
  | 0, o => ([.completed], o)
  | n + 1, o =>
    let r := nextStep D o
    let res := stepsRun D n r.1
    (.next r.2 :: res.1, res.2)

section time
variable {K : Type*} [Field K] [LinearOrder K] [FloorRing K]

/-- The mutable state of a `TimeRun`, driver.py:84-88, and the local variable
`previous_result` (line 94). -/
structure TimeState (K ρ : Type*) where
  stepNo : ℕ
  elapsed : K
  previous : Option ρ

/-- The `for` loop at driver.py:101-107: `n` turns, starting with counter `stepNo`. Each
turn increments the counter and emits a message unless the slot is after the timeout. -/
def emitSlots {ρ : Type*} (step timeout : K) (prev : ρ) : ℕ → ℕ → List (ℕ × ρ)
  | 0, _ => []
  | n + 1, stepNo =>
    let k := stepNo + 1
    let rest := emitSlots step timeout prev n k
    if (k : K) * step ≤ timeout then (k, prev) :: rest else rest

/-- One turn of the `while` loop, driver.py:96-108; `dt` is the measured duration of the
step and `res` its result. A `ProgressMessage` object is truthy, so line 100 asks whether
there is a previous result. A message `TimeProgressMessage(k * step, prev)` is represented
by the pair `(k, prev)`. -/
def timeTurn {ρ : Type*} (step timeout : K) (s : TimeState K ρ) (dt : K) (res : ρ) :
    TimeState K ρ × List (ℕ × ρ) :=
  let elapsed := s.elapsed + dt
  let since := elapsed - step * (s.stepNo : K)
  match s.previous with
  | none => ({ stepNo := s.stepNo, elapsed := elapsed, previous := some res }, [])
  | some prev =>
    let n := (⌊since / step⌋).toNat
    ({ stepNo := s.stepNo + n, elapsed := elapsed, previous := some res },
      emitSlots step timeout prev n s.stepNo)

/-- `TimeRun._start`, driver.py:93-110. The steps the driver would make are given as a list
of (duration, result) pairs; the run consumes them while the time is not up. The result is
the emitted messages and the number of steps made; `none` if the list ends before the
time is up. -/
def timeRun {ρ : Type*} (step timeout : K) :
    TimeState K ρ → List (K × ρ) → Option (List (ℕ × ρ) × ℕ)
  | s, evs =>
    if s.elapsed < timeout then
      match evs with
      | [] => none
      | (dt, res) :: rest =>
        let t := timeTurn step timeout s dt res
        (timeRun step timeout t.1 rest).map fun r => (t.2 ++ r.1, r.2 + 1)
    else some ([], 0)
termination_by _ evs => evs.length

end time

/-- A stored result: file name (the budget), cost and population
(simulation/worker.py:115-121; the fitness list is a function of the population). -/
structure Stored (π : Type*) where
  name : ℤ
  cost : ℤ
  pop : π
  deriving DecidableEq

/-- `BudgetWorker.run_driver`, simulation/worker.py:109-139: for each budget a `BudgetRun`
to completion, then `process_results`. `fuel` bounds the steps per budget. -/
def budgetWorker (D : DriverSig σ π) (fuel : ℕ) :
    List ℤ → DriverObj σ → Option (List (Stored π) × DriverObj σ)
  | [], o => some ([], o)
  | b :: bs, o =>
    match budgetRun D b fuel o with
    | none => none
    | some (_, o') =>
      let f := D.finalize o'.st
      let res : Stored π := { name := b, cost := D.cost f.1, pop := f.2 }
      (budgetWorker D fuel bs { st := f.1, stepNo := o'.stepNo }).map fun r => (res :: r.1, r.2)

section time
variable {K : Type*} [Field K] [LinearOrder K] [FloorRing K]

/-- `process_results` of the time worker for a list of emitted slots,
simulation/worker.py:159-170: each call finalizes the driver as it is *now* and stores the
population and the cost of *now* under the slot of the message. The messages are kept beside
the stored result to be able to compare. -/
def timeWorkerStore (D : DriverSig σ π) :
    List (ℕ × ProgressMessage) → σ → List (ProgressMessage × ℕ × ℤ × π) × σ
  | [], s => ([], s)
  | (k, m) :: ms, s =>
    let f := D.finalize s
    let r := timeWorkerStore D ms f.1
    ((m, k, D.cost f.1, f.2) :: r.1, r.2)

/-- `TimeWorker.run_driver`, simulation/worker.py:146-175, interleaved with
`TimeRun._start` (driver.py:93-110): the observer runs synchronously inside `on_next`.
`dts` are the measured durations of the steps. Result: for each emitted message, the
message, the slot, and the stored cost and population; `none` if the durations end
before the time is up. -/
def timeWorker (D : DriverSig σ π) (step timeout : K) :
    TimeState K ProgressMessage → List K → DriverObj σ →
      Option (List (ProgressMessage × ℕ × ℤ × π))
  | s, dts, o =>
    if s.elapsed < timeout then
      match dts with
      | [] => none
      | dt :: rest =>
        let r := nextStep D o
        let t := timeTurn step timeout s dt r.2
        let st := timeWorkerStore D t.2 r.1.st
        (timeWorker D step timeout t.1 rest { st := st.2, stepNo := r.1.stepNo }).map
          fun out => st.1 ++ out
    else some []
termination_by _ dts _ => dts.length

end time

end Evogil
