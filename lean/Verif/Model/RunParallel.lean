import Verif.Prelude
import Mathlib.Algebra.BigOperators.Group.List.Basic
import Mathlib.Tactic.Abel

/-! # The job queue

Model of `simulation/run_parallel.py` (lines 19-53 and 74-112). Process times are elements of an
additive monoid; the behaviour of the workers (`simulation/worker.py` lines 24-80) is a parameter:
`some t` for a run that returned `(results, t, simulation_no)`, `none` for a run that returned
`None`, which happens after any exception. The queue shuffled in line 23 is the list given. -/

namespace Evogil.RunParallel

variable {C T : Type*} [DecidableEq C]

/-- A job: the configuration of the simulation case (`SimulationCase.config`,
`/repo/simulation/model.py` lines 32-34) and what its worker returns
(`/repo/simulation/worker.py` lines 24-80). -/
structure Job (C T : Type*) where
  /-- `simulation.config`, `/repo/simulation/model.py` lines 32-34 -/
  config : C
  /-- process time of a finished worker, `none` if it returned `None`,
  `/repo/simulation/worker.py` lines 61-80 -/
  outcome : Option T

/-- The observable pipeline of `/repo/simulation/run_parallel.py` lines 44-50 with `process_result`
of lines 40-42: the jobs run one after another, each result is appended, and `subres[-1]` raises
`TypeError` on a `None`, which stops the pipeline. The first component lists the jobs that were
started, the second is `none` if the exception was raised and otherwise the collected results.
Simplified: an empty queue, for which `rx` itself raises, is not special-cased. -/
def pipeline : List (Job C T) → List (Job C T) × Option (List (Option T))
  | [] => ([], some [])
  | j :: rest =>
    match j.outcome with
    | none => ([j], none)
    | some t =>
      let (started, r) := pipeline rest
      (j :: started, r.map (some t :: ·))

/-- one step of the loop over `zip(simulation_cases, results)`,
`/repo/simulation/run_parallel.py` lines 96-98, on the dictionary `summary` -/
def addTime [AddMonoid T] (summary : List (C × T)) (c : C) (t : T) : List (C × T) :=
  match summary with
  | [] => [(c, 0 + t)]
  | (c', t') :: rest => if c' = c then (c', t' + t) :: rest else (c', t') :: addTime rest c t

/-- What `log_summary` reports, `/repo/simulation/run_parallel.py` lines 74-112. -/
structure Summary (C T : Type*) where
  /-- `proc_times`, line 75 -/
  procTimes : T
  /-- configurations of failed runs, lines 76-80 -/
  errors : List C
  /-- the dictionary `summary`, lines 95-98 -/
  times : List (C × T)

/-- the loop of `/repo/simulation/run_parallel.py` lines 96-98 -/
def summaryTimes [AddMonoid T] (cases : List (Job C T)) (results : List (Option T)) :
    List (C × T) :=
  (cases.zip results).foldl
    (fun s p => match p.2 with
      | none => s
      | some t => addTime s p.1.config t) []

/-- `log_summary`, `/repo/simulation/run_parallel.py` lines 74-98 (the logging itself, lines
81-94 and 99-112, is left out) -/
def logSummary [AddMonoid T] (cases : List (Job C T)) (results : List (Option T)) :
    Summary C T :=
  { procTimes := (results.filterMap id).sum
    errors := ((results.zip cases).filter (fun p => p.1.isNone)).map (fun p => p.2.config)
    times := summaryTimes cases results }

/-- `run_parallel`, `/repo/simulation/run_parallel.py` lines 19-53: the jobs that were started and,
unless the pipeline raised, the summary -/
def runParallel [AddMonoid T] (cases : List (Job C T)) : List (Job C T) × Option (Summary C T) :=
  let (started, r) := pipeline cases
  (started, r.map (logSummary cases))

end Evogil.RunParallel
