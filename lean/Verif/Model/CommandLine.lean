import Verif.Model.Factory
import Mathlib.Data.List.DropRight

/-!
# From the command line to the jobs (`evogil.py`, `simulation/factory.py`, `simulation/run_parallel.py`)

`docopt` is not modelled: its result is a parameter. Commands are `True` or `False`, arguments and options are strings or
`None`.
-/

namespace Evogil.CommandLine

open Factory

/-- The exceptions that are not caught. -/
inductive Err where
  | typeError
  | valueError
  | noElements
deriving DecidableEq

/-- A character that `int` skips around a number. -/
def isSpace (c : Char) : Bool := c ∈ [' ', '\t', '\n', '\x0b', '\x0c', '\r']

/-- The value of a decimal digit. -/
def digit (c : Char) : ℕ := c.toNat - '0'.toNat

/-- The digits of a number after the first one, with the number so far: single underscores may stand between digits. Part of
`int(_)`, factory.py:39, 40, 70, 103, run_parallel.py:27. -/
def digitsLoop : ℕ → Name → Option ℕ
  | n, [] => some n
  | n, c :: cs =>
    if c.isDigit then digitsLoop (10 * n + digit c) cs
    else if c = '_' then
      match cs with
      | [] => none
      | d :: ds => if d.isDigit then digitsLoop (10 * n + digit d) ds else none
    else none

/-- A number without sign, part of `int(_)`, factory.py:39, 40, 70, 103, run_parallel.py:27. -/
def natural : Name → Option ℕ
  | [] => none
  | c :: cs => if c.isDigit then digitsLoop (digit c) cs else none

/-- `int(s)` for a string, factory.py:39, 40, 70, 103, run_parallel.py:27. Simplified: ASCII only, and there is no limit to
the number of digits (4300 in newer versions of Python). -/
def pyInt (s : Name) : Except Err ℤ :=
  let t := (s.dropWhile isSpace).rdropWhile isSpace
  let r : Option ℤ :=
    match t with
    | '+' :: cs => (natural cs).map Int.ofNat
    | '-' :: cs => (natural cs).map fun n : ℕ => -(n : ℤ)
    | cs => (natural cs).map Int.ofNat
  match r with
  | some z => .ok z
  | none => .error .valueError

/-- `int(_)` for an argument that may be absent: `int(None)` raises, factory.py:39-40. -/
def intArg : Option Name → Except Err ℤ
  | none => .error .typeError
  | some s => pyInt s

/-- The result of `docopt`, evogil.py:113, as far as it is used here; `-N` and `-j` have default values (evogil.py:64-69). -/
structure Args where
  /-- the commands, evogil.py:4-17 -/
  given : Name → Bool
  /-- `<budget>`, evogil.py:7 -/
  budget : Name
  /-- `<timeout>`, evogil.py:8 -/
  timeout : Option Name
  /-- `<step>`, evogil.py:8 -/
  step : Option Name
  /-- `--algo`, evogil.py:38 -/
  algo : Option Name
  /-- `--problem`, evogil.py:51 -/
  problem : Option Name
  /-- `-N`, evogil.py:67-69 -/
  runs : Name
  /-- `-j`, evogil.py:64-66 -/
  jobs : Name

/-- The functions in `run_dict`, evogil.py:116-129. -/
inductive Action where
  | runParallel | statistics | rank | tableRank | detailedRank | picturesTime | picturesSummary | bestFronts | violin
  | analyseResults | allAlgosProblems
deriving DecidableEq

/-- `run_dict`, evogil.py:116-129. -/
def runDict : List (Name × Action) :=
  [("run".toList, .runParallel), ("statistics".toList, .statistics), ("stats".toList, .statistics), ("rank".toList, .rank),
    ("table".toList, .tableRank), ("rank_details".toList, .detailedRank), ("pictures".toList, .picturesTime),
    ("pictures_summary".toList, .picturesSummary), ("best_fronts".toList, .bestFronts), ("violin".toList, .violin),
    ("summary".toList, .analyseResults), ("list".toList, .allAlgosProblems)]

/-- `main_worker`, evogil.py:109-137: the function that is called. -/
def mainWorker (a : Args) : Option Action := (runDict.find? fun e => a.given e.1).map Prod.snd

/-- `parse_budgets`, factory.py:102-105. -/
def parseBudgets (s : Name) : Except Err (List ℤ) := ((pySplit ',' s).mapM pyInt).map Factory.parseBudgets

/-- `create_simulation`, factory.py:45-71: the number of runs is read once for each pair of a problem and an algorithm
(line 70), hence not at all if there is no pair. -/
def createSimulation (a : Args) : Except Err (List (Name × Name × ℕ)) :=
  if parseProblems problems a.problem = [] ∨ parseAlgorithms algorithms a.algo = [] then .ok []
  else (pyInt a.runs).map fun n => Factory.createSimulation a.problem a.algo n.toNat

/-- The worker and the parameters of the simulation cases, factory.py:33-42. -/
inductive Kind where
  | budget (budgets : List ℤ)
  | time (timeout step : ℤ)
deriving DecidableEq

/-- `create_budget_simulation`, factory.py:33-35. -/
def budgetSimulation (a : Args) : Except Err (Kind × List (Name × Name × ℕ)) :=
  match parseBudgets a.budget with
  | .error e => .error e
  | .ok budgets => (createSimulation a).map fun cases => (.budget budgets, cases)

/-- `create_time_bound_simulation`, factory.py:38-42. -/
def timeSimulation (a : Args) : Except Err (Kind × List (Name × Name × ℕ)) :=
  match intArg a.timeout with
  | .error e => .error e
  | .ok timeout =>
    match intArg a.step with
    | .error e => .error e
    | .ok step => (createSimulation a).map fun cases => (.time timeout step, cases)

/-- `resolve_configuration`, factory.py:23-31, with the unpacking of its result in run_parallel.py:20, which raises if
neither command is given. -/
def resolveConfiguration (a : Args) : Except Err (Kind × List (Name × Name × ℕ)) :=
  if a.given "budget".toList then budgetSimulation a
  else if a.given "time".toList then timeSimulation a
  else .error .typeError

/-- `run_parallel`, run_parallel.py:19-50, up to the first job: the worker, the simulation cases before they are shuffled
(line 23). `ProcessPoolExecutor` raises if the number of processes is not positive (line 28); `run` of `rx` raises if there is
no case (line 50). -/
def runParallel (a : Args) : Except Err (Kind × List (Name × Name × ℕ)) :=
  match resolveConfiguration a with
  | .error e => .error e
  | .ok r =>
    match pyInt a.jobs with
    | .error e => .error e
    | .ok j => if j ≤ 0 then .error .valueError else if r.2 = [] then .error .noElements else .ok r

end Evogil.CommandLine
