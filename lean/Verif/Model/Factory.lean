import Mathlib.Data.List.Basic
import Mathlib.Data.List.ProdSigma
import Mathlib.Data.List.Sort
import Mathlib.Data.Char

/-!
# Simulation planning and assembly of drivers: `simulation/factory.py`, `simulation/run_config.py`

Names are lists of characters.  Configuration values are opaque atoms, message adapters, or a driver
class partially applied to a configuration.
-/

namespace Evogil.Factory

/-- A Python `str`. -/
abbrev Name := List Char

/-- `s.split(c)` for a one-character separator. -/
def pySplit (c : Char) : Name → List Name
  | [] => [[]]
  | x :: xs =>
    if x = c then [] :: pySplit c xs
    else match pySplit c xs with
      | [] => [[x]]
      | w :: ws => (x :: w) :: ws

/-- `s.lower()` (ASCII). -/
def lower (s : Name) : Name := s.map Char.toLower

/-! ## The tables -/

/-- `drivers`: simulation/run_config.py:3. -/
def drivers : List Name :=
  ["SPEA2", "IBEA", "NSGAII", "OMOPSO", "NSGAIII", "JGBL", "SMSEMOA", "NSLS"].map String.toList

/-- `metaalgorithms`: simulation/run_config.py:5. -/
def metaalgorithms : List Name := ["IMGA", "HGS", "DHGS"].map String.toList

/-- `algorithms`: simulation/run_config.py:7-9. -/
def algorithms : List Name :=
  (metaalgorithms.flatMap fun m => drivers.map fun a => m ++ '+' :: a) ++ drivers

/-- `problems`: simulation/run_config.py:13-28. -/
def problems : List Name :=
  ["ZDT1", "ZDT2", "ZDT3", "ZDT4", "ZDT6", "UF1", "UF2", "UF3", "UF4", "UF5", "UF6", "UF7", "UF8",
    "UF9"].map String.toList

/-! ## The plan -/

/-- `parse_problems`: simulation/factory.py:74-87; the option is absent or a comma separated list. -/
def parseProblems (known : List Name) (opt : Option Name) : List Name :=
  match opt with
  | some (c :: cs) => known.filter fun p => lower p ∈ pySplit ',' (lower (c :: cs))
  | _ => known

/-- `parse_algorithms`: simulation/factory.py:90-99; without the option nothing is selected. -/
def parseAlgorithms (known : List Name) (opt : Option Name) : List Name :=
  match opt with
  | some (c :: cs) => known.filter fun p => lower p ∈ pySplit ',' (lower (c :: cs))
  | _ => []

/-- `create_simulation`: simulation/factory.py:45-71: the problem, algorithm and run number of each
simulation case, in order. -/
def createSimulation (problemOpt algoOpt : Option Name) (n : ℕ) : List (Name × Name × ℕ) :=
  ((parseProblems problems problemOpt).flatMap fun p =>
      (parseAlgorithms algorithms algoOpt).map fun a => (p, a)).flatMap fun c =>
    (List.range n).map fun run => (c.1, c.2, run)

/-- `parse_budgets`: simulation/factory.py:102-105, after the conversion to numbers. -/
def parseBudgets (l : List ℤ) : List ℤ := l.insertionSort (· ≤ ·)

/-! ## Configurations -/

/-- A configuration value. -/
inductive Val (A : Type) where
  | atom (a : A)
  | adapter (inner outer : Name)
  | part (algo : Name) (cfg : List (Name × Val A))

/-- A configuration: a `dict` with keys in insertion order. -/
abbrev Cfg (A : Type) := List (Name × Val A)

variable {A : Type}

/-- `cfg[k]`, if present. -/
def get {V : Type} : List (Name × V) → Name → Option V
  | [], _ => none
  | (k', v) :: rest, k => if k' = k then some v else get rest k

/-- `cfg[k] = v`. -/
def set {V : Type} : List (Name × V) → Name → V → List (Name × V)
  | [], k, v => [(k, v)]
  | (k', v') :: rest, k, v => if k' = k then (k', v) :: rest else (k', v') :: set rest k v

/-- `cfg.update(upd)`. -/
def update {V : Type} (cfg upd : List (Name × V)) : List (Name × V) :=
  upd.foldl (fun c kv => set c kv.1 kv.2) cfg

/-- The exceptions of the assembly. -/
inductive Err where
  | notViable
  | attributeError
  | other
  deriving DecidableEq

/-- What the assembly looks up: the tables of `run_config`, its initialiser functions by name, the
importable classes and problem modules, and the message adapters.  An initialiser returns the
configuration as it left it and the exception it raised, if any. -/
structure Env (A : Type) where
  algoBase : Name → Option (Cfg A)
  algoSubBase : Name → List Name → Option (Cfg A)
  custBase : List Name → Option (Cfg A)
  init : Name → Option (Cfg A → Name → Cfg A × Option Err)
  classExists : Name → Bool
  problemExists : Name → Bool
  adapterExists : Name → Name → Bool
  dims : Name → Val A
  fitnesses : Name → Val A
  population : Name → Val A

/-- `"dims"`. -/
def kDims : Name := "dims".toList
/-- `"fitnesses"`. -/
def kFitnesses : Name := "fitnesses".toList
/-- `"driver"`. -/
def kDriver : Name := "driver".toList
/-- `"driver_message_adapter_factory"`. -/
def kAdapter : Name := "driver_message_adapter_factory".toList
/-- `"population"`. -/
def kPopulation : Name := "population".toList

/-- Update by a table entry if there is one (`with suppress(KeyError)`). -/
def updateOpt (cfg : Cfg A) : Option (Cfg A) → Cfg A
  | none => cfg
  | some upd => update cfg upd

/-- `load_obligatory_problem_parameters`: simulation/factory.py:337-341. -/
def loadObligatory (env : Env A) (problem : Name) (cfg : Cfg A) : Cfg A :=
  update cfg [(kDims, env.dims problem), (kFitnesses, env.fitnesses problem)]

/-- `load_algorithm_config`: simulation/factory.py:316-334. -/
def loadAlgorithm (env : Env A) (algo : Name) (cfg : Cfg A) : Cfg A :=
  updateOpt cfg (env.algoBase algo)

/-- `load_algorithm_with_subdrivers_config`: simulation/factory.py:291-313. -/
def loadAlgorithmSub (env : Env A) (algo : Name) (subs : List Name) (cfg : Cfg A) : Cfg A :=
  updateOpt cfg (env.algoSubBase algo subs)

/-- `load_problem_config`: simulation/factory.py:254-288, with the key
`(algo, *all_drivers[driver_pos + 1:], problem)`. -/
def loadProblem (env : Env A) (algo : Name) (subs : List Name) (problem : Name) (cfg : Cfg A) :
    Cfg A :=
  updateOpt cfg (env.custBase (algo :: subs ++ [problem]))

/-- `"_".join(l)`. -/
def joinUnderscore : List Name → Name
  | [] => []
  | [x] => x
  | x :: xs => x ++ '_' :: joinUnderscore xs

/-- The name of the initialiser: simulation/factory.py:240-244.  `subs` is `none` when `all_drivers`
was not passed (or empty). -/
def initKey (algo : Name) (subs : Option (List Name)) (problem : Option Name) : Name :=
  "init_alg___".toList ++ algo ++
    (match subs with | none => [] | some l => ['_', '_'] ++ joinUnderscore l) ++
    (match problem with | some (c :: cs) => ['_', '_', '_', '_'] ++ (c :: cs) | _ => [])

/-- `custom_init`: simulation/factory.py:216-251; an `AttributeError`, also one raised inside the
initialiser, is suppressed. -/
def customInit (env : Env A) (key : Name) (problem : Name) (cfg : Cfg A) : Except Err (Cfg A) :=
  match env.init key with
  | none => .ok cfg
  | some f =>
    match f cfg problem with
    | (cfg', none) => .ok cfg'
    | (cfg', some .attributeError) => .ok cfg'
    | (_, some e) => .error e

/-- `load_init_population`: simulation/factory.py:205-213. -/
def loadPopulation (env : Env A) (problem : Name) (cfg : Cfg A) : Cfg A :=
  match get cfg kPopulation with
  | none => update cfg [(kPopulation, env.population problem)]
  | some _ => cfg

/-- The `if driver:` part, simulation/factory.py:142-152, with `prepare_message_adapter_class`,
simulation/factory.py:361-375: `subs` is `all_drivers[driver_pos + 1:]`; no next driver or no adapter
means `NotViableConfiguration` (an `IndexError` cannot occur when a driver is passed by `prepare`). -/
def loadDriver (env : Env A) (algo : Name) (driver : Option (Val A)) (subs : List Name)
    (cfg : Cfg A) : Except Err (Cfg A) :=
  match driver with
  | none => .ok cfg
  | some d =>
    match subs with
    | [] => .error .other
    | inner :: _ =>
      if env.adapterExists inner algo then
        .ok (update (update cfg [(kDriver, d)]) [(kAdapter, .adapter inner algo)])
      else .error .notViable

/-- The four calls of `custom_init`: simulation/factory.py:160-163. -/
def customInits (env : Env A) (algo : Name) (subs : List Name) (problem : Name) (cfg : Cfg A) :
    Except Err (Cfg A) := do
  let c1 ← customInit env (initKey algo none none) problem cfg
  let c2 ← customInit env (initKey algo (some subs) none) problem c1
  let c3 ← customInit env (initKey algo none (some problem)) problem c2
  customInit env (initKey algo (some subs) (some problem)) problem c3

/-- The tables between the driver part and the initialisers: simulation/factory.py:154-158. -/
def loadTables (env : Env A) (algo : Name) (subs : List Name) (problem : Name) (cfg : Cfg A) :
    Cfg A :=
  loadProblem env algo subs problem <|
    loadProblem env algo [] problem <|
      loadAlgorithmSub env algo subs <|
        loadAlgorithm env algo cfg

/-- `prepare_with_driver`: simulation/factory.py:118-202, for a non-empty `all_drivers`; `subs` is
`all_drivers[driver_pos + 1:]`.  The result is the class partially applied to the configuration. -/
def prepareWithDriver (env : Env A) (algo problem : Name) (driver : Option (Val A))
    (subs : List Name) : Except Err (Val A) :=
  if env.classExists algo = false then .error .other
  else if env.problemExists problem = false then .error .other
  else do
    let c1 ← loadDriver env algo driver subs (loadObligatory env problem [])
    let c2 ← customInits env algo subs problem (loadTables env algo subs problem c1)
    pure (.part algo (loadPopulation env problem c2))

/-- The loop of `prepare`, simulation/factory.py:110-114, from the last driver to the first: the
driver built for the names in the list. -/
def prepareLoop (env : Env A) (problem : Name) : List Name → Except Err (Option (Val A))
  | [] => .ok none
  | d :: rest => do
    let inner ← prepareLoop env problem rest
    let v ← prepareWithDriver env d problem inner rest
    pure (some v)

/-- `prepare`: simulation/factory.py:108-115. -/
def prepare (env : Env A) (algo problem : Name) : Except Err (Option (Val A)) :=
  prepareLoop env problem (pySplit '+' algo)

end Evogil.Factory
