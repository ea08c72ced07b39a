import Verif.Model.Factory
import Mathlib.Data.Rat.Defs
import Mathlib.Tactic.NormNum

/-!
# The shipped configuration and the calls of the constructors

`simulation/run_config.py` as it is, and what Python does with the keyword arguments of a driver:
`partial(algo_class, **config)()` (simulation/factory.py:176, simulation/worker.py:48), the drivers
that HGS nodes and IMGA islands create.  Only the binding of the arguments is modelled here, not the
bodies of the constructors.
-/

namespace Evogil.Factory

/-- A value of a configuration that is not a driver or an adapter: a number, a sequence of numbers, a
string, the box of a problem, its objective functions (`Sum.inr l`: blurred for level `l`, by
`blurred_fitnesses`, algorithms/HGS/classic/ClassicHGS.py:212-225), a population, or an object that the
node passes (archive of fitness values, trimming function). -/
inductive Atom where
  | num (q : ℚ)
  | nums (l : List ℚ)
  | text (s : Name)
  | dims (l : List (ℚ × ℚ))
  | fitnesses (p : Name) (level : Option ℕ)
  | population (l : List (List ℚ))
  | archive (level : ℕ)
  | trim (bits : ℚ)

/-- The attribute `pareto_front` of a problem module: missing, an empty list, or a list whose first
row has `w` numbers. -/
inductive Front where
  | absent
  | empty
  | width (w : ℕ)

/-- What `run_config` and the factory read of a problem module, and the population that
`gen_population` draws for it (evotools/ea_utils.py:7-11). -/
structure Problem where
  dims : List (ℚ × ℚ)
  front : Front
  initial : ℕ → List (List ℚ)

/-- A number as a configuration value. -/
def num (q : ℚ) : Val Atom := .atom (.num q)
/-- A sequence of numbers as a configuration value. -/
def nums (l : List ℚ) : Val Atom := .atom (.nums l)

/-- `DEFAULT_POPULATION_SIZE`: simulation/run_config.py:30. -/
def defaultPopulationSize : ℕ := 64

/-- The entries shared by `algo_base["HGS"]` and `algo_base["DHGS"]`: simulation/run_config.py:52-62
and 66-76. -/
def hgsBase : Cfg Atom :=
  [("fitness_errors".toList, nums [0, 0, 0]), ("cost_modifiers".toList, nums [1, 1, 1]),
    ("mutation_etas".toList, nums [10, 12, 15]), ("crossover_etas".toList, nums [15, 20, 25]),
    ("population_sizes".toList, nums [64, 20, 10]),
    ("comparison_multipliers".toList, nums [1, 8/100, 2/100]),
    ("mantissa_bits".toList, nums [4, 16, 64]), ("max_sprouts_no".toList, num 16),
    ("sproutiveness".toList, num 3), ("metaepoch_len".toList, nums [5, 5, 5]),
    ("min_progress_ratio".toList, nums [0, 1/100000, 1/10000])]

/-- `algo_base`: simulation/run_config.py:40-78, in the order of the file. -/
def algoBase : List (Name × Cfg Atom) :=
  [("IBEA".toList, [("kappa".toList, num (5/100)), ("mating_population_size".toList, num (1/2))]),
    ("NSGAII".toList, [("mating_population_size".toList, num (1/2))]),
    ("JGBL".toList, [("mating_population_size".toList, num (1/2)), ("jumping_rate".toList, num (6/10)),
      ("jumping_percentage".toList, num (1/2))]),
    ("IMGA".toList, [("islands_number".toList, num 3), ("migrants_number".toList, num 5),
      ("epoch_length".toList, num 5)]),
    ("NSLS".toList, [("local_search_mu".toList, num (1/2)), ("local_search_sigma".toList, num (1/2))]),
    ("HGS".toList, ("hgs_type".toList, .atom (.text "classic".toList)) :: hgsBase),
    ("DHGS".toList, ("hgs_type".toList, .atom (.text "distributed".toList)) :: hgsBase)]

/-- `standard_variance`: simulation/run_config.py:133-141; `1.0 / len(dims)` raises for an empty list
before anything is stored. -/
def standardVariance (m : Problem) (cfg : Cfg Atom) : Cfg Atom × Option Err :=
  match m.dims with
  | [] => (cfg, some .other)
  | d :: ds =>
    (update cfg [("mutation_eta".toList, num 20), ("crossover_eta".toList, num 30),
      ("mutation_rate".toList, num (1 / (d :: ds).length)), ("crossover_rate".toList, num (9/10))], none)

/-- `tuple(50.0 for _ in range(len(problem_mod.pareto_front[0])))`: simulation/run_config.py:84, 125. -/
def referencePoint (m : Problem) : Except Err (List ℚ) :=
  match m.front with
  | .absent => .error .attributeError
  | .empty => .error .other
  | .width w => .ok (List.replicate w 50)

/-- `init_alg___HGS` (= `init_alg___DHGS`): simulation/run_config.py:83-93. -/
def initHgs (m : Problem) (cfg : Cfg Atom) : Cfg Atom × Option Err :=
  match referencePoint m with
  | .error e => (cfg, some e)
  | .ok r =>
    match m.dims with
    | [] => (cfg, some .other)
    | d :: ds =>
      (update cfg [("reference_point".toList, nums r),
        ("mutation_rates".toList, nums (List.replicate 3 (1 / (d :: ds).length))),
        ("crossover_rates".toList, nums (List.replicate 3 (9/10)))], none)

/-- `init_alg___SMSEMOA`: simulation/run_config.py:123-126. -/
def initSms (m : Problem) (cfg : Cfg Atom) : Cfg Atom × Option Err :=
  match standardVariance m cfg with
  | (cfg', some e) => (cfg', some e)
  | (cfg', none) =>
    match referencePoint m with
    | .error e => (cfg', some e)
    | .ok r => (update cfg' [("reference_point".toList, nums r)], none)

/-- The functions `init_alg___…` of `run_config` by the part of the name after the prefix:
simulation/run_config.py:83-130. -/
def initTable : List (Name × (Problem → Cfg Atom → Cfg Atom × Option Err)) :=
  [("HGS".toList, initHgs), ("DHGS".toList, initHgs), ("IBEA".toList, standardVariance),
    ("SPEA2".toList, standardVariance), ("NSGAII".toList, standardVariance),
    ("NSGAIII".toList, standardVariance), ("NSLS".toList, standardVariance),
    ("JGBL".toList, standardVariance), ("OMOPSO".toList, standardVariance),
    ("SMSEMOA".toList, initSms), ("IMGA".toList, standardVariance)]

/-- `s.removeprefix(pre)`, if `s` starts with `pre`. -/
def stripPrefix : Name → Name → Option Name
  | [], s => some s
  | _ :: _, [] => none
  | c :: cs, d :: s => if c = d then stripPrefix cs s else none

/-- `getattr(run_config, key)` for the keys of `custom_init`: simulation/factory.py:246. -/
def initOf (key : Name) : Option (Problem → Cfg Atom → Cfg Atom × Option Err) :=
  match stripPrefix "init_alg___".toList key with
  | none => none
  | some rest => get initTable rest

/-- The pairs (inner, outer) for which `algorithms/<inner>/message.py` defines
`<inner><outer>MessageAdapter`: every driver for each of the three meta-algorithms
(algorithms/SPEA2/message.py:6,27,34, algorithms/NSGAII/message.py:5,9,15, and likewise the other
six files; there is no `algorithms/IMGA/message.py` or `algorithms/HGS/message.py` entry with a
meta-algorithm inside). -/
def shippedAdapter (inner outer : Name) : Bool := decide (inner ∈ drivers ∧ outer ∈ metaalgorithms)

/-- The environment of the assembly for the shipped `run_config`: the tables of
simulation/run_config.py, the classes that can be imported (simulation/factory.py:350-358 with
`custom_paths`, simulation/run_config.py:11; `BOGO` is importable though not listed) and the problem
modules.  `cust_base` is empty (simulation/run_config.py:80), and `algo_base` has no keys with
subdrivers. -/
def runEnv (mods : Name → Option Problem) : Env Atom where
  algoBase := get algoBase
  algoSubBase := fun _ _ => none
  custBase := fun _ => none
  init := fun key => (initOf key).map fun f cfg problem =>
    match mods problem with
    | none => (cfg, some .other)
    | some m => f m cfg
  classExists := fun a => decide (a ∈ "BOGO".toList :: drivers ++ metaalgorithms)
  problemExists := fun p => (mods p).isSome
  adapterExists := shippedAdapter
  dims := fun p => .atom (.dims ((mods p).elim [] Problem.dims))
  fitnesses := fun p => .atom (.fitnesses p none)
  population := fun p => .atom (.population ((mods p).elim [] fun m => m.initial defaultPopulationSize))

/-! ## Calls with keyword arguments -/

/-- The `TypeError`s of a call, and an `IndexError` or `AttributeError` while the arguments are
computed. -/
inductive CallErr where
  | missing (k : Name)
  | unexpected (k : Name)
  | argument
  deriving DecidableEq

/-- The named parameters of a constructor that also has `**kwargs`. -/
structure Sig where
  required : List Name
  optional : List Name

/-- Bind the keyword arguments to the parameters: the arguments that go to `**kwargs`, or the error for
the first parameter without a value. -/
def Sig.bind {V : Type} (s : Sig) (kw : List (Name × V)) : Except CallErr (List (Name × V)) :=
  match s.required.find? fun k => decide (k ∉ kw.map Prod.fst) with
  | some k => .error (.missing k)
  | none => .ok (kw.filter fun a => decide (a.1 ∉ s.required ++ s.optional))

/-- `Driver.__init__`: algorithms/base/driver.py:30; one optional parameter and no `**kwargs`. -/
def driverInit {V : Type} (kw : List (Name × V)) : Except CallErr Unit :=
  match kw.find? fun a => decide (a.1 ≠ "message_adapter_factory".toList) with
  | some a => .error (.unexpected a.1)
  | none => .ok ()

/-- `ComplexDriver.__init__`: algorithms/base/driver.py:51-54. -/
def complexInit {V : Type} (kw : List (Name × V)) : Except CallErr Unit := do
  let rest ← Sig.bind ⟨["driver_message_adapter_factory".toList], []⟩ kw
  driverInit rest

/-- The variation parameters: `mutation_eta`, `crossover_eta`, `mutation_rate`, `crossover_rate`. -/
def variationNames : List Name :=
  ["mutation_eta", "crossover_eta", "mutation_rate", "crossover_rate"].map String.toList

/-- `population`, `dims`, `fitnesses`. -/
def problemNames : List Name := ["population", "dims", "fitnesses"].map String.toList

/-- `trim_function`, `fitness_archive`. -/
def levelNames : List Name := ["trim_function", "fitness_archive"].map String.toList

/-- The parameters of the constructors: algorithms/SPEA2/SPEA2.py:25-38, algorithms/IBEA/IBEA.py:11-26,
algorithms/NSGAII/NSGAII.py:29-43, algorithms/OMOPSO/OMOPSO.py:11-26,
algorithms/NSGAIII/NSGAIII.py:16-30, algorithms/JGBL/JGBL.py:8-24, algorithms/SMSEMOA/SMSEMOA.py:13-28,
algorithms/NSLS/NSLS.py:11-26, algorithms/BOGO/BOGO.py:14-23, algorithms/IMGA/IMGA.py:16-32. -/
def signatures : List (Name × Sig) :=
  [("SPEA2".toList, ⟨problemNames ++ variationNames, levelNames⟩),
    ("IBEA".toList, ⟨problemNames ++ ["kappa", "mating_population_size"].map String.toList ++
      variationNames, levelNames⟩),
    ("NSGAII".toList, ⟨problemNames ++ ["mating_population_size".toList] ++ variationNames, levelNames⟩),
    ("OMOPSO".toList, ⟨problemNames ++ variationNames,
      ["mutation_perturbation", "mutation_probability"].map String.toList ++ levelNames⟩),
    ("NSGAIII".toList, ⟨problemNames ++ ["mutation_eta", "crossover_eta"].map String.toList,
      ["mutation_rate", "crossover_rate", "theta"].map String.toList ++ levelNames⟩),
    ("JGBL".toList, ⟨problemNames ++ ["mating_population_size".toList] ++ variationNames ++
      ["jumping_rate", "jumping_percentage"].map String.toList, levelNames⟩),
    ("SMSEMOA".toList, ⟨problemNames ++ variationNames ++ ["reference_point".toList],
      "epoch_length_multiplier".toList :: levelNames⟩),
    ("NSLS".toList, ⟨problemNames ++ variationNames,
      levelNames ++ ["local_search_mu", "local_search_sigma"].map String.toList⟩),
    ("BOGO".toList, ⟨problemNames ++ ["mutation_variance", "crossover_variance"].map String.toList, []⟩),
    ("IMGA".toList, ⟨problemNames ++ ["islands_number", "migrants_number", "epoch_length",
      "driver"].map String.toList ++ variationNames, ["topology".toList]⟩)]

/-- The parameters of `ClassicHGS.__init__` and `DistributedHGS.__init__`
(algorithms/HGS/classic/ClassicHGS.py:21-44, algorithms/HGS/distributed/DistributedHGS.py:19-42), all
of which `HGS.__init__` also has (algorithms/HGS/HGS.py:15-39). -/
def innerHgsSig : Sig :=
  ⟨problemNames ++ ["fitness_errors", "cost_modifiers", "driver", "mutation_etas", "crossover_etas",
    "mutation_rates", "crossover_rates", "reference_point", "mantissa_bits",
    "min_progress_ratio"].map String.toList,
    ["metaepoch_len", "max_level", "max_sprouts_no", "sproutiveness", "comparison_multipliers",
      "population_sizes"].map String.toList⟩

/-- The parameters of `HGS.__init__`: algorithms/HGS/HGS.py:15-39. -/
def hgsSig : Sig := ⟨innerHgsSig.required, innerHgsSig.optional ++ ["hgs_type".toList]⟩

/-- `HGS.__init__`: algorithms/HGS/HGS.py:40-69: the arguments left over go to `ComplexDriver.__init__`,
and once more, after the positional arguments, to the constructor of `ClassicHGS` or `DistributedHGS`,
which passes them to `ComplexDriver.__init__`. -/
def hgsInit {V : Type} (kw : List (Name × V)) : Except CallErr Unit := do
  let rest ← hgsSig.bind kw
  complexInit rest
  match rest.find? fun a => decide (a.1 ∈ innerHgsSig.required ++ innerHgsSig.optional) with
  | some a => .error (.unexpected a.1)
  | none => complexInit rest

/-- A call of the class `algo` (`DHGS` is `HGS`, simulation/run_config.py:11): the named parameters, then
the constructors of the base classes.  `JGBL.__init__` passes the parameters of `NSGAII.__init__` by
position and the rest by name (algorithms/JGBL/JGBL.py:25-37). -/
def construct {V : Type} (algo : Name) (kw : List (Name × V)) : Except CallErr Unit :=
  if algo = "HGS".toList ∨ algo = "DHGS".toList then hgsInit kw
  else match get signatures algo with
    | none => .error .argument
    | some s =>
      if algo = "IMGA".toList then do
        let rest ← s.bind kw
        complexInit rest
      else if algo = "JGBL".toList then do
        let rest ← s.bind kw
        match get signatures "NSGAII".toList with
        | none => .error .argument
        | some s' =>
          match rest.find? fun a => decide (a.1 ∈ s'.required ++ s'.optional) with
          | some a => .error (.unexpected a.1)
          | none => driverInit rest
      else do
        let rest ← s.bind kw
        driverInit rest

/-- `partial(algo_class, **config)(**extra)`: the later keyword arguments win; the arguments of the
call. -/
def callPart {A : Type} (v : Val A) (extra : Cfg A) : Except CallErr (Cfg A) :=
  match v with
  | .part algo cfg => do
    construct algo (update cfg extra)
    pure (update cfg extra)
  | _ => .error .argument

/-! ## The drivers of nodes and islands -/

/-- `args[k]` of a constructor (the parameter `k`). -/
def arg {A : Type} (args : Cfg A) (k : String) : Except CallErr (Val A) :=
  match get args k.toList with
  | none => .error .argument
  | some v => .ok v

/-- `args[k][i]` for a sequence of numbers. -/
def argAt (args : Cfg Atom) (k : String) (i : ℕ) : Except CallErr (Val Atom) :=
  match get args k.toList with
  | some (.atom (.nums l)) =>
    match l[i]? with
    | none => .error .argument
    | some q => .ok (num q)
  | _ => .error .argument

/-- `Node.__init__`: algorithms/HGS/classic/ClassicHGS.py:234-248: the arguments with which the driver
of a node of the given level is called; `args` are those of the HGS object and `population` is the
population of the node.  `fitness_errors[level]` and `mantissa_bits[level]` are read by the first call
of the blurred objectives and of the trimming function; here the latter is read at once.  The node of the
distributed HGS does the same without the archive: algorithms/HGS/distributed/actors.py:242-260,
`distributed = true`. -/
def nodeDriver (distributed : Bool) (args : Cfg Atom) (level : ℕ) (population : Val Atom) : Except CallErr (Cfg Atom) := do
  let driver ← arg args "driver"
  let dims ← arg args "dims"
  let fits ← match get args kFitnesses with
    | some (.atom (.fitnesses p none)) => .ok (Val.atom (Atom.fitnesses p (some level)))
    | _ => .error .argument
  let meta' ← argAt args "mutation_etas" level
  let mrate ← argAt args "mutation_rates" level
  let ceta ← argAt args "crossover_etas" level
  let crate ← argAt args "crossover_rates" level
  let bits ← match get args "mantissa_bits".toList with
    | some (.atom (.nums l)) =>
      match l[level]? with
      | none => .error .argument
      | some q => .ok q
    | _ => .error .argument
  let adapter ← arg args "driver_message_adapter_factory"
  let r ← callPart driver
    ([(kPopulation, population), (kDims, dims), (kFitnesses, fits), ("mutation_eta".toList, meta'),
      ("mutation_rate".toList, mrate), ("crossover_eta".toList, ceta), ("crossover_rate".toList, crate)] ++
      (if distributed then [] else [("fitness_archive".toList, .atom (.archive level))]) ++
      [("trim_function".toList, .atom (.trim bits)), ("message_adapter_factory".toList, adapter)])
  let _ ← argAt args "metaepoch_len" level
  pure r

/-- `IMGA.Island.__init__`: algorithms/IMGA/IMGA.py:119-128: the arguments with which the driver of an
island is called. -/
def islandDriver (args : Cfg Atom) (population : Val Atom) : Except CallErr (Cfg Atom) := do
  let driver ← arg args "driver"
  let dims ← arg args "dims"
  let fits ← arg args "fitnesses"
  let mrate ← arg args "mutation_rate"
  let meta' ← arg args "mutation_eta"
  let crate ← arg args "crossover_rate"
  let ceta ← arg args "crossover_eta"
  let adapter ← arg args "driver_message_adapter_factory"
  callPart driver
    [(kPopulation, population), (kDims, dims), (kFitnesses, fits), ("mutation_rate".toList, mrate),
      ("mutation_eta".toList, meta'), ("crossover_rate".toList, crate), ("crossover_eta".toList, ceta),
      ("message_adapter_factory".toList, adapter)]

end Evogil.Factory
