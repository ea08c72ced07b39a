# Formal model of evogil: design

The subject is the Python code in `/repo` (evogil: a framework that runs
multi-objective evolutionary algorithms and analyses their results).  The model
is a set of total, where possible computable Lean 4 functions which mirror the
Python functions branch by branch.  Properties are listed in `properties.jsonl`;
`MANIFEST.json` maps property ids to theorem names.

Layout of `lean/Verif`:

* `Model/` the translation of the code, one file per Python module or algorithm;
* `Spec/` small definitions that properties are stated with (Pareto dominance,
  rank by chains, dominated volume, boxes, trees, ...), written without reference
  to the model;
* `Lemmas/` auxiliary proofs;
* `Props/` the theorems named in the manifest (`Cxx_...`), each with concrete
  instances as `example`s;
* `Audit.lean` prints the axioms of every theorem of the manifest.

`seeded/LOG.jsonl` records the experiments with wrong programs: a copy of the
model is edited as a realistic bug would and rebuilt; the log says which theorems
fail, and which theorems were tightened because they did not.

## 1. Modelling conventions

* **Numbers.** Objective values are elements of an arbitrary linear order when
  only comparisons matter, of an arbitrary linear ordered field or `ℝ`/`ℚ` when
  arithmetic matters.  Most algorithms are modelled a second time with IEEE
  rounding to nearest after every operation (the files `Model/Rounded*`, from
  C121 on; `Binary64.round64` has 53 significant bits and gradual underflow, but
  no greatest float). Where a claim says nothing about floating point, its
  arithmetic is exact. NaN and infinities are not modelled, except where infinity
  is used as a sentinel (then `WithTop`/`WithBot` or an explicit constructor).
* **Randomness** (`random.random`, `random.choice`, `random.sample`, ...) is an
  explicit argument: either the drawn value itself or a stream/oracle. Theorems
  quantify over all draws.
* **Time** (clock readings) is an explicit list of readings.
* **Set iteration order** is an arbitrary permutation.
* **External libraries** (`rx`, `thespian`, `numpy`, `pickle`, `docopt`) are not
  modelled.  What is assumed about each of them is written at the definition
  that needs it, and collected in section 2.
* **Exceptions** are values (`Except`/`Option`), each raising branch is explicit.
* **Object identity / aliasing** is modelled by indices or ids whenever the code
  relies on it (crossover parents, NSGA-II fronts, HGS nodes, hypervolume nodes,
  shared configuration lists).
* **Files** are a finite map from path components to contents.
* **Loops** become structural recursion on the list that is iterated over;
  `while` loops take `fuel` and return `none` when it runs out, with a theorem
  that enough fuel exists.  Non-termination of the code is stated as "no amount
  of fuel suffices".

## 2. Trusted base

* Lean's kernel, and for every theorem at most the axioms `propext`,
  `Classical.choice`, `Quot.sound`.  No other axiom, no `sorry`, no
  `native_decide`.
* The faithfulness of the hand translation Python -> Lean. Every definition of
  `Model/` cites the file and the lines it mirrors, and says what it simplifies.
* Idealised arithmetic (see above).
* Library behaviour: Python's `sorted`/`list.sort` is a stable sort (modelled by
  `List.mergeSort`), `dict` preserves insertion order, `rx` streams deliver items
  in order and `run()` blocks until completion, `thespian` delivers each message
  exactly once and in order between two given actors, but in an arbitrary order
  between different pairs, `pickle` round-trips.

Not modelled at all: drawing with matplotlib (what is drawn is modelled, C116 to
C119), unit tests, logging, the terminal formatting in `statistic/stats.py` and
`statistic/summary.py`, `docopt` (its result is a parameter, C160), the tables of reference points of `UF11`, `UF12` and `kursawe` (single rows
of them are quoted; the matrices, factors and bounds of UF11 and UF12 are copied).

## 3. Properties

| id | title | status | what is modelled | how it is proved | notes, what is missing |
|----|-------|--------|------------------|------------------|------------------------|
| C01 | Dominance test decides Pareto dominance | proved | `ea_utils.domination_cmp`, `dominates` over any linear order (Model/Dominance) | induction over the zipped lists generalising the running direction; the order laws follow from the characterisation | Vectors over any linear order (no NaN). |
| C02 | Dominance is a strict partial order and the comparison is antisymmetric | proved | `ea_utils.domination_cmp`, `dominates` over any linear order (Model/Dominance) | induction over the zipped lists generalising the running direction; the order laws follow from the characterisation | Transitivity for equal lengths; a witness shows the hypothesis is needed. |
| C03 | Every dominance implementation in the code base agrees | proved | NSGA-II `dominates`, OMOPSO `Individual.dominates`, uses in SMS-EMOA and NSLS | each proved equal to the specification used in C01 | - |
| C04 | Pareto layering terminates, is a partition, and peels non-dominated layers | proved | `ea_utils.paretofront_layers` (Model/Layers) | fuel recursion with a proof that the length is enough fuel; existence of minimal elements of a strict order | Termination and partition hold for vectors of any lengths; rank and 'dominated by previous layer' for equal lengths. The docstring's stronger claim is refuted. |
| C05 | The non-dominated sorts of NSGA-II, SMS-EMOA and NSLS compute the dominance rank | proved | `_nd_sort` of NSGA-II, SMS-EMOA, NSGA-III with counters and set iteration orders (Model/NdSort) | loop invariant: counter = number of dominators not yet placed; fronts = ranks by longest chains | For every iteration order of the Python sets; populations without repeated objects. NSLS uses the NSGA-II test and text. |
| C06 | The non-domination filter keeps exactly the non-dominated points | proved | `filter_not_dominated`, `filter_not_dominated2` (Model/ParetoFilter) | fold invariant: kept = non-dominated members of the prefix | - |
| C07 | Laws of the distance indicators (GD, IGD, AHD) | proved | `metrics_utils.py`, `epsilon.py`, `metrics.py` (Model/Metrics) | loops rewritten as minima/maxima/sums; optimality and inequalities over ℝ | Over the real numbers. AHD mixes the non-dominated part and all solutions; the zero set is characterised for antichain fronts. |
| C08 | Additive epsilon indicator is the least uniform shift | proved | `metrics_utils.py`, `epsilon.py`, `metrics.py` (Model/Metrics) | loops rewritten as minima/maxima/sums; optimality and inequalities over ℝ | In the orientation implemented; a witness shows it is not the usual orientation. |
| C09 | Hypervolume is exact in one, two and three dimensions | proved | `hv.py` at pointer level: `MultiList`, `preProcess`, `hvRecursive` with `ignore`, `area`, `volume`, `bounds` (Model/HyperVolume); specification: Lebesgue measure of the dominated region (Spec/Volume) | invariant of the recursion: pointers describe filtered sorted lists, cached areas/volumes valid up to `bounds`, marks reliable; slicing formula for the measure (Fubini); for the counterexamples the model is run by the kernel on integers and transferred to ℝ | Exact real arithmetic; the coordinates relative to the reference point must be at least the value the code starts its bounds with (-1e308). |
| C10 | Hypervolume recursion terminates and restores its data structure | proved | the same model | doubly linked lists as next/prev maps; `Linked` invariant under remove/reinsert; induction on the dimension for the recursion | Modelled at pointer level. |
| C11 | Pareto dominance indicator is the share of the combined front found by the run | partial | `metrics_utils.py`, `epsilon.py`, `metrics.py` (Model/Metrics) | loops rewritten as minima/maxima/sums; optimality and inequalities over ℝ | Proved for runs without repeated points; with repetitions the code exceeds 1 (witness). |
| C12 | Ranges of the spread indicators | proved | `metrics_utils.py`, `epsilon.py`, `metrics.py` (Model/Metrics) | loops rewritten as minima/maxima/sums; optimality and inequalities over ℝ | - |
| C13 | Mutation stays in the box | proved | `mutate`, `crossover` and the older operators of `ea_utils.py`, NSGA-III's variants; list objects on a heap for aliasing (Model/Variation) | clamp lemma, induction on coordinates, all draws as arguments; powers through the laws of real powers | Ideal arithmetic; the same text is used by NSGA-III's polynomial_mutation. |
| C14 | Crossover stays in the box and does not touch its parents | proved | `mutate`, `crossover` and the older operators of `ea_utils.py`, NSGA-III's variants; list objects on a heap for aliasing (Model/Variation) | clamp lemma, induction on coordinates, all draws as arguments; powers through the laws of real powers | Lists are objects on a heap, so the claim about the parents is a theorem. |
| C15 | A budget run stops at the first step reaching the budget | proved | `BudgetRun`, `StepsRun`, `BudgetWorker` over an abstract driver (Model/Driver) | induction on the number of steps | Any driver, given as a state machine. |
| C16 | A time-limited run reports the state at each time slot exactly once and in order | partial | `TimeRun`, `TimeWorker` | induction on the list of clock readings | Order, uniqueness, timeout and completeness of the slots proved; the reported result is the last one before the slot except for slots that pass during the first step, where the claim is refuted by a witness. If the time is up after one step nothing is emitted. Clock readings in an ordered field, no rounding. |
| C17 | A step-limited run makes exactly n steps with consecutive numbers | proved | `BudgetRun`, `StepsRun`, `BudgetWorker` over an abstract driver (Model/Driver) | induction on the number of steps | - |
| C18 | Stored results are read back and never overwrite a different run | proved | `Serializer`, extractors, `get_simulation_id` over a file tree (Model/Storage) | path injectivity, zero padded decimals, sort lemmas | File tree as paths to nodes; pickling is the identity; names without path separators. |
| C19 | Listing of stored results groups every result by its measure, in increasing order | partial | `Serializer`, extractors, `get_simulation_id` over a file tree (Model/Storage) | path injectivity, zero padded decimals, sort lemmas | C19_groups is the full claim for run directories whose result files carry the names the code itself writes; a stray name with a leading zero makes the listing drop results (witness). |
| C20 | Simulation identifiers round-trip and stay distinct | proved | `Serializer`, extractors, `get_simulation_id` over a file tree (Model/Storage) | path injectivity, zero padded decimals, sort lemmas | Also shows that numbers from 10^7 on are stored but never listed. |
| C21 | Metric cache returns what would be computed | proved | `get_metric` and its cache | state machine over request sequences, invariant | For results that are not rewritten; a witness shows the stale value otherwise. |
| C22 | Objectives are evaluated once and the cost equals the number of evaluations | proved | `calculate_objectives` of each driver (Model/Evaluation) | induction on the population, counting calls in a log; witnesses where the code miscounts | key must determine the objective values (true for untransformed keys and for vectors that are already trimmed) |
| C23 | NSGA-II environmental selection keeps the size and is elitist by rank | proved | NSGA-II selection, crowding, step (Model/Nsgaii) | stable sort by (rank, crowding) and `take`; invariant over runs | for every set iteration order; candidates are distinct objects |
| C24 | SPEA2 fitness separates dominated from non-dominated individuals | proved | SPEA2 fitness, archive, truncation loop, mating (Model/Spea2) | counting, loop invariant, termination measure | exact arithmetic, any non-negative distance; a union of one individual raises IndexError |
| C25 | SPEA2 archive has the configured size and keeps non-dominated individuals first | proved | SPEA2 fitness, archive, truncation loop, mating (Model/Spea2) | counting, loop invariant, termination measure | includes termination of the truncation loop |
| C26 | IBEA environmental selection removes the worst individual until the size fits | proved | IBEA (Model/Ibea) | removal loop with invariant 'fitness = indicator sum over the survivors' | exact arithmetic; exp is a parameter (any function) |
| C27 | SMS-EMOA reduction removes one member of the worst front | proved | SMS-EMOA (Model/Smsemoa) | from C05 plus argmin; C68 through three laws of the hypervolume, which C83 and HyperVolumeUse provide | hypervolume is a parameter (any function) |
| C28 | OMOPSO archives contain mutually non-dominated solutions | partial | OMOPSO archives, leaders, particles (Model/Omopso) | list mutation during iteration modelled with an index; clamp; induction over sequences; with a tolerance (Props/OmopsoEta) dominance of the divided vector, a factor per insertion, and a drifting sequence of offers for the loss without bound | violated: deleting during iteration skips the next member, so a dominated member can stay. Proved for the insertions where no two neighbours are dominated by the newcomer (tolerance 0) and, for every tolerance, where nobody directly behind a removed member is comparable with the newcomer. |
| C29 | OMOPSO particles stay in the box | proved | OMOPSO archives, leaders, particles (Model/Omopso) | list mutation during iteration modelled with an index; clamp; induction over sequences; with a tolerance (Props/OmopsoEta) dominance of the divided vector, a factor per insertion, and a drifting sequence of offers for the loss without bound | exact arithmetic; the mutation operators are covered although the code never applies them |
| C30 | NSGA-III reference points lie on the unit simplex | proved | NSGA-III (Model/Nsgaiii) | recursion on dimension; history fold; fuel for the selection loop; vector geometry | exact arithmetic; draws strictly between 0 and 1 (the code redraws zeros) |
| C31 | NSGA-III ideal point and population size | proved | NSGA-III (Model/Nsgaiii) | recursion on dimension; history fold; fuel for the selection loop; vector geometry | whole step modelled; includes the non-termination for a single individual; fitness archive not modelled |
| C32 | NSLS local search stays in the box, never worsens, and the next generation has the right size | proved | NSLS (Model/Nsls) | as C13 and C31 | exact arithmetic, distance a parameter; the step can fail to terminate (shown on a concrete run) |
| C33 | BOGO archive keeps the non-dominated solutions found so far | partial | BOGO `refresh_archive` (Model/Bogo) | induction over sequences of arrivals | The antichain half holds for all sequences. Coverage is violated: a dominated arrival removes the archive member that dominates it (C33_violated: the archive becomes empty); coverage is proved when no arrival is dominated by the archive it meets. |
| C34 | Jumping-gene operators keep chromosome lengths and genes in the code range | proved | JGBL operators and step (Model/Jgbl) | list surgery lemmas | Exact arithmetic (rounding: C122). For boxes with lower < upper ends (equal ends make convert_to_ratio divide by zero). |
| C35 | Island populations partition the initial population | proved | IMGA islands, migration, torus (Model/Imga) | list slicing, multisets, modular arithmetic | - |
| C36 | Migration conserves individuals | proved | IMGA islands, migration, torus (Model/Imga) | list slicing, multisets, modular arithmetic | Individuals are opaque objects with a decision vector; the draws are arbitrary members of the layers. C36_too_small and C36_asymmetric show that both side conditions are needed. |
| C37 | Torus topology is a symmetric neighbourhood | proved | IMGA islands, migration, torus (Model/Imga) | list slicing, multisets, modular arithmetic | Findings: with exactly one complete row islands are their own neighbours, and the first island of the incomplete row is not linked to its column; with five islands and the default width the fifth is isolated (C37_isolated). |
| C38 | HGS keeps a well-formed tree of nodes | proved | classic HGS as a machine over a node table (Model/Hgs) | invariants over all runs; drivers' reports are a parameter | Includes that no step raises (missing centre attributes, KeyError of level_nodes) for max_level at most 2 and three thresholds. What the drivers do in a metaepoch is a parameter. |
| C39 | HGS cost is the weighted sum of its nodes' evaluations | proved | classic HGS as a machine over a node table (Model/Hgs) | invariants over all runs; drivers' reports are a parameter | Monotonicity assumes non-negative modifiers and drivers that do not report less than before (see C54 for the drivers). |
| C40 | HGS never gets stuck without a living node | partial | classic HGS as a machine over a node table (Model/Hgs) | invariants over all runs; drivers' reports are a parameter | The first two clauses hold. The last one is violated by the code: revive_root halves the list object of the configuration in place, as neither the factory nor HGS copies it. |
| C41 | Each distributed HGS phase answers exactly once, after all nodes answered | proved | actors, tasks and mailboxes of the distributed HGS (Model/DistHgs), sequential reading (Model/DistHgsSeq) | simulation by induction over all schedules (`Inevitable`), invariants of channels and tasks; the sequential reading is determined by Spec/DistHgs | thespian delivers every message once, in order between two given actors. max_level is at most 2 (the code knows levels 0 to 2 only), there is a progress threshold per level, metaepoch_len is positive. |
| C42 | Distributed HGS trims redundant nodes like the classic one | partial | as C41, and Model/Hgs | refinement between distributed and classic steps; witnesses by stepwise evaluation | Violated: the redundancy phase stops nothing, so it agrees with the sequential variant exactly if no living node is near a ripe or an earlier living one. |
| C43 | The simulation plan is the full product of requested choices | proved | `simulation/factory.py`, `run_config.py` (Model/Factory) | list products, layered maps, recursion on chains | Names in ASCII. Without --algo the plan is empty (C43_defaults). |
| C44 | Configuration precedence | proved | `simulation/factory.py`, `run_config.py` (Model/Factory) | list products, layered maps, recursion on chains | For initialisers that update the configuration by a dictionary, as all those in run_config do. |
| C45 | Nested algorithms are built from the inside out | proved | `simulation/factory.py`, `run_config.py` (Model/Factory) | list products, layered maps, recursion on chains | For tables and initialisers that do not overwrite the driver keys, as in run_config. |
| C46 | Selection of an acceptable result for a budget | proved | `statistic/` (Model/Statistics) | list scans, sortedness, exchange of sums | exact arithmetic; yield_analysis assumed not to raise (non-empty cost data, positive boot size) |
| C47 | Bootstrap confidence interval is ordered and taken from the sampled statistics | proved | `statistic/` (Model/Statistics) | list scans, sortedness, exchange of sums | for any draws, any statistic into a linear order, 0 < alpha <= 1/2; the degenerate interval for a single value is a finding |
| C48 | Ranking points are conserved | proved | `statistic/` (Model/Statistics) | list scans, sortedness, exchange of sums | tables with one non-negative score per algorithm, eps > 0, tolerance >= 0 |
| C49 | A failing simulation does not disturb the others | partial | `run_parallel` (Model/RunParallel) | exceptions as values | violated by the code: the first worker that returns None ends the pipeline with a TypeError; proved for runs without failures |
| C50 | Truncation of decision vectors rounds towards zero and is idempotent | proved | mantissa truncation (Model/Trim) | floor arithmetic on rationals with 53 significant bits | Floats are rationals with 53 significant bits and unlimited exponent; floatextras.as_tuple and from_tuple are modelled by their documented decomposition. |
| C51 | Budget worker stores one result per requested budget | proved | `BudgetRun`, `StepsRun`, `BudgetWorker` over an abstract driver (Model/Driver) | induction on the number of steps | - |
| C52 | Time worker stores the population that belongs to the slot | partial | `TimeRun`, `TimeWorker` | induction on the list of clock readings | The code violates it: the stored population is the one a step later. Proved exactly that, for drivers whose finalization is pure. |
| C53 | Weighted choice picks an item with positive weight, proportionally | proved | `weighted_choice` | prefix sums | non-negative weights, exact arithmetic |
| C54 | Evaluation cost in OMOPSO, SPEA2, IBEA and SMS-EMOA | partial | `calculate_objectives` of each driver (Model/Evaluation) | induction on the population, counting calls in a log; witnesses where the code miscounts | violated by the code: SMS-EMOA charges a population per child, IBEA charges known individuals again, OMOPSO and SPEA2 miscount with a fitness archive; proved for OMOPSO and SPEA2 without archive and for the first pass of IBEA |
| C55 | Reference fronts are attainable | partial | `problems/*/problem.py` over ℝ (Model/Problems, and Model/ProblemsData for UF11, UF12 and kursawe with their rotation matrices) | real inequalities (sqrt, sin, cos, exp, rpow); ZDT3 by a separate calculus argument (Props/Zdt3) | Exact real arithmetic. Holds for ZDT1-4, ZDT6, UF1-5, UF7, UF8, UF10 and ackley; violated by UF6, UF9, EWA1, EWA2, (by a rounding error) the table of kursawe, the table of UF11 (row 3) and every row of the table of UF12; the latter is stated for tables whose rows are within the squared distance 1.2 of (1, ..., 1), which the rows of the file are. |
| C56 | Reference fronts are optimal | partial | `problems/*/problem.py` over ℝ (Model/Problems, and Model/ProblemsData for UF11, UF12 and kursawe with their rotation matrices) | real inequalities (sqrt, sin, cos, exp, rpow); ZDT3 by a separate calculus argument (Props/Zdt3) | Exact real arithmetic. Holds for ZDT1, ZDT2, ZDT4, ZDT6, UF1-7, UF9, ackley, EWA1 and EWA2, and for UF12 (whose whole table is out of reach, see C55); violated by UF8, UF10 (wrong exponent) ZDT3 (a kept sample lies behind a local minimum), UF11 (row 4625 of its table is dominated) and kursawe (by a rounding error). |
| C57 | Splitting a front for display loses no point | partial | `split_front` (Model/FrontTools) | fold invariant, error branch explicit | No point is lost and pieces start at gaps; violated: a gap after the first point of a piece starts no new one, and a front without a gap raises IndexError. |
| C58 | Scaled coordinates of HGS round-trip and translate between levels | proved | `HGS_optional.py` (Model/HgsOptional) | affine maps | Exact arithmetic. |
| C59 | IBEA mating tournament prefers the fitter individual | partial | IBEA (Model/Ibea) | removal loop with invariant 'fitness = indicator sum over the survivors' | violated: with p = 0.9 the individual with the smaller (worse) fitness wins in nine of ten tournaments; over all draws the fitter of two members is strictly less likely to become a parent |
| C60 | Crowding distance protects the extreme points | proved | NSGA-II selection, crowding, step (Model/Nsgaii) | stable sort by (rank, crowding) and `take`; invariant over runs | NSGA-II; the largest value of an objective is not protected (line 154 is commented out) |
| C61 | Gaussian mutation and the interpolating crossovers stay in bounds | proved | `mutate`, `crossover` and the older operators of `ea_utils.py`, NSGA-III's variants; list objects on a heap for aliasing (Model/Variation) | clamp lemma, induction on coordinates, all draws as arguments; powers through the laws of real powers | - |
| C62 | NSGA-II never loses the best value of an objective | proved | NSGA-II selection, crowding, step (Model/Nsgaii) | stable sort by (rank, crowding) and `take`; invariant over runs | offspring are arbitrary fresh individuals; at least as many places as objectives |
| C63 | Pruning the OMOPSO leader archive keeps the extreme leaders | partial | OMOPSO archives, leaders, particles (Model/Omopso) | list mutation during iteration modelled with an index; clamp; induction over sequences; with a tolerance (Props/OmopsoEta) dominance of the divided vector, a factor per insertion, and a drifting sequence of offers for the loss without bound | violated always: the pruned leader is one with the smallest value of the last objective (proved for all archives) |
| C64 | An OMOPSO archive never loses ground | partial | OMOPSO archives, leaders, particles (Model/Omopso) | list mutation during iteration modelled with an index; clamp; induction over sequences; with a tolerance (Props/OmopsoEta) dominance of the divided vector, a factor per insertion, and a drifting sequence of offers for the loss without bound | proved for tolerance 0 (all sequences); violated for the tolerance of the reported archive, where the loss has no bound (C64_eta_unbounded: every member may be M times worse in the first objective, for any M) except a factor of (1 + eta)^2 per later offer (C64_eta_partial). |
| C65 | The OMOPSO leader archive is bounded | proved | OMOPSO archives, leaders, particles (Model/Omopso) | list mutation during iteration modelled with an index; clamp; induction over sequences; with a tolerance (Props/OmopsoEta) dominance of the divided vector, a factor per insertion, and a drifting sequence of offers for the loss without bound | all sequences, any dominance test |
| C66 | An OMOPSO personal best is never dominated by a visited position | proved | OMOPSO archives, leaders, particles (Model/Omopso) | list mutation during iteration modelled with an index; clamp; induction over sequences; with a tolerance (Props/OmopsoEta) dominance of the divided vector, a factor per insertion, and a drifting sequence of offers for the loss without bound | all trajectories |
| C67 | SPEA2 truncation removes the most crowded individual | partial | SPEA2 fitness, archive, truncation loop, mating (Model/Spea2) | counting, loop invariant, termination measure | proved: the removed individual belongs to a closest pair. Violated: the tie break stops at a level equal to the number of tied candidates, so for the usual tie of two neighbours the next distance is never compared |
| C68 | SMS-EMOA never loses hypervolume | proved | SMS-EMOA (Model/Smsemoa) | from C05 plus argmin; C68 through three laws of the hypervolume, which C83 and HyperVolumeUse provide | for every hypervolume function that is order-independent, monotone and ignores dominated points, and for the modelled routine of hv.py with one to four objectives |
| C69 | IBEA scales objectives to the unit interval without reordering | proved | IBEA (Model/Ibea) | removal loop with invariant 'fitness = indicator sum over the survivors' | exact arithmetic, any positive epsilon |
| C70 | IBEA never discards an individual in favour of one it dominates | proved | IBEA (Model/Ibea) | removal loop with invariant 'fitness = indicator sum over the survivors' | for every strictly increasing exp, in particular Real.exp |
| C71 | NSLS keeps the extreme individuals of the front that is cut | partial | NSLS (Model/Nsls) | as C13 and C31 | violated: running minima and maxima are collected because of the indentation; holds when everything collected fits |
| C72 | NSGA-III variation keeps the box and never attaches objective values to a different vector | proved | NSGA-III (Model/Nsgaiii) | recursion on dimension; history fold; fuel for the selection loop; vector geometry | exact arithmetic, powers satisfying the laws proved for real powers |
| C73 | NSGA-III assigns individuals to the nearest reference direction in a normalized space | proved | NSGA-III (Model/Nsgaiii) | recursion on dimension; history fold; fuel for the selection loop; vector geometry | for runs without immigrants (immigrants do not update the ideal point, see C115) |
| C74 | A driver can continue after its population has been assigned | partial | population setters and steps of NSGA-III and NSLS | direct computation on the model; a step as a partial function | proved for NSLS; violated for every non-empty population and all draws by NSGA-III: the step raises TypeError |
| C75 | NSLS fills the remaining places with the most isolated individuals | proved | NSLS (Model/Nsls) | as C13 and C31 | any distance function |
| C76 | JGBL keeps the best values and never runs out of mates | proved | JGBL operators and step (Model/Jgbl) | list surgery lemmas | The step is modelled on individuals; the six children per jumping individual are a parameter here and modelled in C34_jump_genes. |
| C77 | HGS sprouts only where nothing has been explored yet, and within its limits | partial | classic HGS as a machine over a node table (Model/Hgs) | invariants over all runs; drivers' reports are a parameter | All clauses hold except the bound on living sprouts: it holds when sprouts are released, but a revival wakes all finished sprouts at once. |
| C78 | HGS trimming stops exactly the stagnant and the redundant nodes | proved | classic HGS as a machine over a node table (Model/Hgs) | invariants over all runs; drivers' reports are a parameter | The mean of a population and the distance test are parameters. |
| C79 | Truncated decision vectors stay in the box | partial | mantissa truncation (Model/Trim) | floor arithmetic on rationals with 53 significant bits | Holds when zero lies in every interval (all problems shipped); violated in general: with one bit the lower bound 3/8 becomes 1/4. |
| C80 | Reference fronts leave no gap wider than their sampling distance | proved | `problems/*/problem.py` over ℝ (Model/Problems, and Model/ProblemsData for UF11, UF12 and kursawe with their rotation matrices) | real inequalities (sqrt, sin, cos, exp, rpow); ZDT3 by a separate calculus argument (Props/Zdt3) | Exact real arithmetic. |
| C81 | SPEA2 mating never prefers a dominated individual | proved | SPEA2 fitness, archive, truncation loop, mating (Model/Spea2) | counting, loop invariant, termination measure | Exact arithmetic. An archive with one member raises ValueError. |
| C82 | Hypervolume is exact for any number of objectives | partial | `hv.py` at pointer level: `MultiList`, `preProcess`, `hvRecursive` with `ignore`, `area`, `volume`, `bounds` (Model/HyperVolume); specification: Lebesgue measure of the dominated region (Spec/Volume) | invariant of the recursion: pointers describe filtered sorted lists, cached areas/volumes valid up to `bounds`, marks reliable; slicing formula for the measure (Fubini); for the counterexamples the model is run by the kernel on integers and transferred to ℝ | Exact real arithmetic, points strictly below the reference point. Holds for mutually non-dominated points with four objectives, and for any number of objectives if comparable points are strictly ordered in the coordinates the marks use (for instance no ties); violated with five objectives by a mutually non-dominated set with ties and with four objectives when dominated points are present. |
| C83 | Better sets get at least as much hypervolume | proved | `hv.py` at pointer level: `MultiList`, `preProcess`, `hvRecursive` with `ignore`, `area`, `volume`, `bounds` (Model/HyperVolume); specification: Lebesgue measure of the dominated region (Spec/Volume) | invariant of the recursion: pointers describe filtered sorted lists, cached areas/volumes valid up to `bounds`, marks reliable; slicing formula for the measure (Fubini); for the counterexamples the model is run by the kernel on integers and transferred to ℝ | Exact real arithmetic. |
| C84 | The hypervolume metric measures the whole result | proved | `metrics.hypervolume` (Model/MetricHv) | C06 and C82 plus monotonicity of the measure | Exact real arithmetic; with four objectives no coordinate may be exactly 50. |
| C85 | The distributed HGS keeps a living, well-formed tree | proved | actors, tasks and mailboxes of the distributed HGS (Model/DistHgs), sequential reading (Model/DistHgsSeq) | simulation by induction over all schedules (`Inevitable`), invariants of channels and tasks; the sequential reading is determined by Spec/DistHgs | Hypotheses as for C41; any rounding of the thresholds and of their halving. |
| C86 | A distributed metaepoch does the work of a sequential one | proved | as C41, and Model/Hgs | refinement between distributed and classic steps; witnesses by stepwise evaluation | Hypotheses as for C41; the comparison of costs needs nonnegative modifiers and drivers whose cost never decreases. C86_metaepoch and C86_trim compare with the sequential HGS in exact arithmetic (fl = id); C86_metaepoch_rounded and C86_trim_rounded compare with the sequential HGS under the same rounding, whatever that rounding is; the other two allow any rounding. |
| C87 | The distributed HGS sprouts within its limits | partial | as C41, and Model/Hgs | refinement between distributed and classic steps; witnesses by stepwise evaluation | Hypotheses as for C41. All clauses hold but the last: the number of living sprouts is checked before each sprout but not updated, so a node with room for one gets up to sproutiveness. |
| C88 | The final population of the distributed HGS is complete | proved | actors, tasks and mailboxes of the distributed HGS (Model/DistHgs), sequential reading (Model/DistHgsSeq) | simulation by induction over all schedules (`Inevitable`), invariants of channels and tasks; the sequential reading is determined by Spec/DistHgs | Hypotheses as for C41. |
| C89 | HGS optimises the objectives of the problem | partial | `blurred_fitnesses` (Model/HgsFitness), `ZDT3` (Model/Problems) | algebra of the absolute value; the counterexample is a pair of vectors of the box with interval bounds for square roots | Violated: the code takes the absolute value, so negative objectives are reflected; for ZDT3 HGS sees a dominated vector of the box as the better one. Proved for objectives that are not negative. |
| C90 | Starting populations have the requested size and lie in the box | proved | `gen_population`, `population_from_delegate` (Model/HgsFitness), `mutate` (Model/Variation) | pointwise; C13 for the mutated vectors | Exact arithmetic; random.uniform(a, b) is a + (b - a) u with u between 0 and 1. |
| C91 | rank orders a population from the best to the worst | proved | `rank`, `get_indivs_inorder` (Model/HgsFitness) | C04: earlier layers have smaller rank | - |
| C92 | The Pareto dominance indicator compares results of the same budget and run number | partial | `preload_results_for_problem`, `filter_non_dominated_in_cache` (Model/PdiCache) on file trees with a listing order | loops as folds over the files read, contents of the dictionary by induction; witness with two runs listed in reverse order | Violated: runs are numbered here in the order of the directory listing, elsewhere in the order of their names. Proved if both orders agree. |
| C93 | The Pareto dominance indicator is never stale | proved | the same with `clear_old_pdi_metrics`, `get_metric`, `pareto_dominance_indicator` | invariant of what is stored between evaluations: equal stored solutions imply, by counting files, that no result was added | One problem; each evaluation starts with an empty dictionary (a new process). C93_earlier_run shows that the assumption about the names of new runs is needed. |
| C94 | Generations of NSGA-II, SPEA2, IBEA and SMS-EMOA neither fail nor leave the box | proved | complete `step`, `__init__`, `finalized_population` of the four drivers (Model/Generations) built from the parts of C24-C27, C13, C05 | invariant over all reachable states: sizes, identities, box, evaluated objectives | Exact arithmetic; draws are valid results of the random functions. C94_spea2_single: with one individual the first step of SPEA2 raises. |
| C95 | A budget simulation stores a full result for every budget | proved | the same drivers under `BudgetRun` and `BudgetWorker.run_driver` (Model/GenerationsRun) | invariant with the cost of each step; termination because every step is charged; induction over the budgets | No fitness archive. The _empty theorems show that without a child per step no budget above N is reached and the simulation never ends. |
| C96 | Runs of OMOPSO neither fail nor leave the box, and their result consists of visited positions | proved | complete OMOPSO: constructor, step, result (Model/Swarm) | invariant over all positions visited so far, by induction on the steps; costs as for C95 | Exact arithmetic; the statement about budgets without a fitness archive. C96_empty: with an empty population the constructor raises. |
| C97 | Runs of JGBL neither fail nor leave the box | proved | complete step of JGBL over the complete step of NSGA-II (Model/Jumping) | invariant of NSGA-II extended to the union and to the jumps; costs as for C95 | Exact arithmetic; with rounding the box of UF11 and UF12 is left, see C122. Boxes with an interval of length 0 are excluded: JGBL divides by the length (C34). Draws are valid results of the random functions, which requires int(jumping_percentage * dims) <= dims. |
| C98 | NSGA-II and JGBL never lose the best value of an objective | proved | the same models | per-objective minimum is kept by each selection (C62); induction over the calls of the driver, comparing with the list of all evaluations | Exact arithmetic; the fitness archive, if any, holds right values. An example shows that a best value can be lost if there are fewer individuals than objectives. |
| C99 | Outliers are classified by nested fences and never exhaust the data | proved | yield_analysis complete except for pr_dispersion: percentiles, fences, counts, means, bootstrap | quartiles lie between neighbours of the sorted data; counting below a position of a sorted list; uniqueness of sorted permutations; algebra for the scaling | Exact arithmetic; square root as a parameter. numpy.percentile is modelled with its default linear interpolation. pr_dispersion is left out. |
| C100 | The quality mark of a row of statistics | proved | the same model | a deviation is minus the sum of the others, Cauchy-Schwarz bounds it by sqrt(n-1) standard deviations | Exact arithmetic. C100_small is a finding: the check can never fail for ten runs or fewer. |
| C101 | Runs of NSGA-III stay in the box, keep the population size and reach their budgets | proved | NSGA-III with the attribute cost as a driver (Model/NsgaiiiRun) | invariant of C31 over the steps; children carry objectives exactly if their pair was not crossed over and not mutated | Exact arithmetic, powers with the laws of real powers, no fitness archive. Fewer than two individuals diverge (C31). |
| C102 | Runs of NSLS stay in the box, have a fixed price and reach their budgets unless a step diverges | proved | NSLS with the attribute cost as a driver (Model/NslsRun) | invariant of C32 over the steps; a marked entry of the copy stays marked | Exact arithmetic, no fitness archive. The number of evaluations per turn of the local search is built into the model (NSLS.py:107). |
| C103 | Runs of the island model stay in the box, lose nobody, add up the costs of the islands and reach their budgets | proved | IMGA over an abstract island driver, with all eight complete drivers as instances (Model/ImgaRun, Model/ImgaRunRest) | a contract for island drivers, proved for each of the eight; migration by C36; costs by induction on the steps | Exact arithmetic, no fitness archive. The epochs of the islands, which run in threads, are modelled one after the other; they share no state. C103_step and C103_cost are for drivers whose steps always cost the same, C103_step_loose for the others. That steps cost something is a hypothesis on the draws for NSGA-III (the first pair is crossed) and NSLS (some trial succeeds). For the eight drivers, four times the number of migrants must fit on an island (C36). |
| C104 | The decision vectors and the objective values saved in a result file belong together | partial | process_results with lists and iterators as results (Model/SavedResult) | the simulation does not depend on the kind of result; induction over the results; C103 for the violation | The code violates the property for IMGA: C104_imga shows this for every simulation of C103 with NSGA-II islands. C104_lists_partial proves it for drivers that return lists, which all other modelled drivers do. What kind of object a driver returns is a parameter, read off the code. |
| C105 | OMOPSO does not change the vectors its caller passes to it | partial | OMOPSO with the positions as addresses of lists, complete construction and step (Model/SwarmHeap) | frame lemmas for each loop, induction on the steps; refinement of Model/Swarm for separate addresses | The code violates the property: C105_violated and C105_aliased are concrete runs, C105_same says what happens to the lists in general. C105_fresh_partial proves it for copying trim functions. C105_refines shows in which cases the model of C96, which has vectors as values, agrees with the one with lists. Objective functions are assumed not to change their argument. |
| C106 | Whole runs of HGS stay in the box, and every vector is paid for once per level | proved | whole runs of ClassicHGS: the tree of Model/Hgs together with the drivers of the nodes and the archives of the levels, for any driver and for all eight (Model/HgsRun, Model/HgsRunMore, Model/HgsRunRest for OMOPSO, Model/HgsRunArchive for NSGA-III, NSLS and JGBL with the archive) | invariant of the run parametrised by a contract for drivers, induction on the jobs, the sprouts and the steps; the archives are the ledger of what has been charged | C106_run, C106_cost, C106_progress, C106_box and C106_archive hold for any driver that keeps the contract of Props/HgsRun; the others are the complete statements for all eight drivers, with no contract left. For OMOPSO, NSGA-III and NSLS the objective values of a level are a function of the vector (fitness_errors 0, as shipped); for NSLS the local search is assumed to find a trial that is not dominated (it loops for ever otherwise, C102). Trimming is assumed to keep vectors in the box (C79 shows when it does), metaepoch_len to be a list (the default, a number, raises TypeError), and equal vectors evaluated by SPEA2, IBEA or SMS-EMOA in the same step to get equal values. |
| C107 | The ranking adds up the points of all problems | proved | `rank` from the listing of the directories to the printed rows (Model/RankingRun), with the generators of `yield_metrics`, of which `validate_cost` has already read the first item | dictionaries and counters as lists of items, loops as folds; the dictionary of scores is characterised by filtering the sequence of scores, sums over the dictionary are turned into sums over the problems by a permutation of the keys | For metric values that are not negative; the number of bootstrap iterations is positive; the metric values themselves are given (C21, C92, C93 are about computing them). |
| C108 | Every vector of the box can be evaluated | proved | all objective functions again with every operation that can raise (Model/ProblemsChecked), including the matrix product of UF11 and UF12 | checked operations equal the unchecked ones under bounds that follow from the box; shapes of the data files by evaluation | Exact real arithmetic; the limit of the exponential function is taken as 709. |
| C109 | What run budget stores, summary counts | proved | the simulation cases with their identifiers, the workers storing results one after the other, the pipeline that stops at the first failure, `each_result` and `summary` (Model/Summary) on the file tree of Model/Storage | invariant that the tree is tidy, preserved by each `store`; a directory order enters only through `Lists`; counting through lists of identifiers without repetition | Budgets are natural numbers; that a driver delivers one result per budget is a hypothesis here (C51). |
| C110 | The shipped configuration can be run | proved | `run_config.py` as tables, `custom_init` by name, the binding of keyword arguments in the chain of constructors (missing and unexpected arguments as errors), the calls in `Node.__init__` and `Island.__init__` | the acceptance of calls is shown equivalent to a flat table of needed and accepted names for all keyword arguments; the assembled dictionaries are computed with a symbolic problem module, driver and adapter; the runs are C106 with its numeric hypotheses discharged | Only the binding of the arguments is modelled, not the bodies of the constructors; For the runs, the drivers are as in C106 and trimming must keep the box (C79). |
| C111 | The ranking by budget counts the problems won | proved | `detailed_rank`: collection of the scores by problem, budget and metric, one winner per key, the counters and their sorted output | the dictionary of scores is shown to hold under each key exactly the admissible scores in the order of the listing, `max`/`min` to pick the first best, and the sum over the dictionary is regrouped by problem | Scores are means of the measurements over an ordered field instead of floats. |
| C112 | The table shows the leaders of every metric | proved | `table_rank`: scores of the results of budget 40, points by key and directory, the order of the rows, the cells with their stars | the points of a cell are the sum over the problems of what C107's specification says an algorithm deserves; rows by a sorting argument for the order of the metrics; the cell rule from the sorted counter for all counters | Scores are means of the measurements over an ordered field instead of floats; the LaTeX around the cells is not modelled. |
| C113 | Whole runs of the distributed HGS stay in the box, and every budget is reached | proved | as C41, with a driver in every node that makes the reports and the populations of the sprouts (Model/DistDrivers, Model/HgsRunRest) | the message orders are C41; along the sequential reading an invariant of the nodes and their drivers is kept by the contract of C106, and reports and populations that come from drivers are constructed step by step, with congruence of the sequential reading in the reports already used | C113_run and C113_box hold for any driver that keeps the contract of Props/HgsRun; the others are the complete statements for all eight drivers. For OMOPSO, NSGA-III and NSLS the objective values of a level are a function of the vector (fitness_errors 0, as shipped); for NSLS the local search is assumed to find a trial that is not dominated. Hypotheses as for C41 and C106: thespian delivers every message once and in order between two actors, max_level is at most 2, trimming keeps vectors in the box. |
| C114 | A budget simulation of HGS ends and stores a full result for every budget | proved | the HGS of C106 as the driver of the worker of C35 and C95 (Model/HgsBudget) | induction over the budgets: the state at each budget is that after some number of steps, which C106 describes; the cost grows by the cost of a generation in each step | C114_stored and C114_ends hold for any driver that keeps the contract of Props/HgsRun. C114_nsgaii comes with the witness that a simulation with an archive need not end. Assumptions on the drivers as for C106. Budgets are integers. |
| C115 | On islands the normalized objectives of NSGA-III lie between 0 and 1 | partial | the islands of C103 with NSGA-III and the normalized objectives of a step (Model/ImgaRunRest) | the ideal point is that of a history which contains the new individuals (C31); the islands stay in order by C103_run; the violation is computed | The code violates the property: C115_violated is a run with a normalized objective below 0. The partial theorems prove the bounds that hold. Exact arithmetic. |
| C116 | Figures over time show every result | partial | pictures_time with the tables of algorithms, groups and order, and the x-range of plot_results (Model/Plots) | the dictionary of the series is the list of results by C107's lemmas about pushes; sorting of the points by time; failure of the lookup of an algorithm without a group | The code violates the property in the three ways of the violated theorems. C116_unplotted names the 8 algorithms (of 32) without a curve. Colours, markers and the error bars are not modelled. |
| C117 | The summary figures show the algorithms in the order of their scores | partial | pictures_summary and plot_results_summary with the window of the axis (Model/Plots) | the stored scores of a problem are characterised by a lookup lemma through all dictionary writes; monotonicity of the logarithm for the order | The code violates the property in the ways of the violated theorems. Exact arithmetic; the logarithm is a parameter. |
| C118 | The violins show the samples that count | partial | violin (Model/Plots) | the samples are looked up as in C117; the figures are those keys with a non-empty list of violins | The code violates the property as in C118_missing_violated. The drawing of the violins is not modelled, only their samples. |
| C119 | The figures of the best fronts show the best run | partial | best_fronts and plot_results of plots/best_fronts.py (Model/Plots) | the counted budget is found as in C107; the series of every algorithm is then computed by cases; the violation is computed | The code violates the property: C119_best_violated is a stored result whose figure shows a front that is surpassed by another run. The reference front in the background is not part of the model. |
| C120 | The progress reports tell the share done and the time left | partial | log_simulation_stats and its calls (Model/Progress) | arithmetic of floors and divisions (omega, field_simp) | The code violates the property: C120_percent_violated for every report, C120_minutes_violated by a run of three hours. Times are not rounded to microseconds. |
| C121 | Floating point does not break variation and starting populations | proved | the operators with a rounding function after every operation (Model/Rounded), round-to-nearest-even of binary64 (Model/Binary64) | monotonicity and idempotence of rounding (Lemmas/Binary64), exactness on the grid of the draws, induction on the coordinates; the intervals of the problems by kernel computation with rationals, transported to the reals; agreement with the exact model if nothing is rounded (mutatedValue_exact, sbxValues_exact) | Binary64 with unbounded exponents; powers as assumed of the library (satisfied by rounded real powers, rpow_laws). |
| C122 | The jumps of JGBL stay in the box in floating point | partial | the codec and the jumps of JGBL with a rounding function after every operation (Model/Rounded) | as for C34, with monotonicity of rounding instead of field arithmetic; witnesses by kernel computation and, for all draws, by bounds | The code violates the property for UF11 and UF12 (C122_box_violated, C122_nan_violated); proved for all other problems. |
| C123 | The benchmark problems are the published ones | partial | the problem modules (Model/Problems) against the definitions of the papers with sums over sets of indices (Spec/Published) | sums over lists of indices as sums over sets, Lipschitz bounds of the ZDT shapes in g for the rounded constants; a witness for each deviation | Exact real arithmetic. Equal for ZDT4, UF1-4, UF7, kursawe and the function ackley; within 2e-16 for ZDT1-3 (decimal constant for 9/29); violated by ZDT6 (more than 4e-6, at most 1e-5), UF5, UF6 and UF8-10, whose exact relation to the published problems is proved instead (C123_uf8_complement: UF8-10 are the published problems with complementary index sets). UF11 and UF12 are not compared. |
| C124 | Floating point does not break the moves of OMOPSO, NSLS and NSGA-III | proved | the moves with a rounding function after every operation (Model/RoundedMoves) | rounding gives a nearest float (round64_near), there is no float between 1 and 1 + 2^-52 (float_gap); the bound of the speeds is an invariant: half of 16 widths and twice two widths, with the error of the first sum at most the distance to 8 widths; the coefficients by kernel computation at the largest draw | Binary64 with unbounded exponents; powers as assumed of the library. Which visited position is a personal best or a leader is arbitrary (that they are visited positions is proved in exact arithmetic, C96). |
| C125 | Floating point does not break the choice of layers, the exponents of IBEA and the crowding of NSGA-II | proved | weighted_choice, the scaled objectives, indicators and exponents of IBEA, the summands and keys of NSGA-II with a rounding function after every operation (Model/RoundedSelection) | a float multiplied by a draw below 1 rounds to something below the float, because the next smaller float is nearer (mul_draw_lt); the loop then ends before its last sum; the denominators of IBEA are at least 1/32 of the largest indicator, either exactly representable or below epsilon; sums of distances by induction with even numbers as bounds | Binary64 with unbounded exponents. sum is the one of Python up to 3.11 (environment.yaml asks for 3.6); with the exact sum of Python 3.12 the assertion can be reached (C125_exact_sum_fails). math.exp itself is not modelled. |
| C126 | In floating point, a SPEA2 fitness above 1 means dominated | partial | the fitness of SPEA2 with a rounding function after every operation (Model/RoundedSelection) | the density is at least 2^-52, and 1 + 2^-52 is a float; a raw fitness of 0 leaves at most 1 | Proved for distances of at most 2^52 - 2. Violated beyond: with a distance of 2^53 the density is lost in the sum and a dominated individual has fitness 1 (C126_spea2_violated). |
| C127 | The floating point error of the hypervolume is bounded | proved | compute for one to three objectives on lists of nodes with a rounding function after every operation, and the metric (Model/RoundedHv) | induction over the sweep and over the slices with a calculus of relative errors (Lemmas/RoundedError): every number that occurs is 0 or at least 2^-159, because the shifted coordinates are multiples of 2^-53, so nothing underflows; nothing but the shift and the differences is subtracted; the error of the shifted coordinates is turned into one of the volume by scaling the region (Lebesgue measure) | Binary64 with unbounded exponents, one to three objectives. The multi-list is replaced by the lists of its nodes, which is shown to be the same without rounding (C127_exact). |
| C128 | In floating point, a result that covers another one never gets the smaller hypervolume | partial | as C127 | witness evaluated over the rationals; one objective by the exact value of the rounded coordinates; single points by monotonicity of every operation | Violated with two objectives by [[0, 0.2]] and the same with (-2^-60, 0.3) added: 2490 becomes 2489.9999999999995. Proved for one objective and for single points; how far the order can be wrong at most is bounded by C127_rank. |
| C129 | The floating point errors of the other quality indicators are bounded | proved | distance, epsilon and extent with a rounding function after every operation; the square is a parameter off by at most one unit in the last place (Model/RoundedMetrics) | calculus of relative errors as for C127: differences of such coordinates are multiples of 2^-452, so squares, sums, means and roots do not underflow; minima and maxima keep the errors; the loops of epsilon commute with a monotone rounding | Binary64 with unbounded exponents. For smaller coordinates the squares underflow and a solution off the front can have the distance 0 (C129_tiny). |
| C130 | Rounding makes SMS-EMOA lose at most a tiny fraction of the hypervolume | proved | contributions, reduction and step with the rounded hypervolume of C127 and rounded differences (Model/RoundedSmsemoa) | the errors of C127 and of the differences, which are floats minus floats and so rounded with a relative error however small, bound how much more than the child the removed individual can contribute, as a fraction of the volume with the child; if the child more than doubles the volume, it stays and nothing is lost (subadditivity of Lebesgue measure) | Binary64 with unbounded exponents. A loss does occur: C130_loss. Without rounding there is none (C68). |
| C131 | In floating point, NSGA-II never loses the best value of an objective | proved | crowding distances, sort key, selection and steps of NSGA-II with a rounding function after every operation (Model/RoundedNsgaii) | invariant over the loops: a member gets at most one summand between 0 and 2 per objective, so a finite distance is at most twice the number of objectives and its rounded key positive; then as C62 | Binary64 with unbounded exponents; offspring are arbitrary fresh individuals; at least as many places as objectives. |
| C132 | In floating point, IBEA discards an individual in favour of one it dominates only if the two are nearly equal | proved | scaling, indicator, fitness and removal loop of IBEA with a rounding function after every operation and math.exp as a parameter (Model/RoundedIbea) | invariant over the removal loop: the stored fitness differs from the one of the current population by at most 2⁻⁸; with r ≤ y everywhere the loss r inflicts on y exceeds the one y inflicts on r by a multiple of the largest difference, so the fitness of r would be larger by more than 2⁻⁷ | Binary64 with unbounded exponents, kappa at least 0.05 and at most 128 candidates (as shipped: 0.05 and 96). C132_tie: the margin cannot be dropped; with the values -2^60, 1 and 0 of one objective the rounded scaling makes the last two equal and the better one of them is discarded. |
| C133 | In floating point, the outlier report of a group of runs is as in exact arithmetic | partial | yield_analysis with a rounding function after every operation (Model/RoundedStats) | the weighted mean of a float with itself is the float even if both products and the sum are rounded (3n/4 is off by at most a quarter of the last digit for odd n, and by a half for n ≡ 2 mod 4, where the tie goes to the even n), so by monotonicity a rounded quartile lies between its neighbours; for n ≠ 2 a value lies between the two quartiles; the counts as for C99; the mean by induction with the relative error of each addition | Proved for data of any length other than two, except that the mean without outliers lies between the fences and that the order does not matter. Violated: two neighbouring floats can both be outliers (first quartile above the third one, mean without outliers minus infinity); ten times 0.1 has no outliers and a mean below the lower fence; the mean of 1, 2^-53, 2^-53 depends on the order. numpy.percentile is modelled as in numpy 1.14 (weighted sum of the two neighbours). |
| C134 | In floating point, the quality mark is bad only if more than a twentieth of the runs is far from the mean | partial | as C133 | relative errors of the squares, their sum, the root; for at most nine values: if the rounded bound were below x, then x would be at most 64 times its distance from the mean (floats are not denser), so the error of the mean would be negligible against that distance and Cauchy–Schwarz gives a larger standard deviation. The violation is computed with rational numbers and a rational upper bound of the root | The last part holds for at most nine values and is violated for ten: nine times 0 and once 7 get the bad mark, though with exact arithmetic (C100) they get the good one. C134_mark: rounding 0.95 * n never changes the mark. |
| C135 | Converting stored JSON results to pickles loses nothing | partial | walk and json2pickle on the file trees of C18 (Model/DirWalker); os.walk as the list of the files, json.load and pickle.dump as parameters | induction over the list of files: a converted name is never met again, because the names differ and a .pickle name is no .json name | Proved in full when no .pickle stands beside a .json file of the same name and all .json files can be read; that no JSON content is lost holds always. Violated: a .pickle result beside a .json file of the same name is overwritten; after one unreadable .json file the rest is not converted. |
| C136 | Clearing large budgets removes exactly the files with large budgets | partial | walk and clear_budget on the file trees of C18 (Model/DirWalker) | induction over the list of files | Proved if every file name begins with a number; that only files with large budgets are removed holds always. Violated: a file with another name stops the walk with ValueError and later files stay. int() is a parameter. |
| C137 | In floating point, NSGA-III assigns individuals to the nearest reference direction up to rounding | proved | reference points, normalization, clusters and scores of NSGA-III with every operation rounded to binary64 (Model/RoundedNsgaiii); Spec/Numpy has lengths, distances from lines and the accuracy of numpy, Spec/Scaled the exact scaling | the coordinates telescope, each rounding in [0, 1] costs 2^-54 and a partial sum above 1 is impossible because the next float is too far; the distance from a line is 1-Lipschitz; errors of projection and of the factor t, the second enters the distance only at right angles | The order of the additions inside numpy is not modelled: dot and norm are any functions with absolute error at most δ. pow is any function with the laws of C121 (values in [0, 1] for a base in [0, 1]). No overflow: differences of objectives must be finite floats. |
| C138 | In floating point, every vector of the box of every benchmark problem has finite objective values | proved | the objective functions as expression trees in the order in which python evaluates them (Model/FloatExpr, Model/RoundedProblems); every node is rounded and can raise | an interval analysis with whole numbers as bounds, proved correct for every monotone rounding that keeps whole numbers up to 2^53 (range_sound); the kernel evaluates it for each of the 21 problems | Of math only the laws of Spec.IsMathLib are used: correct rounding of + - * / sqrt, accuracy 2^-50 of exp, sin, cos, pow, and |sin|, |cos| <= 1. A library that rounds every function correctly satisfies them (correctlyRounded_isMathLib). np.dot is any function whose error is at most 2^-47 times the sum of the magnitudes of the products, plus 2^-1000. |
| C139 | In floating point, the objective values of the benchmark problems are those of the formulas up to rounding | proved | as C138; the exact values are those of Model/Problems | an analysis that carries a relative and an absolute error through every node, proved correct node by node (err_sound); the value of the expression in exact arithmetic is the formula (the lemmas _fits); the kernel evaluates the analysis for each problem; for UF11 and UF12 the variables are the computed coordinates of the rotated vector, whose error is bounded from the data files, comparisons that are never true in the box are removed first (eval_prune), and all others have the same result with and without rounding (same_image) | At z_i = 1 the functions of UF11 and UF12 jump (z_bis goes from 1 to lambda_i), so a rounding error of np.dot can change the value there by more than any such bound; hence the condition on the rotated vector (at 0 it is for convenience). The bounds are not sharp. Assumed of math: the laws of Spec.IsMathLib, see C138. |
| C140 | UF11 and UF12 penalise vectors that the rotation moves out of the unit cube | partial | the functions of UF11 and UF12 with the matrix, the factors and the bounds of the data files (Model/ProblemsData) | the bounds of every scalar product over the box are computed from the data files by the kernel and proved to be bounds (row_bounds, rot_coord); so |lambda_i z_i| <= 1, which makes the factor 1 (uf11_penalty_void), while the factor of z itself is above 1 (one_lt_penalty) and the value without a penalty is at least 1 (one_le_rotUp) | Violated: base_fit_bottom passes the mirrored vector z_bis to S instead of z. With the numbers of the data files all mirrored coordinates of every vector of the box are between 0 and 1, so S returns 1 always and no vector is ever penalised. The property holds only where there is nothing to penalise; every other vector has a value that is too small. Exact arithmetic. |
| C141 | What OMOPSO remembers of a particle does not grow | partial | OMOPSO with the chain of best positions that every particle carries, and deepcopy with a limited stack (Model/SwarmNest) | refinement: what is seen of a step is the step of Model/Swarm as long as the chains fit; the chain grows exactly when the best position changes (omopsoDominates is irreflexive); for the counterexample the state after n steps is given in closed form and proved by induction (nearer_step) | Violated: update_personal_best stores a deep copy of the particle including its former best position, which is such a copy again; the chain becomes longer by one with every improvement, every copy for the archives copies all of it, and deepcopy needs two calls on the stack for each link. With room for r calls, runs of at most (r - 6) / 2 steps are those of C96; there are swarms for which the next step raises. The stack is supposed to have the same room wherever a copy is made. The stack depth of copy.deepcopy is that of CPython 3.6. |
| C142 | In floating point, generations of NSGA-II, SPEA2, IBEA and SMS-EMOA neither fail nor leave the box | proved | the drivers of C94 with rounded crossover, mutation, crowding distances, densities, scaled objectives, indicators and contributions; a division by 0 and an argument of math.exp above 709 are failures (Model/RoundedRun) | the invariants of C94 with floats of the box; variation from C121; all divisors are shown to be positive as rounding is monotone and keeps epsilon, the exponents are at most 32 (C125); sizes of the selections for any fitness | round64 is rounding to nearest with 53 digits; exponents are not bounded from above. At most 2^51 objectives. The power function of the library is supposed not to be negative and at most 1 where the exact power is (PowerLaws), euclid_distance not to be negative; nothing is supposed about math.exp as long as its argument is at most 709, nor about the values of the hypervolume. |
| C143 | In floating point, the points of the ranking are those of exact arithmetic | partial | get_weak_winners, best_func and the points with rounding after every operation, from the lists of values on (Model/RoundedRanking) | the relative error of a sum of n floats that are not negative is (1+2^-53)^n - 1, that of score + eps at most 2^-35; the rounded winner is as near to the best exact average as the scores are; then the rounded quotient differs by at most 2^-32 from the exact one | Points: proved if no average is so near to the limit of the tolerance that a change of the tolerance by 2^-30 matters. Violated without that condition: with runs 1, 2^-53, 2^-53 against one run of 0.3166... the points depend on the order of the runs. That nobody gets both points beside an algorithm with the same values holds without condition. |
| C144 | In floating point, OMOPSO neither fails nor leaves the box | proved | constructor and step of OMOPSO with rounding after every operation of dominates, crowding, compute_speed and move (Model/RoundedSwarm); the archives, the guide and the evaluation are those of C96, which do not compute | the invariant of C96 with floats in the box and slow speeds; a flight keeps it by C124; without relaxation the quotient in dominates is exact, so that personal bests compare true objectives; the facts used about pruning hold for every rounding | Exponents are not bounded from above (no overflow). C144_draws: what random.random and random.uniform return satisfies the hypothesis on the coefficients. C144_prune: with rounding, too, pruning removes a member with the smallest last objective (C63). |
| C145 | Rounding does not disturb the slots of a time-limited run | proved | TimeRun._start from the readings of the clock on, with rounding after every operation and with the floor division of CPython (Model/RoundedTime) | invariant: the elapsed time is a multiple of 2^-22, not negative and not before the last slot; then every intermediate result is a multiple of 2^-22 below 2^31, hence a float, and the floor division is exact; the run equals the one of C16 | Floats from 2^30 on are multiples of 2^-22, and multiples of 2^-22 below 2^31 are floats. C145_slots repeats C16 for the rounded run (with its exception for the first step). C145_small_clock: with a clock that shows small numbers, as perf_counter does, the claim would be false. C145_zero: a slot length of 0 raises. |
| C146 | HGS stops nodes without progress also in floating point | partial | the whole sequential HGS of Model/Hgs with rounding of the hypervolumes, of the progress and its limit and of the halved limits (Model/RoundedHgs); costs, redundancy tests and the reports of the drivers as there | a float below y is at most y(1-2^-53), so the computed progress is negative exactly if the hypervolume is below the rounded sum; error bounds for the remaining decisions; an invariant of the tree with a single living root for whole runs | Violated for the root: from a hypervolume (above the first one) of 4 on, old + EPSILON is old, the quotient is exactly 1 and the progress 0 is not below the limit 0.0; such a root is stopped only if its hypervolume falls, and until then the tree has one node (C146_run_violated). Below 2 a stagnating root is stopped; from 2 to 4 it depends on the last digit (C146_root_between). With a positive limit, as for the other levels, nodes that do not grow are always stopped. The same holds for the distributed HGS (C146_distributed_*). |
| C147 | Mutation and crossover do not pile up on the bounds | proved | the mutation and the crossover of Model/Variation (lists on a heap), with real powers | the power that decides about the step of the mutation is strictly monotone in the draw and lies between 1 - delta and 1, its inverse is written down; beta_q is below beta for draws below 1; induction over the coordinates | Real numbers and real powers, exact arithmetic. So in exact arithmetic a population without coordinates on the bounds never gets any, and optima on the bounds are approached but not reached; in floating point they are reached by rounding and clamping. |
| C148 | Better individuals are more likely to become parents (NSGA-II, SPEA2) | proved | matingPool and nsgaiiBetter of Model/Generations, select of Model/Spea2; Spec/Mating counts the pairs of positions with a given winner | the pairs won by a member are those with it in the first or in the second place; a bijection between positions and members turns them into counts of better and worse members; the selection gives a dominating survivor a lower front (C05) | random.choice and random.sample are taken to be uniform, the probabilities are counted over all pairs of positions. IBEA has the opposite order, see C59. |
| C149 | In floating point, runs of NSLS stay in the box, have a fixed price and reach their budgets unless a step diverges | proved | Model/RoundedNsls: the complete step of NSLS with every operation on coordinates rounded | simulation: a rounded local search is an exact one (C102) with other factors and with a trim function that first rounds the coordinates, which keeps the box because its bounds are floats; this gives the draws of the exact search by induction over the turns | Binary64 with unbounded exponents, no fitness archive. The objective functions and the distances are arbitrary functions, so their rounding is included. The number of evaluations per turn of the local search is built into the model (NSLS.py:107). |
| C150 | In floating point, runs of NSGA-III stay in the box, never divide by 0 and reach their budgets | proved | Model/RoundedNsgaiiiRun: the complete step of NSGA-III with every operation rounded and with every divisor checked | invariant over the steps: objectives are known and true, vectors are floats of the box, and the ideal point is the minimum of a history with all individuals, so that the width of every normalization is at least 0 before and at least EPSILON after the addition; the selection works for any scores (C31) | Binary64 with unbounded exponents, no fitness archive. math.pow obeys the laws of Spec.PowerLaws. The objective functions are arbitrary, so their rounding is included. C150_references is over the reals and needs numpy to be accurate (Spec.IsNumpy); the others need only that no reference point has length 0. |
| C151 | In floating point, runs of JGBL stay in the box and reach their budgets | partial | Model/RoundedJumping: the complete step of JGBL over the rounded step of NSGA-II (C142) and the rounded jumps (C122) | the invariant of C142 for the union of old and new individuals, for the survivors and for the survivors with the jumped vectors (C122_jump_partial); the costs by counting the individuals without objectives; the witness by evaluating one step in all 30 dimensions | The code violates the property in the box of UF11 and UF12: C151_box_violated is a run whose result after one step has a vector outside of the box. Proved for all boxes in which the lower end plus the width is not rounded above the upper end and no width is rounded to 0; C151_problems shows that the boxes of all other problems are of this kind. Binary64 with unbounded exponents; math.pow obeys the laws of Spec.PowerLaws; the costs are without a fitness archive. |
| C152 | In floating point, budget simulations of NSGA-II, SPEA2, IBEA and SMS-EMOA reach every budget | proved | Model/RoundedBudget: the rounded generations (C142) as drivers of a budget simulation | the invariants of C142 with the cost of every step, and the induction over the budgets of C95; the number of offspring from the relative error of two roundings, which is less than 1 below 2^50 | Binary64 with unbounded exponents, no fitness archive. math.pow obeys the laws of Spec.PowerLaws; the distances of SPEA2, math.exp in IBEA and the hypervolume in SMS-EMOA are arbitrary functions (distances not negative). |
| C153 | In floating point, runs of the island model stay in the box, lose nobody and reach their budgets | proved | Model/RoundedImga: the rounded generations of C142 and C151 as islands of the model of C103 | the contract of C103 for island drivers, proved for each rounded driver; the selection of IBEA needs the scaled objectives only to exist, so it also works for immigrants scaled by the wrong bounds; sizes by the relative error of one division; emigrants by C125 | Binary64 with unbounded exponents, no fitness archive; the other assumptions are those of C152 (C151 for JGBL). The emigrants are whatever a function with PickOk gives; C153_pick shows that the code's choice in floats is one. OMOPSO, NSGA-III and NSLS on islands: C154. |
| C154 | In floating point, OMOPSO reaches its budgets, alone and on islands, and so do islands with NSGA-III and NSLS | proved | Model/RoundedImgaRest: the rounded steps of C144, C149 and C150 as islands of the model of C103, and OMOPSO as a driver | the contract of C103 for island drivers, proved for each rounded driver; a resting immigrant satisfies the bound on the speeds; NSGA-III: the children are in the history of the ideal point, which is enough for positive divisors | Binary64 with unbounded exponents, no fitness archive; the other assumptions are those of C144, C149 and C150. The emigrants are whatever a function with PickOk gives (C153_pick). |
| C155 | HGS in floating point runs without exceptions, stays in the box and reaches its budgets | proved | runs of the tree of C146 with the drivers of C142 in its nodes and sprouts made by `population_from_delegate`, all in rounded arithmetic (Model/RoundedHgsRun, Spec/RoundedHgsRun) | a step of the tree with rounding has all the effects that the proof of C106 needs (`StepOk`): its metaepochs are those of a step without rounding that is told other hypervolumes, the trimming changes only which nodes are alive, and the rest does no arithmetic on floats; the drivers keep the contract of C106 with floats of the box instead of vectors of the box | IBEA with kappa at least 1/32 (shipped: 0.05); costs and budgets are exact; hypervolumes, means and the tests for redundancy are parameters, as computed |
| C156 | HGS in floating point with OMOPSO, NSGA-III, NSLS or JGBL in its nodes stays in the box | partial | the steps of NSGA-III and NSLS with the archive of the level, and the nodes of C106 with the drivers of C144, C149, C150 and C151 in them, in rounded arithmetic (Model/RoundedHgsRest) | the steps with an archive do the same as those without one, and the cost grows by the number of new entries; the drivers keep the contract of C106 with floats of the box, and then C155 applies | partial because of JGBL, whose jumps leave some boxes (C151); closed boxes are what is proved, and the boxes of all plain problems are closed; NSGA-III and NSLS with at least two individuals per level; NSLS for searches that find a trial that is not dominated, as otherwise a step does not end (C149); OMOPSO without an archive, and with the speeds the draws can give; costs and budgets are exact |
| C157 | Each simulation starts from its own random seed | partial | `SimulationWorker._init_random_seed` with the bytes, the clock and the process id as parameters, and the product and sum of floats rounded (Model/Seed) | the last byte is the remainder modulo 256, induction on the length; clock readings of these years are multiples of 2⁻²², and so the product and the sum are exact; two witnesses | partial because the code violates the property without os.urandom; all reals that are floats are allowed for the clock; what random.seed does with the number is not modelled |
| C158 | In floating point, whole runs of the distributed HGS stay in the box and reach their budgets | partial | the nodes of C113 with the drivers of C142, C144, C149, C150 and C151 in them, in rounded arithmetic (Model/RoundedDist), and the actors with rounded comparisons (`Conf.fl` in Model/DistHgs) | the drivers keep the contract of C106 with floats of the box, and then C113 applies, which holds for any rounding in the actors | partial because of JGBL, whose jumps leave some boxes (C151); closed boxes are what is proved, and the boxes of all plain problems are closed; the other assumptions are those of C113, C155 and C156; costs and budgets are exact |
| C159 | In floating point, HGS trimming stops exactly the stagnant and the redundant nodes | proved | the sequential HGS with rounding of C146 (Model/RoundedHgs) | the proof of C78, with a metaepoch that rounds being one of exact arithmetic with other reports; C146 for the computed progress | the tests of centres (near) are parameters, so that their rounding does not matter; costs are exact |
| C160 | The command line runs what the user asks for | partial | `main_worker`, `resolve_configuration` and the functions it calls, `run_parallel` up to the first job, and `int` of strings (Model/CommandLine, Model/Factory) | the accepted texts by induction over the digits, the plan from C43, and case distinctions over exceptions as values | violated by the code for run time with only one of the two numbers, without -a, and for unknown names (see the statement); proved for the rest. docopt is not modelled, only its result; ASCII only; no limit to the number of digits |
| C161 | Populations do not pile up on the bounds in the course of a run | partial | the four drivers with their operators (Model/Generations, Model/Variation) and `trim_mantissa` (Model/Trim) | induction over the states reached: the selections return members of the population (C23, C25, C26, C27), and crossover, mutation and trimming keep coordinates off the bounds (C147, C50) | proved for every trim function that does not itself move a vector onto a bound, in particular without one and for the truncation of HGS if zero lies in every interval; for other boxes violated by the truncation. Exact arithmetic: in floating point a mutated coordinate can be rounded to a bound (C161_rounded_violated) |
| C162 | Observables of several processes are merged without loss | partial | the merging loop over an arbitrary interleaving of what the processes send, and `prime_number` (Model/RxTools); specification: the relation `Merge` | interleavings survive filtering, the number of end marks is the sum over the providers, and an interleaving of lists that finish with the mark finishes with it; primes by the definition with divisors from 2 on | violated by the code for providers that fail or emit the string 'end'; proved for all others. The functions are not used by the rest of the program |
| C163 | A worker returns its results with the time they took, or None, and always shuts the driver down | partial | `timing.py` and `SimulationWorker.run` with the outcomes of the functions called as parameters, exceptions as values (Model/Worker) | case distinctions over the outcomes of the calls | violated by the code if driver.shutdown(), os.nice or seeding raises; proved for the rest. KeyboardInterrupt and SystemExit are passed on, as usual |
| C164 | --renice lowers the priority of every simulation by the increment | partial | lines 33-37 of worker.py for the sequence of workers in run_parallel, with os.nice of Linux (Model/Renice) | induction over the number of simulations | violated by the code from the second simulation on; the exact niceness of each simulation is proved for increments of at least 0. The behaviour of os.nice is that of Linux |
| C165 | A whole program runs every simulation and shuts everything down | partial | the queue of run_parallel with the workers of C163 (Model/WorkerQueue) | induction over the queue with the theorems of C163 | violated by the code as soon as one simulation fails; proved for programs without failures, and for the drivers in all cases. See C49 for the summary |

## 4. Findings: bugs of the code and disagreements with its documentation

Each one that is marked with a property is confirmed by a theorem with a witness.

Metrics and hypervolume

* The reference sets of the Pareto dominance indicator are keyed by the position of a
  run in the unsorted listing of all directories (`metrics_processor.py:192-195`),
  while the results are numbered by the sorted matching names: results are compared
  with those of another run (C92).
* `cache` is a `defaultdict(list)`, so `except KeyError` in
  `pareto_dominance_indicator` is dead: a missing key gives `[]` and the metric divides
  by zero. A second preload of the same problem in one process appends to sets
  (swallowed `AttributeError`) and then iterates over numbers (`TypeError`).
* Stored solutions are compared without their keys: if an empty run directory with an
  earlier name appears, runs are renumbered, the stored reference sets are kept under
  the old numbers and the evaluation fails (C93_earlier_run).
* `clear_old_pdi_metrics` matches `*{problem}_*` against whole paths: if the results
  directory contains `{problem}_` in its name it tries to remove the directories of the
  algorithms and raises.
* `filter_not_dominated` keeps duplicates while `pareto_dominance_indicator`
  divides by the size of a *set*, so the indicator can exceed 1 (C11).
* The additive epsilon indicator is computed with the roles of the two sets
  exchanged compared to its usual definition (C08).
* `hv.py` is wrong in four dimensions when dominated points with tied coordinates
  are present (12 instead of 16 for four points), and in five dimensions even for
  mutually non-dominated points (1472 instead of at least 1504 for five points):
  the `ignore` marks set through different points refer to each other cyclically
  (C82).  Exact for up to three dimensions, for four-dimensional non-dominated
  sets, and when coordinates are distinct.  The list comprehension in lines
  128-131 reads area values that have not been updated yet; harmless, as they are
  always overwritten before use.
* ClassicHGS measures progress by the hypervolume of whole populations, which
  contain dominated points, so with four or more objectives it can be misled by
  the above.
* The metric uses the reference point 50 in every objective; points beyond it
  count for nothing.

Sorting

* The docstring of `paretofront_layers` claims that *all* members of a layer
  dominate all members of later layers; only "some member of the previous layer"
  is true (C04).

Simulation, storage, statistics

* `TimeRun` reports, for slots that pass during the first step, a result that did
  not exist at that time, and emits nothing if the time is up after one step (C16).
* `TimeWorker` stores the *current* population with the *previous* step's message (C52).
* Result files with non-canonical names ("007.pickle") make the listing drop
  results, and a plain file named like a run makes it fail (C19); run numbers from
  10^7 on are stored but never listed (C20).
* The metric cache returns a stale value if a result is rewritten (C21).
* `preload_results_for_problem` numbers runs by the unsorted directory order while
  `_each_run` sorts them; the pattern of `clear_old_pdi_metrics` can match
  directories when a parent path contains the problem's name.
* Without `--algo` nothing is planned, while without `--problem` all problems are
  (README: all) (C43).  Chains of three or more drivers are never viable (C45).
* `evogil.py run time` fails with a TypeError (`int(None)`, factory.py:39-40) unless both the timeout and the step are given; the
  help says "timeout and/or step". Unknown names after `-a` and `-p` are ignored: in `run budget 500,1000,1200 -a nsgaii,spea2 -p
  zdt1,uf2,uf10` of the README the problem UF10 is left out. With `-a hgs+nsgaii, hgs+omopso` of the README, if quoted, the second
  name begins with a space and is ignored as well (C160). `stats` accepts `-a`, `-p` and `-d` and uses none of them.
* `multiprocess_observable` (unused) takes an emitted string "end" for the end of a provider and loses values, and it waits
  forever if a provider fails (C162).
* `--renice` accumulates: all workers run in the process of `run_parallel`, and each calls `os.nice(increment)`. With
  `--renice 5` the fourth and all later simulations run at niceness 19 (C164).
* If a simulation fails, `run_parallel` leaves its actor system running: `sys.shutdown()` and `shutdown_default_executor()` are
  not in a `finally` clause and are skipped by the exception (C165).
* An exception of `driver.shutdown()` in the `finally` clause of `SimulationWorker.run` replaces the results of a successful run
  (C163); with `--renice` below 0 and no privileges `os.nice` raises before the `try`, so that the whole program ends.
* Without `os.urandom` the seed is `int(time.time() * 256 + os.getpid())`: a process with the next smaller id that starts
  1/256 s later gets the same seed, although the comment says that equal seeds are not acceptable (C157).
* `run_parallel` indexes the result of a failed worker (`None[-1]`) and raises (C49).
* The bootstrap draws 0.66 n values; with one value it draws none, and the interval
  starts at minus infinity (C47).
* `split_front` raises `IndexError` when the front has no gap after its second
  point, keeps an isolated first point in a piece, and loses points of unsorted
  fronts (C57).

Algorithms

* Evaluation costs: SPEA2 and OMOPSO charge 0 or the whole population depending on
  the last individual only, SMS-EMOA charges a whole population per child, IBEA
  charges known individuals again, also when only asked for its result (C54).
* The number of offspring `int(mating_population_size * N)` of NSGA-II and the number
  of turns `int(N * epoch_length_multiplier)` of SMS-EMOA can be 0 (e.g. one individual
  and the factor 0.5): then the cost never grows and a simulation with a budget above N
  does not end (C95_nsgaii_empty, C95_smsemoa_empty).
* SPEA2 returns an empty population before its first step, so a result stored for the
  budget 0 is empty (example in Props/GenerationsRun).
* `OMOPSO([])` raises IndexError in its constructor: crowding is computed on an empty
  archive (C96_empty).
* NSGA-II crowding protects the smallest but not the largest value of an objective
  (line 154 is commented out) (C60).
* OMOPSO: `Archive.add` removes from the list it iterates over, so dominated
  members survive (C28); pruning always removes the best leader in the last
  objective (C63); the tolerance makes the reported archive drift without bound (C64), and for
  negative objectives it makes the test stricter than dominance; the tournament
  picks the more crowded leader; `mopso_mutation` builds lazy `map`s that are never
  evaluated, so mutation never happens.
* SPEA2: one individual raises IndexError (C24), one archive member raises
  ValueError in mating (C81), and the tie break of the truncation stops early (C67).
* IBEA mating selection prefers, with probability 0.9, the *less* fit individual (C59).
* NSGA-III: the selection loops forever for a population of size 0 or 1 (C31), the
  step raises TypeError after the population property has been assigned (C74),
  and immigrants do not update the ideal point, so that on islands normalized objectives
  can be negative (C115).
* NSLS: `next_generation` loops forever if the local search replaced nobody (C32),
  the local search raises ValueError for one individual, and running minima and
  maxima are collected because of an indentation, so that the true extremes can be
  dropped (C71).
* BOGO drops the archive member that dominates an arriving solution (C33).
* JGBL `convert_to_ratio` divides by zero for an interval of length zero.
* OMOPSO: `p.best_val = copy.deepcopy(p)` (OMOPSO.py:107) also copies the former `best_val` with its own `best_val` and so on. All best
  positions a particle ever had are kept and are copied again for every archive candidate, and after some 490 improvements of one
  particle `deepcopy` raises RecursionError (C141).
* OMOPSO: `move` writes into the lists passed as the population unless `trim_function`
  copies; the default does not. The caller's population is changed, and a list that
  occurs twice is moved twice per step (C105).
* HGS: the default `metaepoch_len=5` cannot be used, `self.owner.metaepoch_len[self.level]`
  raises TypeError (ClassicHGS.py:248).
* HGS with NSGA-II: a step costs nothing when all new vectors are in the archive of the
  level, and the cost is bounded if trimming leaves finitely many vectors; a run for a larger
  budget does not end (C106).
* HGS with IBEA: `finalized_population` charges every individual again at the end of each
  metaepoch; the charge of the last metaepoch of a node never becomes part of the cost of
  HGS, that of the earlier ones does (C106, example in Props/HgsRunIbea).
* IMGA: the result is an `itertools.chain`. `process_results` uses it up when it computes
  the objective values, so the result files contain no decision vectors at all, and
  `len(x.population)` at stats.py:96 raises TypeError (C104). The models of C51, C95 and
  C103 speak of the returned vectors and do not show this.
* IMGA: `cost` is 0 until the first step although the constructors of NSGA-II and SMS-EMOA
  islands may have evaluated already; with IBEA islands the evaluations made by finalizing show up in the
  cost only after the next step. An epoch length of 0 raises, and a budget is never
  reached if no island's step costs anything (C103).
* IMGA: `spread_budget_info` is called by the constructor, when `max_budget` is always
  `None`; the worker sets it afterwards, so the islands never get the budget.
* IMGA: migration fails if an island has fewer individuals than it must send (C36);
  with exactly one complete row islands are their own neighbours, the first island
  of an incomplete row is not linked to its column, and the fifth of five islands
  is isolated with the default width (C37).
* Truncation of decision vectors rounds towards zero and can leave the box when an
  interval does not contain zero (C79).

HGS

* Classic HGS halves the progress threshold *in the shared configuration list*,
  so the next simulation in the same process starts with another configuration (C40).
* With the shipped limit `min_progress_ratio[0] = 0.0` a stagnating root is stopped only thanks to `EPSILON`, which is
  lost when it is added to a hypervolume of 4 or more: then a root whose hypervolume stays the same goes on forever, and
  as nothing sprouts before the root is stopped HGS is its driver at level 0 and nothing else (C146).
* Living sprouts exceed `max_sprouts_no` after a revival (C77); sprouts released in
  the same step are not compared with each other; nothing sprouts while the root is
  alive (C77); nodes stopped as redundant are never revived (C78); a node cannot be
  stopped for lack of progress before its third metaepoch.
* `blurred_fitnesses` returns `fabs(random.gauss(f, error * f / 3))`, i.e. |f| for the
  default error 0, so HGS minimises the distance of an objective from zero. The second
  objective of ZDT3 is negative on most of the front: HGS is steered away from it (C89).
* `population_from_delegate` returns one vector when zero are asked for (C90).
* `HGS_optional`: the names of the two scaling directions are exchanged (C58).
* Distributed HGS: the redundancy phase consumes its `groupby` iterator in a log line
  and trims nothing (C42). Otherwise it would fail: it reads an attribute `min_dists`
  that does not exist, and `KILL` has no handler in the node.
* Distributed HGS: `alive_sprouts_count` is not increased when a sprout is released, so
  `max_sprouts_no` is exceeded (C87). Unlike in the classic variant, sprouts released in
  the same phase are compared with each other (C87).
* Distributed HGS: the cost is that of the most expensive node, not the sum (C86).
* Distributed HGS: `level_nodes` is hard-coded to the levels 0 to 2, so `max_level` > 2
  raises `KeyError`; `metaepoch_len` 0 raises `ValueError` (`max([])`); finished
  tasks are never deleted; the `address` of a node state is that of the requester and not
  of the node; the recursion over redundant delegates may exceed Python's recursion limit.
  The revival would never answer if no node were alive and none ripe; it cannot happen (C85).

Problems

* UF6 samples past the end, its last point (1.003, -0.003) is unattainable; the UF9
  front has negative second objectives, e.g. (1, -1, 1); the reference points of
  EWA1 and EWA2 are unattainable (C55).
* UF8 and UF10 use the exponent 1/3 instead of 1/2, so their fronts contain dominated
  points, and their index sets are the complements of the published ones (C56).
* ZDT3 keeps the sample 25/299 though it is dominated by the point for x = 0.0832 (C56).
* UF11 and UF12 take the sine of the variable itself instead of its multiple by pi/2
  (UF11/problem.py:79) and sum g over all variables; row 4625 of the UF11 table is
  dominated (C56) and row 3 unattainable (C55). For UF12 the point where g vanishes
  has a coordinate above its upper bound (0.9904 against 0.976, up to the digits of the
  matrix), so g is at least 0.8 on the box and no row of its table is attainable (C55).
  The penalty for leaving the cube is computed from the mirrored
  values, for which it is 1 whenever |lambda_i z_i| <= 1 (`uf11_penalty_void`).
* The penalty of UF11 and UF12 for leaving the unit cube never applies: `base_fit_bottom` passes `z_b` instead of `Z` to `S`
  (UF11/problem.py:84, UF12/problem.py:86), and with the numbers of the data files all mirrored coordinates of all vectors of
  the box are between 0 and 1 (C140). The branch `-z_i if z_i < 0` of `p` is dead.
* The first row of `kursawe.dat`, (-20, 8.18e-11), is neither attained nor optimal;
  the exact point is (-20, 0) (C55, C56).

Statistics

* `rank` always reads `serialization.RESULTS_DIR`, and `rank_details` and `table` read three
  hard-coded directories (ranking.py:35): results stored with `--dir` cannot be ranked, and the
  usage does not even allow `--dir` or `--bootstrap` for these commands.
* `summary` accepts no `--dir` either and always reads `RESULTS_DIR`. A single entry of the
  results directory that is not named after a problem (such as `.DS_Store`) makes `summary`, `stats`,
  `rank` and the plots fail with ModuleNotFoundError (C109_stray).
* A problem module without `pareto_front` is not refused when HGS or SMS-EMOA is assembled: the
  `AttributeError` of the initialiser is suppressed by `custom_init` and the run fails later with a
  `TypeError` about a missing `reference_point` (C110_no_front).
* With NSGA-II, JGBL, NSGA-III or NSLS in the nodes of HGS a budget simulation need not end: every step may find its vectors in the archive
  of the level and cost nothing, and BudgetRun (driver.py:69-72) has no other condition to stop (C114_archive and its instances; the examples of
  Props/HgsArchiveRuns show runs of NSGA-III and NSLS whose cost stops to grow after the first step).
* The nodes of the distributed HGS evaluate without archive (the argument is commented out,
  actors.py:254), unlike those of the sequential one. With NSGA-II the same configuration therefore costs more
  per step, and results of both for the same budget are not comparable (C113_nsgaii, C106_nsgaii).
* `rank_details` gives a problem to the first listed of several algorithms with equal scores, and the
  listing order is that of the operating system, so the printed counts can differ between machines
  for the same results (C111_order_matters). `rank` does not have this fault for its points (C107).
* `table` only uses results of the budget 40, a number in the source, so that for results of any other
  budget it prints an empty table without a word (C112_table: no row without such a result).
* The figures over time fail with KeyError as soon as one result of SPEA2 or SMSEMOA (alone or with
  IMGA, HGS or DHGS) is stored, since `algos_groups_configuration` does not list them, and cut off all points beyond
  the largest time of the algorithm that happens to be listed first (C116).
* The summary figures fail with ValueError if a problem without counted result is listed after one with such results,
  and with IndexError for results of ackley or kursawe; the hypervolume figure hides values below 0.98 (C117).
* The violins leave out SPEA2, SMSEMOA and all samples that are zero throughout, that is, perfect results (C118).
* `best_fronts` shows the first stored run of an algorithm, not the best one, leaves out SMSEMOA, and fails with
  IndexError if one algorithm directory has no results (C119).
* The progress reports are one simulation behind, so that the last one does not say 100%, and print minutes without
  taking off the hours, such as "04:240:00" (C120). Simulations run one after the other whatever `-j` says: the line that
  would use the pool of processes is commented out (run_parallel.py:46).
* `int(mating_population_size * N)` and `int(N * epoch_length_multiplier)` lose one individual (turn) for some portions because of rounding:
  with 0.29 and 100 individuals there are 28 offspring. It is never more than one (C152_offspring, C152_offspring_less).
* Whole runs of JGBL leave the box of UF11 and UF12 in floating point: the vector outside of the box (see the next item) can
  be an extreme point of the front, and then it survives the selection and is part of the result (C151_box_violated).
* In floating point the jumps of JGBL leave the box of UF11 and UF12: `decode_ratio` does not clamp, and the rounded
  sum of the lower end and the length exceeds the upper end in the dimensions 0, 1, 6, 10 and 12 (C122_box_violated).
  In dimension 10 the excess is larger than `EPSILON`. If such a gene is recombined with one at the upper end,
  `crossover` takes a root of a negative number, and as `max(lb, nan)` is `lb`, a child of two parents at the upper end
  gets the lower end (C122_nan_violated). No exception is raised, because `EPSILON` is a `numpy.float64`, so that the
  root is a NaN instead of a complex number; the handlers of `FloatingPointError` in drivertools.py are never reached
  (numpy only warns unless told otherwise by `seterr`). Also, genes that jump to the place where they were may come back
  changed in the last digit.
* Four more problems are not the published ones (C123): `UF5` uses one constant `n = 10` for the number of variables
  and the number `N` of bumps, so that it has 10 variables instead of 30; `UF6` uses `n = 30` for both, so that it has
  30 bumps and a front of 30 pieces instead of 2; `UF9` and `UF10` share the complemented index sets of `UF8`; in `ZDT6`
  the factor `9 ** 0.75` is written as 5.19615, which moves the second objective by up to 4.2e-6.
* `weighted_choice` relies on `sum` adding in the order of its own loop. From Python 3.12 on `sum` of floats is compensated, and for four layers and the largest value of `random.random()` the assertion "shouldn't get here" is reached (`C125_exact_sum_fails`). With the Python 3.6 of environment.yaml it never is (`C125_layer`).
* SPEA2: with objective vectors at least 2^53 apart, 1 + 1 / (d + 2) rounds to 1, and an individual dominated by exactly one that itself dominates only it passes for non-dominated (`C126_spea2_violated`).
* A result with one more non-dominated point can get a smaller hypervolume in floating point: [[0, 0.2]] has 2490, and with (-2^-60, 0.3) added 2489.9999999999995 (`C128_mono_violated`); a strict comparison of two values that differ in the last digits means nothing. `C127_rank` says from which difference on it does.
* With rounding SMS-EMOA can lose hypervolume: of the points (6/7, 8/7), (1/7, 15/7) and the child (2, 1) with reference point (10, 10), it removes the first one although the child contributes less (`C130_loss`). How much can be lost is bounded by `C130_step`.
* IBEA can discard an individual in favour of one that it dominates (C132_tie): with one objective and the values −2⁶⁰, 1 and 0, the scaled values of the last two are equal after rounding, and the stable sort discards the last. With the shipped parameters this is limited to pairs that are closer than a hundredth of kappa of the range (C132_margin).
* `yield_analysis` of two runs with neighbouring values, such as 8139546197775877·2⁻⁵³ and 8139546197775878·2⁻⁵³, computes a first quartile above the third one; both values are outliers and `metrics_nooutliers` is minus infinity (C133_two_violated). The mean of equal values can lie outside of the fences (C133_mean_violated).
* Ten runs, nine with the value 0 and one with 7, get the mark "╳╳╳╳╳": mathematically 7 lies exactly on the bound mean + 3 stdev, but the bound is computed as 6.999999999999999 (C134_ten_violated).
* `dir_walker.py` overwrites an existing `n.pickle` with the content of `n.json` without a warning (C135_overwritten_violated), and one file that is no JSON stops the conversion of the rest (C135_stops_violated). `clear_budget` likewise stops with a `ValueError` at the first file whose name does not begin with a number (C136_stops_violated).
* Beside the limit of the tolerance the points of the ranking depend on the order of the runs
  in the result files: the last digit of an average decides whether a second algorithm gets a
  point or the winner both (C143_order_violated).
* One algorithm directory without results makes `rank` fail with IndexError, so that no
  ranking is printed for the others either (C107).
* `find_acceptable_result_for_budget` leaves a generator behind of which `cost` and everything
  before it have been read. `rank` only works because `yield_metrics` yields `cost` first and
  `cost` is not ranked; had a ranked metric been yielded earlier it would silently get no row (C107).
* The quality mark of `yield_analysis` tests whether 95 percent of the measurements
  lie within three standard deviations. For ten measurements or fewer this is always
  so (C100), whatever they are; the column is only informative from eleven runs on.
* The `except ValueError` branches of `yield_analysis` (lines 91-93 and 110-112) are
  dead: some value always lies within the inner fences (C99) and empty data already
  raises `IndexError` in `numpy.percentile`.
