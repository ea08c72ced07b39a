{"id": "C01", "title": "Dominance test decides Pareto dominance", "statement": "For two objective vectors of equal length, the dominance test answers true exactly when the first vector is no worse in every objective and strictly better in at least one; the three-way comparison answers 1, -1 or 0 exactly for 'first dominates', 'second dominates', 'neither'.", "quantifier": "all pairs of equal-length objective vectors over any linear order, any number of objectives", "why_tests_cant": "the loop stops early on the first conflict and carries a direction; only an induction over the whole vector covers every pattern of ties and conflicts", "anchors": ["evotools/ea_utils.py: dominates, domination_cmp"]}
{"id": "C02", "title": "Dominance is a strict partial order and the comparison is antisymmetric", "statement": "Dominance is irreflexive, asymmetric and transitive, and swapping the arguments of the three-way comparison negates its answer.", "quantifier": "all triples of equal-length objective vectors", "why_tests_cant": "transitivity ranges over triples of arbitrary vectors; sorting and layering are only meaningful if it never fails", "anchors": ["evotools/ea_utils.py: dominates, domination_cmp"]}
{"id": "C03", "title": "Every dominance implementation in the code base agrees", "statement": "The separately written dominance tests used by the individual algorithms (NSGA-II style weak+strict test, the OMOPSO individual test with eta = 0, the HGS/IBEA users of the shared helper) give the same verdict on every pair of equal-length vectors.", "quantifier": "all pairs of equal-length objective vectors", "why_tests_cant": "agreement of independent implementations has to hold on every input, otherwise results of algorithms are compared under different orders", "anchors": ["evotools/ea_utils.py: domination_cmp", "algorithms/NSGAII/NSGAII.py: dominates", "algorithms/OMOPSO/OMOPSO.py: Individual.dominates", "algorithms/SMSEMOA/SMSEMOA.py: nd_sort", "algorithms/NSLS/NSLS.py: nd_sort"]}
{"id": "C04", "title": "Pareto layering terminates, is a partition, and peels non-dominated layers", "statement": "The layering iterator terminates on every population; its layers are non-empty, together contain every individual exactly once, inside a layer nobody dominates anybody, and everybody in a later layer is dominated by somebody in the layer just before it.", "quantifier": "all finite populations (with duplicates) and all objective maps", "why_tests_cant": "termination and the partition property depend on dominance having no cycles for arbitrary populations", "anchors": ["evotools/ea_utils.py: paretofront_layers"]}
{"id": "C05", "title": "The non-dominated sorts of NSGA-II, SMS-EMOA and NSLS compute the dominance rank", "statement": "Each of the counting-based non-dominated sorts assigns to every individual the length of the longest chain of dominators above it (rank 0 for the non-dominated ones), the fronts are a partition of the population and coincide with the layers of the generic layering function.", "quantifier": "all finite populations and objective maps", "why_tests_cant": "the algorithm works by decrementing counters while walking fronts; correctness is an invariant over the whole run, not a property of samples", "anchors": ["algorithms/NSGAII/NSGAII.py: _nd_sort", "algorithms/SMSEMOA/SMSEMOA.py: nd_sort", "algorithms/NSLS/NSLS.py: nd_sort", "evotools/ea_utils.py: paretofront_layers"]}
{"id": "C06", "title": "The non-domination filter keeps exactly the non-dominated points", "statement": "The on-line filter returns a set whose members are exactly those input points that no input point dominates; in particular the answer does not depend on the order in which the points are read.", "quantifier": "all finite sequences of points and all orders in which they are fed", "why_tests_cant": "the filter is on-line and drops points while iterating; order independence is a statement about all permutations", "anchors": ["metrics/metrics_utils.py: filter_not_dominated, filter_not_dominated2"]}
{"id": "C07", "title": "Laws of the distance indicators (GD, IGD, AHD)", "statement": "Generational distance is non-negative, is zero exactly when every solution point lies on the reference front, inverse generational distance is the same function with the arguments swapped, and the averaged Hausdorff distance is the larger of the two (so it is zero exactly when the two sets coincide); each per-point term is the distance to a nearest reference point.", "quantifier": "all non-empty point sets in any dimension", "why_tests_cant": "'zero iff on the front' quantifies over all finite sets", "anchors": ["metrics/metrics_utils.py: distance, generational_distance, inverse_generational_distance", "metrics/metrics.py"]}
{"id": "C08", "title": "Additive epsilon indicator is the least uniform shift", "statement": "The epsilon indicator is the smallest number e such that every point of the first set is weakly dominated by some reference point moved by e, in the orientation actually implemented; it is non-positive exactly when every solution point is weakly dominated by a reference point.", "quantifier": "all non-empty finite sets of equal-dimension points", "why_tests_cant": "'smallest' is a universally quantified optimality statement", "anchors": ["metrics/epsilon.py: epsilon"]}
{"id": "C09", "title": "Hypervolume is exact in one, two and three dimensions", "statement": "For one, two and three objectives the hypervolume routine returns the length / area / volume of the region dominated by the points and bounded by the reference point, for any input order, with duplicates, ties and dominated points present; points not dominating the reference point contribute nothing.", "quantifier": "all finite point sets in one, two and three dimensions and all reference points", "why_tests_cant": "the volume of an arbitrary union of boxes is compared with a sweep over a linked multi-list with caching; needs induction and an invariant of the cache", "anchors": ["algorithms/base/hv.py: HyperVolume.compute, hvRecursive"]}
{"id": "C10", "title": "Hypervolume recursion terminates and restores its data structure", "statement": "The linked multi-list of the hypervolume routine holds, for each objective, all points in ascending order of it; removing any nodes leaves exactly the other ones in the same order in each list; putting them back in reverse order gives back exactly the previous lists; the whole recursion terminates for any number of objectives and leaves all lists as they were.", "quantifier": "all point sets, all numbers of dimensions, all removal orders", "why_tests_cant": "pointer surgery over arbitrary lists and arbitrary interleavings of remove/reinsert", "anchors": ["algorithms/base/hv.py: MultiList.append, extend, remove, reinsert, HyperVolume.preProcess, hvRecursive"]}
{"id": "C11", "title": "Pareto dominance indicator is the share of the combined front found by the run", "statement": "The Pareto dominance indicator of a run equals the share of the points of the combined non-dominated set that the run's non-dominated set contains; it lies between 0 and 1 and is 1 exactly when the run found all of them.", "quantifier": "all result sets (with duplicates) and all combined reference sets", "why_tests_cant": "universally quantified over multisets; duplicates in a run's result are the interesting case", "anchors": ["metrics/metrics_utils.py: pareto_dominance_indicator", "simulation/metrics_processor.py: pareto_dominance_indicator, filter_non_dominated_in_cache"]}
{"id": "C12", "title": "Ranges of the spread indicators", "statement": "Spacing is non-negative and is zero when all nearest-neighbour distances coincide, extent is non-negative, never decreases when points are added and is zero exactly when all points coincide, and the non-domination ratio lies in (0, 1] with 1 exactly when no point is dominated.", "quantifier": "all non-empty finite point sets in any dimension", "why_tests_cant": "inequalities over all finite sets; monotonicity relates two arbitrary sets", "anchors": ["metrics/metrics_utils.py: spacing, extent, non_domination_ratio"]}
{"id": "C13", "title": "Mutation stays in the box", "statement": "Whatever random numbers are drawn, the polynomial mutation returns a vector of the same length whose every mutated coordinate lies in its interval, and every coordinate that is not selected is returned unchanged; so a vector inside the box stays inside it.", "quantifier": "all vectors, all boxes, all mutation rates and distribution indices, all outcomes of the random source", "why_tests_cant": "ranges over all real draws; the polynomial delta is not bounded by construction, only the final clamp guarantees the property", "anchors": ["algorithms/base/drivertools.py: mutate, old_mutate", "algorithms/NSGAIII/NSGAIII.py: polynomial_mutation"]}
{"id": "C14", "title": "Crossover stays in the box and does not touch its parents", "statement": "Whatever random numbers are drawn, simulated binary crossover of two vectors of the box returns a vector of the same length inside the box, each coordinate of which is either copied from a parent or recombined and clamped; the parents are unchanged.", "quantifier": "all pairs of vectors in the box, all random outcomes", "why_tests_cant": "all draws, all coordinates; the recombination expression may leave the box arbitrarily far before clamping", "anchors": ["algorithms/base/drivertools.py: crossover, get_beta_q, average_indiv", "algorithms/NSGAIII/NSGAIII.py: simulated_binary_crossover"]}
{"id": "C15", "title": "A budget run stops at the first step reaching the budget", "statement": "A budget-limited run emits the driver's progress messages in order, every emitted message but the last reports a cost below the budget, the final driver cost is at least the budget, no step is executed after that, and the stream completes exactly once; with a non-positive budget no step is made. The run terminates if every step costs at least one evaluation.", "quantifier": "all drivers (any step function and cost), all budgets, all run lengths", "why_tests_cant": "statement about the complete history of an arbitrary driver", "anchors": ["algorithms/base/driver.py: BudgetRun"]}
{"id": "C16", "title": "A time-limited run reports the state at each time slot exactly once and in order", "statement": "A time-limited run emits the slots step, 2*step, 3*step, ... consecutively, each at most once, none after the timeout, and the message of a slot is the last step result that had been produced before the slot's time had elapsed.", "quantifier": "all drivers, all clock readings (non-decreasing), all positive slot lengths and timeouts", "why_tests_cant": "depends on arbitrary timing of steps: several slots can pass in one step, or none", "anchors": ["algorithms/base/driver.py: TimeRun"]}
{"id": "C17", "title": "A step-limited run makes exactly n steps with consecutive numbers", "statement": "A run limited to n steps emits exactly n messages, numbered consecutively from the driver's current step number, and advances the step counter by n.", "quantifier": "all drivers, all n, all starting step numbers", "why_tests_cant": "all n and all histories of earlier runs", "anchors": ["algorithms/base/driver.py: StepsRun, StepCountingDriver"]}
{"id": "C18", "title": "Stored results are read back and never overwrite a different run", "statement": "Saving a result under a run identity and name and loading it with the same identity returns the saved value; saving under another (problem, algorithm, run id, name) changes nothing that was stored before.", "quantifier": "all sequences of save operations, all identities whose components contain no path separators", "why_tests_cant": "arbitrary histories of stores; collisions of paths are a statement about all pairs of keys", "anchors": ["simulation/serializer.py: Serializer, save_file, load_file", "simulation/model.py: SimulationCase"]}
{"id": "C19", "title": "Listing of stored results groups every result by its measure, in increasing order", "statement": "When results are listed for an algorithm, the groups come in strictly increasing order of budget/time, each group contains exactly the stored results of that budget over all runs, and no stored result is lost; the position of the file in a directory does not matter.", "quantifier": "all directory contents", "why_tests_cant": "ranges over all directory contents and enumeration orders, including file names that only denote equal numbers", "anchors": ["simulation/serialization.py: NumberMeasuredResultExtractor.load_result, _each_run, each_result"]}
{"id": "C20", "title": "Simulation identifiers round-trip and stay distinct", "statement": "Formatting a run number as an identifier keeps distinct run numbers distinct, yields at least seven digits, and parsing it gives the number back; a missing (or zero) run number is replaced by a random seven-digit one.", "quantifier": "all natural run numbers and all outcomes of the random source", "why_tests_cant": "injectivity over all pairs", "anchors": ["simulation/model.py: get_simulation_id"]}
{"id": "C21", "title": "Metric cache returns what would be computed", "statement": "A metric value served from the cache file equals the value computed when it was first requested with the same parameters, a request with different parameters is refused instead of silently answered, and requests for different metrics or results never interfere.", "quantifier": "all sequences of metric requests", "why_tests_cant": "history property over arbitrary request sequences", "anchors": ["simulation/metrics_processor.py: get_metric"]}
{"id": "C22", "title": "Objectives are evaluated once and the cost equals the number of evaluations", "statement": "In the drivers with per-individual memo (NSGA-II, NSGA-III, NSLS), after evaluation each individual's objectives equal the problem's fitness of its vector, and the reported cost grows by exactly the number of individuals that were not evaluated before.", "quantifier": "all populations, all mixtures of evaluated and fresh individuals, all step sequences", "why_tests_cant": "accounting invariant over all histories of the population", "anchors": ["algorithms/NSGAII/NSGAII.py: _calculate_objectives", "algorithms/NSGAIII/NSGAIII.py: _calculate_objectives", "algorithms/NSLS/NSLS.py: calculate_objectives"]}
{"id": "C23", "title": "NSGA-II environmental selection keeps the size and is elitist by rank", "statement": "After environmental selection the population has exactly min(population size, number of candidates) members, all of them candidates, and no discarded candidate has a smaller non-domination rank than a kept one; in particular, if the non-dominated candidates fit, all of them survive.", "quantifier": "all candidate multisets, all crowding distances", "why_tests_cant": "ordering property over all inputs and tie patterns", "anchors": ["algorithms/NSGAII/NSGAII.py: _environmental_selection, step"]}
{"id": "C24", "title": "SPEA2 fitness separates dominated from non-dominated individuals", "statement": "The SPEA2 raw fitness of an individual is zero exactly when nobody dominates it, the density term is strictly between 0 and 1, and therefore the total fitness is below 1 exactly for the non-dominated individuals.", "quantifier": "all populations with at least two members, all objective values and distances", "why_tests_cant": "universally quantified; the density term must never reach 1", "anchors": ["algorithms/SPEA2/SPEA2.py: calculate_fitnesses, calculate_raw_fitness, calculate_density, calculate_dominated"]}
{"id": "C25", "title": "SPEA2 archive has the configured size and keeps non-dominated individuals first", "statement": "After environmental selection the archive has exactly the archive size (given enough candidates); if the non-dominated individuals fit, all of them are in the archive, otherwise only non-dominated ones are.", "quantifier": "all candidate populations and archive sizes, every tie-breaking", "why_tests_cant": "the truncation loop removes individuals one at a time; invariant over the loop", "anchors": ["algorithms/SPEA2/SPEA2.py: environmental_selection, choose_to_truncate, get_domination_index"]}
{"id": "C26", "title": "IBEA environmental selection removes the worst individual until the size fits", "statement": "IBEA's selection returns exactly min(population size, candidates) individuals, all of them candidates; each removed individual has the smallest fitness at the time of its removal and the fitness of the survivors is the indicator fitness of the reduced population.", "quantifier": "all candidate populations, all indicator values", "why_tests_cant": "loop invariant: incremental fitness updates must equal recomputation from scratch after any number of removals", "anchors": ["algorithms/IBEA/IBEA.py: _environmental_selection, _calculate_fitness"]}
{"id": "C27", "title": "SMS-EMOA reduction removes one member of the worst front", "statement": "One SMS-EMOA reduction removes exactly one individual, taken from the last non-dominated front, and when that front has several members the removed one has the smallest hypervolume contribution; the population size is constant over steps.", "quantifier": "all populations and all hypervolume contributions", "why_tests_cant": "loop and sort correctness over all populations", "anchors": ["algorithms/SMSEMOA/SMSEMOA.py: reduce_population, step, nd_sort"]}
{"id": "C28", "title": "OMOPSO archives contain mutually non-dominated solutions", "statement": "After any sequence of insertions the archive contains no two members one of which dominates (or equals, for the final archive epsilon-dominates) the other, and an insertion is refused exactly when a present member dominates or equals the newcomer.", "quantifier": "all insertion sequences", "why_tests_cant": "the insertion loop deletes from the list it iterates over, so only particular adjacency patterns go wrong", "anchors": ["algorithms/OMOPSO/OMOPSO.py: Archive.add, LeaderArchive.add, LeaderArchive.prune"]}
{"id": "C29", "title": "OMOPSO particles stay in the box", "statement": "Whatever speeds and random numbers occur, after a move every particle coordinate lies in its interval, and a particle that hits a bound gets its speed component reversed.", "quantifier": "all positions, speeds, boxes and random outcomes", "why_tests_cant": "all real inputs; no a-priori bound on the speed", "anchors": ["algorithms/OMOPSO/OMOPSO.py: move, compute_speed, Mutation"]}
{"id": "C30", "title": "NSGA-III reference points lie on the unit simplex", "statement": "Whatever random numbers are drawn, a generated reference point has one coordinate per objective, all coordinates lie in [0, 1], and they sum to exactly one.", "quantifier": "all numbers of objectives and all random draws", "why_tests_cant": "stick-breaking over an unbounded number of coordinates with arbitrary draws", "anchors": ["algorithms/NSGAIII/NSGAIII.py: generate_reference_point"]}
{"id": "C31", "title": "NSGA-III ideal point and population size", "statement": "The ideal point is at all times the component-wise minimum of all objective vectors evaluated so far; the selection of the next population terminates and yields exactly the configured number of individuals provided there are more candidates than places, taking whole better fronts first.", "quantifier": "all evaluation histories, all candidate fronts, all random choices", "why_tests_cant": "history invariant and a termination statement (the code loops forever when there are not enough candidates)", "anchors": ["algorithms/NSGAIII/NSGAIII.py: update_ideal_point, create_final_population, theta_non_dominated_sort"]}
{"id": "C32", "title": "NSLS local search stays in the box, never worsens, and the next generation has the right size", "statement": "A local-search pass keeps every individual in the box and replaces an individual only by one that dominates it or is incomparable in the way the code accepts; selection of the next generation terminates with exactly the population size provided there are more candidates than places.", "quantifier": "all populations, all random draws", "why_tests_cant": "all draws and loop invariants", "anchors": ["algorithms/NSLS/NSLS.py: local_search, next_generation"]}
{"id": "C33", "title": "BOGO archive keeps the non-dominated solutions found so far", "statement": "After any sequence of refreshes the archive consists of mutually non-dominated solutions and every solution ever offered is weakly dominated by an archive member.", "quantifier": "all refresh sequences", "why_tests_cant": "history property; failing sequences need a particular order of arrivals", "anchors": ["algorithms/BOGO/BOGO.py: refresh_archive"]}
{"id": "C34", "title": "Jumping-gene operators keep chromosome lengths and genes in the code range", "statement": "The ratio codec used for jumping genes maps interval ends to the ends of [0,1] and back and is a bijection on the box; cut-and-paste and copy-and-paste transpositions keep the chromosome lengths and only use genes of the participating chromosomes.", "quantifier": "all chromosomes, positions and transposon lengths", "why_tests_cant": "index arithmetic over arbitrary positions", "anchors": ["algorithms/JGBL/JGBL.py: jump_genes, cut_and_paste, copy_and_paste, paste, decode_ratio, convert_to_ratio, multi_delete"]}
{"id": "C35", "title": "Island populations partition the initial population", "statement": "The islands created from an initial population are disjoint, each has the prescribed size, and together they contain every individual exactly once; a remainder is spread over the first islands.", "quantifier": "all population sizes and island counts", "why_tests_cant": "index arithmetic over all sizes", "anchors": ["algorithms/IMGA/IMGA.py: create_islands"]}
{"id": "C36", "title": "Migration conserves individuals", "statement": "In one migration round every emigrant leaves exactly one island and enters exactly one island, the multiset union of all island populations is unchanged, every island keeps its size, and the consistency check never fails for a symmetric topology, provided every island has enough individuals for all its neighbours.", "quantifier": "all island populations, all topologies, all choices of emigrants", "why_tests_cant": "conservation over arbitrary multi-island exchanges", "anchors": ["algorithms/IMGA/IMGA.py: migration, Island.emigrate, Island.immigrate, Island.assimilate", "algorithms/base/model.py", "algorithms/IMGA/message.py"]}
{"id": "C37", "title": "Torus topology is a symmetric neighbourhood", "statement": "For every width and every number of islands the torus topology is created, every index is in range and the neighbourhood relation is symmetric; no island is its own neighbour unless there is one column or exactly one complete row; with at least three columns and rows every island of a complete row has exactly four distinct neighbours; the neighbours are those of cyclic rows and cyclic columns (incomplete last row included).", "quantifier": "all torus dimensions", "why_tests_cant": "modular arithmetic over all sizes", "anchors": ["algorithms/IMGA/topology.py: TorusTopology.create"]}
{"id": "C38", "title": "HGS keeps a well-formed tree of nodes", "statement": "At all times every node except the root is the sprout of exactly one parent one level up, levels never exceed the configured depth, the per-level lists contain exactly the nodes of that level, and a node is either alive or finished (never ripe and alive at once).", "quantifier": "all runs: any number of steps, any progress values, any redundancy decisions", "why_tests_cant": "invariant over unbounded histories of tree growth", "anchors": ["algorithms/HGS/classic/ClassicHGS.py: step, release_new_sprouts, trim_sprouts, revive_root"]}
{"id": "C39", "title": "HGS cost is the weighted sum of its nodes' evaluations", "statement": "The cost reported by HGS equals, at all times, the sum over all nodes of the level's cost modifier times the evaluations that node's driver had spent when it last reported, and never decreases.", "quantifier": "all runs and all driver cost sequences", "why_tests_cant": "accounting invariant over all histories (telescoping sum per node)", "anchors": ["algorithms/HGS/classic/ClassicHGS.py: run_metaepoch, Node.run_metaepoch, _update_cost"]}
{"id": "C40", "title": "HGS never gets stuck without a living node", "statement": "After every HGS step at least one node is alive, so that the following step makes progress; the root's progress threshold is halved on each revival, the configuration that was passed in is not affected.", "quantifier": "all runs", "why_tests_cant": "liveness invariant over all histories; the configuration clause needs aliasing to be modelled", "anchors": ["algorithms/HGS/classic/ClassicHGS.py: revive_root, trim_not_progressing, trim_redundant", "simulation/run_config.py: algo_base"]}
{"id": "C41", "title": "Each distributed HGS phase answers exactly once, after all nodes answered", "statement": "For every order in which node replies arrive, a supervisor phase (metaepoch, status, population, trimming, release) sends exactly one final answer to its requester, not before all expected replies arrived; the collected answer depends on the order of arrival at most in the order of its entries, and the resulting tree not at all.", "quantifier": "all message interleavings and all numbers of nodes", "why_tests_cant": "schedules of concurrent actors are unboundedly many", "anchors": ["algorithms/HGS/distributed/hgs_tasks.py", "algorithms/HGS/distributed/actors.py: HgsNodeSupervisor.receiveMessage, TaskActor"]}
{"id": "C42", "title": "Distributed HGS trims redundant nodes like the classic one", "statement": "In the distributed variant the redundancy phase tells exactly those nodes to stop that the sequential variant would kill.", "quantifier": "all node populations and all reply orders", "why_tests_cant": "equivalence of two implementations over all states (a one-shot iterator makes the distributed one a no-op)", "anchors": ["algorithms/HGS/distributed/hgs_tasks.py: TrimRedundantHgsTask", "algorithms/HGS/classic/ClassicHGS.py: trim_redundant"]}
{"id": "C43", "title": "The simulation plan is the full product of requested choices", "statement": "The list of simulation cases contains, for every repetition, every requested problem and every requested algorithm, exactly one case, in particular its length is the product of the three numbers; only known problems and parsable algorithms appear.", "quantifier": "all selections and repetition counts", "why_tests_cant": "counting over arbitrary selections", "anchors": ["simulation/factory.py: resolve_configuration, create_simulation, parse_problems, parse_algorithms"]}
{"id": "C44", "title": "Configuration precedence", "statement": "For every configuration key the value given to an algorithm is the one from the most specific layer that defines it, in the order: common obligatory values, algorithm defaults, algorithm-with-sub-drivers defaults, problem-specific customisation, custom initialisers; keys defined nowhere are absent.", "quantifier": "all contents of the layers and all keys", "why_tests_cant": "override order for every combination of present/absent keys", "anchors": ["simulation/factory.py: prepare_with_driver, load_algorithm_config, load_problem_config, custom_init"]}
{"id": "C45", "title": "Nested algorithms are built from the inside out", "statement": "For a composite name such as A+B+C the resulting driver has A outermost, every level is configured with the next inner one as its sub-driver, the innermost receives no sub-driver, and a combination without a message adapter is refused.", "quantifier": "all chains of algorithm names of any length", "why_tests_cant": "recursion over chains of unbounded length", "anchors": ["simulation/factory.py: prepare, prepare_with_driver, prepare_algorithm_class, prepare_message_adapter_class"]}
{"id": "C46", "title": "Selection of an acceptable result for a budget", "statement": "The search for a result acceptable for a budget returns the last stored group, in the order given, whose mean cost exceeds the budget of the last group by at most 500; nothing is returned exactly when no group qualifies, and an empty list is the only input that raises.", "quantifier": "all result lists and budgets", "why_tests_cant": "stateful scan with an adapted tolerance; ranges over all lists", "anchors": ["statistic/stats_bootstrap.py: find_acceptable_result_for_budget, validate_cost"]}
{"id": "C47", "title": "Bootstrap confidence interval is ordered and taken from the sampled statistics", "statement": "Whatever resamples are drawn, the bootstrap returns from <= to, both are statistics of drawn resamples that contain only data values, at most a fraction alpha of the drawn statistics lies on either side of the interval, and the point value is the statistic of the data. With one stored value the drawn resamples are empty and the interval is minus infinity.", "quantifier": "all data sets, all random resamples", "why_tests_cant": "all random outcomes", "anchors": ["statistic/stats_bootstrap.py: bootstrap, sample_wr, average"]}
{"id": "C48", "title": "Ranking points are conserved", "statement": "For each scored metric exactly two kinds of points are given: a strong winner gets two points and then nobody else is awarded, otherwise every algorithm whose score is within the metric's relative tolerance of the best one, the winner included, gets one; the points do not depend on the order in which algorithms are listed.", "quantifier": "all score tables", "why_tests_cant": "ranges over all tables of intervals", "anchors": ["statistic/ranking.py: get_weak_winners, rank"]}
{"id": "C49", "title": "A failing simulation does not disturb the others", "statement": "If one worker fails, the results of all other simulations are still collected and summarised.", "quantifier": "all subsets of failing workers and all completion orders", "why_tests_cant": "every subset of failures and every completion order", "anchors": ["simulation/run_parallel.py: run_parallel", "simulation/worker.py: SimulationWorker.run"]}
{"id": "C50", "title": "Truncation of decision vectors rounds towards zero and is idempotent", "statement": "Truncating a coordinate to a number of mantissa bits gives, among the numbers with that many significant bits that do not exceed it in magnitude, the one of largest magnitude and of the same sign. Hence truncating is idempotent, leaves numbers that are short enough alone, and its relative error is below 2 / 2^bits.", "quantifier": "all floating point vectors and all bit counts", "why_tests_cant": "rounding over all numbers; sample inputs cannot show that no closer number exists", "anchors": ["algorithms/HGS/tools.py: trim_vector, trim_mantissa", "algorithms/HGS/classic/ClassicHGS.py: trim_vector, trim_mantissa"]}
{"id": "C51", "title": "Budget worker stores one result per requested budget", "statement": "For an increasing list of budgets, the worker stores for each budget exactly one result, whose cost is at least the budget, and the results' costs are non-decreasing.", "quantifier": "all drivers and all increasing budget lists", "why_tests_cant": "history of an arbitrary driver over an arbitrary list", "anchors": ["simulation/worker.py: BudgetWorker.run_driver", "algorithms/base/driver.py: BudgetRun"]}
{"id": "C52", "title": "Time worker stores the population that belongs to the slot", "statement": "The population stored for a time slot is the population the driver had after the step whose message is reported for the slot.", "quantifier": "all drivers and clocks", "why_tests_cant": "depends on how many slots elapse within one step", "anchors": ["simulation/worker.py: TimeWorker.run_driver", "algorithms/base/driver.py: TimeRun"]}
{"id": "C53", "title": "Weighted choice picks an item with positive weight, proportionally", "statement": "For a draw inside the total weight the chosen item has positive weight and the set of draws selecting an item is an interval whose length is the item's weight; a draw equal to the total is reported as an error.", "quantifier": "all weight lists and draws", "why_tests_cant": "all real draws and weight lists", "anchors": ["evotools/random_tools.py: weighted_choice"]}
{"id": "C54", "title": "Evaluation cost in OMOPSO, SPEA2, IBEA and SMS-EMOA", "statement": "The reported cost of OMOPSO, SPEA2, IBEA and SMS-EMOA grows by the number of individuals actually evaluated.", "quantifier": "all populations with any mixture of evaluated and fresh individuals", "why_tests_cant": "accounting invariant over all mixtures", "anchors": ["algorithms/OMOPSO/OMOPSO.py: calculate_objectives", "algorithms/SPEA2/SPEA2.py: calculate_objectives", "algorithms/IBEA/IBEA.py: _scale_objectives", "algorithms/SMSEMOA/SMSEMOA.py: calculate_objectives"]}
{"id": "C55", "title": "Reference fronts are attainable", "statement": "Every point of the reference front of a benchmark problem is the objective vector of some decision vector inside the problem's box.", "quantifier": "all points of each reference front, all problems with an analytic front", "why_tests_cant": "existence of a preimage over a continuous box, for exact real arithmetic", "anchors": ["problems/ZDT1/problem.py", "problems/ZDT2/problem.py", "problems/ZDT4/problem.py", "problems/ZDT6/problem.py", "problems/UF1/problem.py .. problems/UF10/problem.py", "problems/ackley/problem.py"]}
{"id": "C56", "title": "Reference fronts are optimal", "statement": "No decision vector inside the problem's box has an objective vector that dominates a point of the reference front.", "quantifier": "all decision vectors in the box (a continuum) and all reference points", "why_tests_cant": "ranges over a continuum of decision vectors", "anchors": ["problems/ZDT1/problem.py", "problems/ZDT2/problem.py", "problems/ZDT4/problem.py", "problems/ZDT6/problem.py", "problems/UF1/problem.py .. problems/UF10/problem.py", "problems/ackley/problem.py"]}
{"id": "C57", "title": "Splitting a front for display loses no point", "statement": "Splitting a front sorted by its first coordinate into connected pieces returns non-empty pieces whose concatenation is the front and such that a new piece starts exactly at a gap larger than the threshold.", "quantifier": "all sorted fronts and non-negative gap thresholds", "why_tests_cant": "all lists; last-group corner cases", "anchors": ["evotools/ea_utils.py: split_front"]}
{"id": "C58", "title": "Scaled coordinates of HGS round-trip and translate between levels", "statement": "For a non-zero scale, code and decode are inverse to each other on vectors of the right length; for a positive scale a vector lies in the box exactly if its scaled vector lies in the scaled domain; and scale turns the scaled vector of a point at one level into the scaled vector of the same point at another level.", "quantifier": "all boxes, all scales, all vectors", "why_tests_cant": "algebraic identities over all reals", "anchors": ["algorithms/HGS/HGS_optional.py: code, decode, scaled_domain, scale, code_all, decode_all, scale_all"]}
{"id": "C59", "title": "IBEA mating tournament prefers the fitter individual", "statement": "In a binary tournament the individual with the better indicator fitness wins with the larger probability.", "quantifier": "all pairs of individuals and all random outcomes", "why_tests_cant": "decision logic over all orders of fitness and draws", "anchors": ["algorithms/IBEA/IBEA.py: _mating_selection"]}
{"id": "C60", "title": "Crowding distance protects the extreme points", "statement": "In each front the individual with the smallest value in an objective gets infinite crowding distance and all distances are non-negative, so that the boundary point is preferred over any interior point of the same front.", "quantifier": "all fronts and objective values", "why_tests_cant": "all fronts with all tie patterns", "anchors": ["algorithms/NSGAII/NSGAII.py: _crowding", "algorithms/OMOPSO/OMOPSO.py: LeaderArchive.crowding"]}
{"id": "C61", "title": "Gaussian mutation and the interpolating crossovers stay in bounds", "statement": "Whatever is drawn, the Gaussian mutation keeps a vector of the box in the box, and the uniform and beta crossovers return a vector of the common length each coordinate of which lies between the parents' coordinates.", "quantifier": "all vectors, boxes and draws", "why_tests_cant": "continuous random draws cannot be enumerated", "anchors": ["algorithms/base/drivertools.py: old_mutate, old_crossover, crossover_beta"]}
{"id": "C62", "title": "NSGA-II never loses the best value of an objective", "statement": "Over any number of NSGA-II steps, for each objective and each individual that was ever in the population some current individual is at least as good in that objective, provided there are at least as many places as objectives; the population has the configured size plus the offspring after each step.", "quantifier": "all step sequences, all offspring, all set iteration orders", "why_tests_cant": "an invariant over unbounded histories involving rank, crowding and truncation together", "anchors": ["algorithms/NSGAII/NSGAII.py: step, _nd_sort, _crowding, _environmental_selection"]}
{"id": "C63", "title": "Pruning the OMOPSO leader archive keeps the extreme leaders", "statement": "When the leader archive is full and one leader has to go, a leader that alone has the smallest value of some objective is never the one removed.", "quantifier": "all archives with at least three members and all objectives", "why_tests_cant": "depends on the order in which ties between infinite crowding values are broken after repeated in-place sorting", "anchors": ["algorithms/OMOPSO/OMOPSO.py: LeaderArchive.prune, LeaderArchive.crowding"]}
{"id": "C64", "title": "An OMOPSO archive never loses ground", "statement": "After any sequence of insertions, for every particle that was ever offered to the archive there is a member that dominates or equals it (within the archive's tolerance), and every member is a particle that was offered.", "quantifier": "all insertion sequences of any length", "why_tests_cant": "unbounded histories; removals happen during iteration and may be followed by a refusal of the newcomer that caused them", "anchors": ["algorithms/OMOPSO/OMOPSO.py: Archive.add"]}
{"id": "C65", "title": "The OMOPSO leader archive is bounded", "statement": "The number of leaders never exceeds the initial population size, whatever particles are offered in whatever order.", "quantifier": "all insertion sequences", "why_tests_cant": "invariant over unbounded runs", "anchors": ["algorithms/OMOPSO/OMOPSO.py: LeaderArchive.add, LeaderArchive.prune"]}
{"id": "C66", "title": "An OMOPSO personal best is never dominated by a visited position", "statement": "At any time the personal best of a particle is one of the positions it visited, it dominates or equals each of its earlier personal bests, and no position visited so far dominates it.", "quantifier": "all trajectories of any length", "why_tests_cant": "unbounded trajectories; needs transitivity of dominance rather than particular values", "anchors": ["algorithms/OMOPSO/OMOPSO.py: update_personal_best, init_personal_best"]}
{"id": "C67", "title": "SPEA2 truncation removes the most crowded individual", "statement": "When more non-dominated individuals exist than the archive can hold, each removed individual is the one whose sorted list of distances to the others is lexicographically smallest; in particular it is one of a closest pair.", "quantifier": "all sets of at least two individuals and all distances", "why_tests_cant": "the tie-breaking recursion depends on how many candidates tie at each level; only special configurations reveal an early stop", "anchors": ["algorithms/SPEA2/SPEA2.py: choose_to_truncate, get_min"]}
{"id": "C68", "title": "SMS-EMOA never loses hypervolume", "statement": "From one step of SMS-EMOA to the next, the hypervolume of the population (the quantity the algorithm maximises) never decreases, whatever children are generated.", "quantifier": "all populations, all sequences of children, any hypervolume function that is order-independent, monotone and ignores dominated points", "why_tests_cant": "unbounded runs; needs an argument about the minimal contributor, not particular values", "anchors": ["algorithms/SMSEMOA/SMSEMOA.py: step, reduce_population, calculate_hypervolume_contribution"]}
{"id": "C69", "title": "IBEA scales objectives to the unit interval without reordering", "statement": "For any non-empty population the scaled value of each objective lies in [0, 1) on the population and orders any two individuals exactly as the objective does, also when all individuals have the same value.", "quantifier": "all populations and objective functions", "why_tests_cant": "quantified over all populations; the degenerate case of equal values must not divide by zero", "anchors": ["algorithms/IBEA/IBEA.py: _scale_objectives, _scale"]}
{"id": "C70", "title": "IBEA never discards an individual in favour of one it dominates", "statement": "If an individual dominates another one its indicator fitness is strictly larger in every population, hence the environmental selection never removes an individual while an individual it dominates is kept.", "quantifier": "all populations, objective values and selection sizes", "why_tests_cant": "needs monotonicity of the exponential of the indicator over all populations and all intermediate stages of the selection", "anchors": ["algorithms/IBEA/IBEA.py: EPlusIndicator, _calculate_fitness, _environmental_selection"]}
{"id": "C71", "title": "NSLS keeps the extreme individuals of the front that is cut", "statement": "When the last front does not fit, NSLS first takes the individuals with the smallest and largest value of every objective of that front, so with at least two places per objective no extreme value of the front is lost.", "quantifier": "all fronts, all objective values, all random samples", "why_tests_cant": "depends on the order of the front: running minima and maxima are collected as well and can crowd out the true extremes", "anchors": ["algorithms/NSLS/NSLS.py: next_generation"]}
{"id": "C72", "title": "NSGA-III variation keeps the box and never attaches objective values to a different vector", "statement": "For evaluated parents inside the box, crossover and mutation of NSGA-III never raise, produce children inside the box, and a child carries cached objective values only if they are the values of its own vector.", "quantifier": "all parents, all dimensions, all random draws, all non-negative distribution indices", "why_tests_cant": "the cached values go wrong only for particular combinations of skipped crossover and mutation; domain errors of the powers need all draws", "anchors": ["algorithms/NSGAIII/NSGAIII.py: simulated_binary_crossover, polynomial_mutation, get_beta_q"]}
{"id": "C73", "title": "NSGA-III assigns individuals to the nearest reference direction in a normalized space", "statement": "Normalized objective values lie in [0, 1); projection and rejection are the legs of a right triangle with the normalized objective vector as hypotenuse and the rejection is the distance to the line through the reference point; the cluster of an individual is the first reference point with the smallest rejection.", "quantifier": "all evaluation histories, all objective vectors, all reference points", "why_tests_cant": "geometric identities over the reals and a history invariant; samples cannot establish minimality over all points of a line", "anchors": ["algorithms/NSGAIII/NSGAIII.py: normalize, scalar_projection, scalar_rejection, clustering"]}
{"id": "C74", "title": "A driver can continue after its population has been assigned", "statement": "Assigning a population to a driver through the population property leaves a driver that can perform a step: whatever is missing for the new individuals is computed.", "quantifier": "all drivers with a population property, all populations, all draws", "why_tests_cant": "the missing objective values are only noticed in the step after an assignment; whether every branch recomputes them is a statement about all draws", "anchors": ["algorithms/NSGAIII/NSGAIII.py: population setter, step", "algorithms/NSLS/NSLS.py: population setter, step"]}
{"id": "C75", "title": "NSLS fills the remaining places with the most isolated individuals", "statement": "After the extremes of the cut front were taken, every further place goes to a member of that front whose smallest distance to everybody already chosen from it is largest, with the distances kept up to date after each choice.", "quantifier": "all fronts, all distance functions, all numbers of places", "why_tests_cant": "incrementally maintained minima over an unbounded number of choices", "anchors": ["algorithms/NSLS/NSLS.py: next_generation"]}
{"id": "C76", "title": "JGBL keeps the best values and never runs out of mates", "statement": "A JGBL step always completes (the list of non-dominated mates it draws from is never empty when it jumps); for every objective and every individual known before the step or created by its NSGA-II part, the population afterwards has a member at least as good in that objective; the population has its nominal size, or the nominal size plus the offspring if no jump took place.", "quantifier": "all populations with distinct individuals, all objectives, population sizes of at least the number of objectives, all random draws", "why_tests_cant": "crowding ties and set orders over arbitrary populations", "anchors": ["algorithms/JGBL/JGBL.py: step, jump_genes"]}
{"id": "C77", "title": "HGS sprouts only where nothing has been explored yet, and within its limits", "statement": "Only finished nodes above the last level get sprouts, at most `sproutiveness` in one step; a new sprout starts from a delegate that is not within the minimal distance of the centre of any node of its level that has already run; no node ever has more than max_sprouts_no living sprouts; while the root is alive nothing sprouts.", "quantifier": "all runs: any number of steps, all reports of the drivers, all configurations of at most three levels", "why_tests_cant": "invariant over unbounded histories and the recursion through a growing tree", "anchors": ["algorithms/HGS/classic/ClassicHGS.py: Node.release_new_sprouts, revive_root"]}
{"id": "C78", "title": "HGS trimming stops exactly the stagnant and the redundant nodes", "statement": "Trimming leaves finished nodes as they are; a living node without enough progress is stopped and may sprout and be revived later; any other living node is stopped, for good, exactly if its centre is within the minimal distance of a finished progressed-out node of its level or of an earlier node of its level that was alive; afterwards the living nodes of a level are pairwise apart and apart from the ripe ones.", "quantifier": "all runs: any number of steps, all reports of the drivers, all configurations of at most three levels", "why_tests_cant": "quantifies over all populations and histories; the order of the pairwise comparisons matters", "anchors": ["algorithms/HGS/classic/ClassicHGS.py: trim_not_progressing, trim_redundant, trim_all"]}
{"id": "C79", "title": "Truncated decision vectors stay in the box", "statement": "An individual whose vector lies in the problem's box still lies in the box after the truncation of its vector.", "quantifier": "all boxes, all vectors in them, all bit counts", "why_tests_cant": "depends on the relation of every bound to the truncation grid", "anchors": ["algorithms/HGS/tools.py: trim_vector", "algorithms/HGS/classic/ClassicHGS.py: trim_vector, Node.__init__"]}
{"id": "C80", "title": "Reference fronts leave no gap wider than their sampling distance", "statement": "For ZDT1, ZDT2, ZDT4, UF1, UF2, UF3, UF4 and UF7 every decision vector of the box is matched by a point of the reference front that is no worse in the second objective and at most 1/149 worse in the first; for UF5 by a point that is no worse in both.", "quantifier": "all decision vectors of the box (a continuum)", "why_tests_cant": "ranges over a continuum of decision vectors; a test would have to sample", "anchors": ["problems/ZDT1/problem.py", "problems/ZDT2/problem.py", "problems/ZDT4/problem.py", "problems/UF1/problem.py .. problems/UF5/problem.py", "problems/UF7/problem.py"]}
{"id": "C81", "title": "SPEA2 mating never prefers a dominated individual", "statement": "A SPEA2 mating tournament on an archive with at least two members returns one of the two members drawn, neither of which has a smaller fitness; if one of the two is dominated by nobody in the union of archive and population, the winner is dominated by nobody either.", "quantifier": "all archives, all draws, all objective values", "why_tests_cant": "depends on the relation between the fitness formula and dominance for every union", "anchors": ["algorithms/SPEA2/SPEA2.py: Tournament.__call__, calculate_fitnesses"]}
{"id": "C82", "title": "Hypervolume is exact for any number of objectives", "statement": "For every number of objectives the hypervolume routine returns the volume dominated by the given mutually non-dominated points and bounded by the reference point.", "quantifier": "all numbers of objectives, all finite sets of points, all reference points", "why_tests_cant": "the recursion skips work by cached areas and an 'ignore' mark whose correctness depends on the relative order of all points in all coordinates", "anchors": ["algorithms/base/hv.py: HyperVolume.compute, hvRecursive"]}
{"id": "C83", "title": "Better sets get at least as much hypervolume", "statement": "For at most three objectives the value of the hypervolume routine depends only on the set of the points: neither their order nor repetitions nor dominated points make a difference, and a set that weakly dominates another one never gets a smaller value.", "quantifier": "all pairs of finite point sets, all reference points", "why_tests_cant": "compares two runs of a stateful recursion on arbitrary different inputs", "anchors": ["algorithms/base/hv.py: HyperVolume.compute"]}
{"id": "C84", "title": "The hypervolume metric measures the whole result", "statement": "For one to four objectives the hypervolume metric of a result is the volume dominated by all its points, bounded by 50 in each objective, although it is computed from the non-dominated points only; a result covered by another one never gets a larger value.", "quantifier": "all results, all reference fronts of the right dimension", "why_tests_cant": "relates a filter, a recursion and a measure for arbitrary sets", "anchors": ["metrics/metrics.py: hypervolume, filter_not_dominated", "algorithms/base/hv.py"]}
{"id": "C85", "title": "The distributed HGS keeps a living, well-formed tree", "statement": "After the constructor and any sequence of calls the nodes of the distributed HGS form a tree of depth at most max_level, each node is either alive or ripe, and some node is alive; the last phase of a step revives all nodes and halves the progress thresholds exactly when no node is alive, and changes nothing otherwise.", "quantifier": "all call sequences and all message interleavings", "why_tests_cant": "an invariant of all histories of concurrent actors", "anchors": ["algorithms/HGS/distributed/actors.py", "algorithms/HGS/distributed/hgs_tasks.py: ReviveHgsTask", "algorithms/HGS/distributed/DistributedHGS.py: step"]}
{"id": "C86", "title": "A distributed metaepoch does the work of a sequential one", "statement": "In the distributed HGS the metaepoch and the phase that stops nodes without progress leave every node as the sequential HGS would leave it; the cost charged for a metaepoch is that of the most expensive living node, hence at most the cost the sequential HGS charges.", "quantifier": "all reachable trees, all driver reports, all message interleavings", "why_tests_cant": "equivalence of a concurrent and a sequential implementation over all states", "anchors": ["algorithms/HGS/distributed/hgs_tasks.py: MetaepochHgsTask, TrimNotProgressingHgsTask", "algorithms/HGS/distributed/node_tasks.py", "algorithms/HGS/classic/ClassicHGS.py: run_metaepoch, trim_not_progressing"]}
{"id": "C87", "title": "The distributed HGS sprouts within its limits", "statement": "In a step of the distributed HGS only ripe nodes above the last level get new sprouts, at most sproutiveness each, started from delegates that are near no node of the sprouts' level and no sprout released before; no node gets more than max_sprouts_no living sprouts.", "quantifier": "all reachable trees, all delegates, all message interleavings", "why_tests_cant": "depends on a chain of messages between a node, the supervisor and the nodes of the next level, for every tree", "anchors": ["algorithms/HGS/distributed/node_tasks.py: ReleaseSproutsNodeTask", "algorithms/HGS/distributed/hgs_tasks.py: ReleaseSproutsHgsTask"]}
{"id": "C88", "title": "The final population of the distributed HGS is complete", "statement": "finalized_population of the distributed HGS returns, in every execution, the populations of all nodes, each exactly once.", "quantifier": "all call sequences and all message interleavings", "why_tests_cant": "schedules of concurrent actors are unboundedly many", "anchors": ["algorithms/HGS/distributed/DistributedHGS.py: finalized_population", "algorithms/HGS/distributed/hgs_tasks.py: PopulationHgsTask"]}
{"id": "C89", "title": "HGS optimises the objectives of the problem", "statement": "With a fitness error of 0 on its level a node of HGS (classic or distributed) sees exactly the objective values of the problem, so that a vector dominating another one is also seen as dominating it; with an error e it sees each value up to the share e as long as the draw stays within three standard deviations.", "quantifier": "all problems, all decision vectors, all random draws", "why_tests_cant": "quantifies over all objective functions and all draws; the benchmark problems of the unit tests have positive objectives", "anchors": ["algorithms/HGS/classic/ClassicHGS.py: blurred_fitnesses", "algorithms/HGS/tools.py: blurred_fitnesses", "problems/ZDT3/problem.py"]}
{"id": "C90", "title": "Starting populations have the requested size and lie in the box", "statement": "gen_population returns the requested number of vectors, all of them in the box, and can return every population of the box; population_from_delegate returns, for a delegate in the box, max(1, size) vectors of the box, the first one being the delegate, and it never fails.", "quantifier": "all boxes, sizes, delegates and random draws", "why_tests_cant": "random draws from a continuum; reachability of every population is an existence statement", "anchors": ["evotools/ea_utils.py: gen_population", "algorithms/HGS/tools.py: population_from_delegate", "algorithms/HGS/classic/ClassicHGS.py: population_from_delegate"]}
{"id": "C91", "title": "rank orders a population from the best to the worst", "statement": "get_indivs_inorder yields each individual as often as it occurs in the population, and no individual is yielded before one that dominates it.", "quantifier": "all populations and all objectives", "why_tests_cant": "an order property for all partial orders given by objectives, with duplicates", "anchors": ["algorithms/base/drivertools.py: rank, get_indivs_inorder", "algorithms/IBEA/IBEA.py: get_indivs_inorder"]}
{"id": "C92", "title": "The Pareto dominance indicator compares results of the same budget and run number", "statement": "After loading the results of a problem, the reference set used for a result of name n in run number k consists exactly of the vectors which any algorithm recorded under the name n in its run number k (numbered as everywhere else, in the order of the run names) and which no such vector dominates.", "quantifier": "all result trees, all orders in which the operating system lists directories, all recorded vectors", "why_tests_cant": "the order of a directory listing is chosen by the file system and need not show up on the machine of the tests", "anchors": ["simulation/metrics_processor.py: pareto_dominance_indicator, preload_results_for_problem, filter_non_dominated_in_cache"]}
{"id": "C93", "title": "The Pareto dominance indicator is never stale", "statement": "However results are added and evaluated in turns, every evaluation returns for each result the share of the reference set of the results present now that it contains: neither stored reference sets nor stored indicators of an earlier evaluation with fewer results are used, and the check for changed parameters never rejects a stored value. Assumed: results are only added, new runs have later names, directories are listed in the order of names, no vector occurs twice in a result.", "quantifier": "all histories of additions and evaluations, all result trees", "why_tests_cant": "unboundedly many interleavings of simulations and evaluations over persistent files", "anchors": ["simulation/metrics_processor.py: pareto_dominance_indicator, filter_non_dominated_in_cache, clear_old_pdi_metrics, get_metric"]}
{"id": "C94", "title": "Generations of NSGA-II, SPEA2, IBEA and SMS-EMOA neither fail nor leave the box", "statement": "Started with N >= 2 vectors in the box, whatever is drawn and however often step and finalized_population are called: no call raises, all individuals stay in the box, and finalized_population returns exactly N vectors (SPEA2: after the first step). Between steps NSGA-II and IBEA hold N individuals plus the offspring of the last generation. Assumed: the trim function of the problem keeps vectors in the box.", "quantifier": "all populations, objectives, parameters, random draws and numbers of steps", "why_tests_cant": "unboundedly many generations with random draws from a continuum; the composition of selection, mating, variation and evaluation is only exercised on samples", "anchors": ["algorithms/NSGAII/NSGAII.py: step, finalized_population", "algorithms/SPEA2/SPEA2.py: step", "algorithms/IBEA/IBEA.py: step, finalized_population", "algorithms/SMSEMOA/SMSEMOA.py: step"]}
{"id": "C95", "title": "A budget simulation stores a full result for every budget", "statement": "For NSGA-II, SPEA2, IBEA and SMS-EMOA without a fitness archive, started with N >= 2 vectors of the box and with at least one child per step: for every list of positive budgets the simulation ends, stores one result for each budget, in order, each of exactly N vectors of the box and with a cost of at least the budget; a first budget above the starting cost is exceeded by less than the cost of one step (NSGA-II: the number of offspring, SPEA2: N, SMS-EMOA: N per child).", "quantifier": "all populations, objectives, parameters, random draws and lists of budgets", "why_tests_cant": "termination and overshoot for every budget and every sequence of random draws", "anchors": ["simulation/worker.py: BudgetWorker.run_driver", "algorithms/base/driver.py: BudgetRun", "algorithms/NSGAII/NSGAII.py", "algorithms/SPEA2/SPEA2.py", "algorithms/IBEA/IBEA.py", "algorithms/SMSEMOA/SMSEMOA.py"]}
{"id": "C96", "title": "Runs of OMOPSO neither fail nor leave the box, and their result consists of visited positions", "statement": "Started with N >= 1 vectors in the box, whatever is drawn and however often step is called: no call raises, all particles stay in the box, there are N of them and at most N leaders; finalized_population is not empty and consists of positions particles have had, and the personal best of a particle is a position of that particle which no position of that particle dominates. Without a fitness archive k steps cost N evaluations each after the first N, so that a budget simulation ends with a result for every budget. Assumed: the trim function keeps vectors in the box.", "quantifier": "all populations, objectives, parameters, random draws, numbers of steps and budgets", "why_tests_cant": "unboundedly many steps with random draws from a continuum", "anchors": ["algorithms/OMOPSO/OMOPSO.py", "algorithms/base/driver.py: BudgetRun", "simulation/worker.py: BudgetWorker.run_driver"]}
{"id": "C97", "title": "Runs of JGBL neither fail nor leave the box", "statement": "Started with N vectors in a box all of whose intervals have positive length, whatever is drawn and however often step and finalized_population are called: no call of JGBL raises, all individuals stay in the box, finalized_population returns exactly N vectors. Without a fitness archive a step costs the offspring plus six evaluations for every jumping individual, and a budget simulation ends with a full result for every budget. Assumed: the trim function keeps vectors in the box.", "quantifier": "all populations, objectives, parameters, random draws, set orders, numbers of steps and budgets", "why_tests_cant": "the jump branch depends on the shape of the first front and is rarely reached by tests; unboundedly many generations", "anchors": ["algorithms/JGBL/JGBL.py", "algorithms/NSGAII/NSGAII.py", "algorithms/base/driver.py: BudgetRun"]}
{"id": "C98", "title": "NSGA-II and JGBL never lose the best value of an objective", "statement": "If there are at least as many individuals as objectives, the result of NSGA-II or JGBL contains for each objective a vector which is no worse in this objective than any vector evaluated since the driver was created and any vector of the initial population.", "quantifier": "all populations, objectives, parameters, random draws, set orders and numbers of steps", "why_tests_cant": "relates the result to all evaluations of an unbounded run", "anchors": ["algorithms/NSGAII/NSGAII.py: step, _crowding, _environmental_selection, finalized_population", "algorithms/JGBL/JGBL.py: step"]}
{"id": "C99", "title": "Outliers are classified by nested fences and never exhaust the data", "statement": "For any non-empty series of measurements the analysis succeeds; inner and outer fences are the quartiles moved by 1.5 and 3 interquartile ranges; mild and extreme outliers are counted exactly; at most ceil((n-1)/4) values on each side are outliers and at least one value is none, so the mean without outliers is a mean of real measurements and lies within the fences. Nothing but the ends of the bootstrap interval depends on the order of the measurements or on the random draws, and changing unit or origin of the measurements changes the result accordingly and the classification not at all.", "quantifier": "all series of measurements, draws, permutations and positive scalings", "why_tests_cant": "quantifies over all data sets of all sizes; samples exercise one size at a time", "anchors": ["statistic/stats_bootstrap.py: yield_analysis"]}
{"id": "C100", "title": "The quality mark of a row of statistics", "statement": "Mean and standard deviation are those of the measurements. The mark is good if and only if at least 95 percent of the measurements are at most three standard deviations away from the mean. With ten runs or fewer it is good whatever the measurements are; eleven runs can get a bad mark.", "quantifier": "all series of measurements", "why_tests_cant": "that no series of at most ten numbers can fail the test is an inequality over all series", "anchors": ["statistic/stats_bootstrap.py: yield_analysis", "statistic/stats.py: statistics"]}
{"id": "C101", "title": "Runs of NSGA-III stay in the box, keep the population size and reach their budgets", "statement": "With at least two individuals no step of NSGA-III raises or diverges; between steps there are N individuals, all in the box and with their true objectives. A run of k steps costs between N and N + 2k floor(N/2) evaluations, exactly the latter if crossover_rate is 1. If each step crosses over at least one pair, a budget simulation stores N vectors for every budget at no less than the cost asked for; without crossover and mutation it never ends.", "quantifier": "all populations of at least two vectors of the box, objectives, parameters, random draws, set orders, numbers of steps, budgets", "why_tests_cant": "ranges over unbounded runs and all draws; the costs depend on which pairs happen to be crossed over", "anchors": ["algorithms/NSGAIII/NSGAIII.py: __init__, step, make_offspring_individuals, _calculate_objectives, finalized_population", "simulation/worker.py: BudgetWorker.run_driver"]}
{"id": "C102", "title": "Runs of NSLS stay in the box, have a fixed price and reach their budgets unless a step diverges", "statement": "With at least two individuals there are always N individuals, all in the box. The first step costs N evaluations and every step 2N evaluations per dimension. A step ends if the local search replaced somebody and never ends otherwise. If the local search always replaces somebody, which is so if no vector of the box dominates another one, a budget simulation stores N vectors for every budget at no less than the cost asked for.", "quantifier": "all populations of at least two vectors of the box, objectives, random draws, set orders, distances, numbers of steps, budgets", "why_tests_cant": "ranges over unbounded runs; non-termination cannot be observed by a test", "anchors": ["algorithms/NSLS/NSLS.py: __init__, step, local_search, next_generation, calculate_objectives, finalized_population", "simulation/worker.py: BudgetWorker.run_driver"]}
{"id": "C103", "title": "Runs of the island model stay in the box, lose nobody, add up the costs of the islands and reach their budgets", "statement": "A step of IMGA lets every island make its epoch, adds up the costs of the islands and then exchanges individuals so that none is lost or duplicated and every island keeps its size. The cost after k > 0 steps is the sum over the islands of the cost of their construction and of k epochs. On a torus with islands of any of the eight drivers, a budget simulation whose steps cost something produces, for every positive budget, N vectors of the box at no less than the cost asked for; with OMOPSO, whose result is its archive, the number of vectors is at least that of the islands. It never ends if no island's step costs anything, and raises if epoch_length is 0.", "quantifier": "all populations of vectors of the box, numbers of islands, torus widths, migrants, epoch lengths, objectives, random draws, choices of migrants, numbers of steps, budgets", "why_tests_cant": "ranges over unbounded runs of several interacting drivers with all draws", "anchors": ["algorithms/IMGA/IMGA.py: __init__, step, finalized_population, epoch, migration", "simulation/worker.py: BudgetWorker.run_driver"]}
{"id": "C104", "title": "The decision vectors and the objective values saved in a result file belong together", "statement": "Every result file holds the decision vectors returned by the driver and, in the same order, their objective values. Violated for IMGA: its result is an iterator, which is used up by computing the objective values, so that every file has N vectors of objective values, no decision vector and no length.", "quantifier": "all drivers, simulations, budgets and objective functions", "why_tests_cant": "the returned object looks right wherever it is looked at once; the loss shows only in the stored file", "anchors": ["simulation/worker.py: BudgetWorker.run_driver, TimeWorker.run_driver", "algorithms/IMGA/IMGA.py: finalized_population", "simulation/serializer.py: Result", "statistic/stats.py: statistics"]}
{"id": "C105", "title": "OMOPSO does not change the vectors its caller passes to it", "statement": "Constructing an OMOPSO driver and making any number of steps leaves every list that existed before as it was, and a list that occurs twice in the population counts as two equal vectors. Violated with the default trim function: the particles use the lists of the caller as their positions, so every move changes the caller's population, and a list passed twice is moved twice per step. It holds for trim functions which make new lists, such as that of HGS.", "quantifier": "all populations (as lists in memory, possibly shared), trim functions, objectives, draws and numbers of steps", "why_tests_cant": "aliasing is invisible in tests that look only at the driver; the claim ranges over all runs and memory layouts", "anchors": ["algorithms/OMOPSO/OMOPSO.py: __init__, Individual.__init__, move, step", "algorithms/HGS/tools.py: trim_vector"]}
{"id": "C106", "title": "Whole runs of HGS stay in the box, and every vector is paid for once per level", "statement": "A run of the sequential HGS, from the construction through any number of metaepochs with sprouting, trimming and revival, raises no exception, and its result is in the box and has at least population_sizes[0] vectors from the first step on; every node that has run contributes exactly the population size of its level. With NSGA-II in the nodes the cost, together with what the drivers of the newest sprouts have charged already, is the sum over the levels of the cost modifier times the number of entries of the archive shared on that level, however noisy the objective values of the level are; if trimming leaves finitely many vectors the cost is bounded, so that a larger budget is never reached. With SPEA2, which does not write to the archive, every step costs at least the smallest cost modifier times the smallest population size, so that every budget is reached. The same holds with IBEA, where the individuals and their children are charged, and with SMS-EMOA, where the population size is charged for every child. What is said about NSGA-II holds for JGBL, NSGA-III and NSLS, too. With OMOPSO, whose result is its archive, there is at least one vector, and every budget is reached.", "quantifier": "all populations, numbers of steps, objective values (blurred anew in every step), random draws, shuffles, set orders, hypervolumes and trees; any driver that keeps a stated contract", "why_tests_cant": "the tree, the drivers and the shared archives evolve together over unboundedly many steps with random sprouting", "anchors": ["algorithms/HGS/classic/ClassicHGS.py: HGS.__init__, step, run_metaepoch, finalized_population, Node", "algorithms/HGS/distributed/message.py: DefaultHGSMessageAdapter", "algorithms/NSGAII/NSGAII.py", "algorithms/SPEA2/SPEA2.py", "algorithms/SPEA2/message.py: SPEA2HGSMessageAdapter", "algorithms/IBEA/message.py: IBEAHGSMessageAdapter", "algorithms/SMSEMOA/message.py: SMSEMOAHGSMessageAdapter"]}
{"id": "C107", "title": "The ranking adds up the points of all problems", "statement": "The command rank prints, for exactly those of the six ranked metrics for which some algorithm has a result that counts (the group with the largest budget whose mean cost is at most the largest budget plus 500), one row; the row lists without repetition and by decreasing number of points exactly the algorithms with points, and these are the sum over the problems of two points for an algorithm alone within the tolerance of the best mean, or one point for each algorithm if there are several. No problem with a result that counts is lost: it contributes at least two points to every row. One winner is printed for every such problem and metric, and nobody has a better mean. The order in which directories are listed does not change the points. The command fails if and only if some algorithm directory holds no result.", "quantifier": "all collections of problems, algorithms, budgets and metric values, all listing orders", "why_tests_cant": "the tables depend on unboundedly many results read through one-shot generators, in whatever order the file system lists the directories", "anchors": ["statistic/ranking.py: rank, get_weak_winners, best_func, winner_tolerance", "statistic/stats_bootstrap.py: validate_cost, find_acceptable_result_for_budget", "simulation/metrics_processor.py: yield_metrics", "simulation/serialization.py: each_result"]}
{"id": "C108", "title": "Every vector of the box can be evaluated", "statement": "For each of the 21 benchmark problems and every decision vector inside the problem's box, every objective function returns a real number: no index is out of range, no division by zero, no root or power of a negative number, no overflow of the exponential function. The vector of all objectives has the values of the formulas that the other properties of the problems are about.", "quantifier": "all 21 problems, all decision vectors of their boxes, all objectives", "why_tests_cant": "the vectors form a continuum; a division by zero or a root of a negative number can occur at isolated points that sampling misses", "anchors": ["problems/*/problem.py: fitnesses, dims"]}
{"id": "C109", "title": "What run budget stores, summary counts", "statement": "After `run budget` with any selection of problems and algorithms, -N n and any budgets, in an empty results directory, `summary` prints exactly one row for each selected problem, algorithm and budget, with the number n, however the queue was shuffled and whatever order the operating system lists directories in. In general the number of a row is the number of runs that have a result for this budget, a run of the command adds to it the number of its cases with this budget, and a command that is interrupted by a failing driver leaves everything stored so far in a state that can be listed.", "quantifier": "all plans with n at most 1000000, all budgets, all queue orders, all clocks and draws, all directory orders, all earlier contents that look as the program leaves them", "why_tests_cant": "identifiers depend on clock and random numbers, the queue on a shuffle, the listing on the file system; a test sees one combination of them", "anchors": ["simulation/run_parallel.py: run_parallel", "simulation/worker.py: BudgetWorker.run_driver", "simulation/serialization.py: each_result", "statistic/summary.py: analyse_results", "simulation/factory.py: create_simulation"]}
{"id": "C110", "title": "The shipped configuration can be run", "statement": "Each of the 32 listed algorithms is assembled for every problem module that has parameters and a non-empty pareto_front, with exactly the documented arguments, and its class accepts them without a TypeError; so do the drivers that IMGA creates for its islands and HGS for the nodes of each of its three levels, whatever population they get. An island or node overrides exactly its own arguments, everything else comes from the driver's configuration. A call of a class is accepted exactly when all arguments without a default are given and no unknown one. With the shipped numbers, runs of HGS with SPEA2, IBEA or SMS-EMOA on any box never raise, keep 64 results in the box and spend at least 10, 15 or 50 evaluations per step.", "quantifier": "all problem modules with parameters and a front, all listed algorithms, all populations of nodes and islands, all sets of keyword arguments, all draws", "why_tests_cant": "the arguments come from five layers of tables and functions and are bound by chains of constructors with **kwargs; a test that builds one algorithm says nothing about the other combinations, and a wrong key shows only when the node of that level is created in the middle of a run", "anchors": ["simulation/run_config.py: algo_base, init_alg___HGS, standard_variance", "simulation/factory.py: prepare, prepare_with_driver", "algorithms/base/driver.py: Driver, ComplexDriver", "algorithms/HGS/HGS.py: HGS.__init__", "algorithms/HGS/classic/ClassicHGS.py: Node.__init__", "algorithms/IMGA/IMGA.py: Island.__init__"]}
{"id": "C111", "title": "The ranking by budget counts the problems won", "statement": "For every result directory in which problems, algorithms and budgets occur once and every result has non-negative measurements, 'rank_details' (detailed_rank) does not fail. It prints one row for exactly the budgets and ranked metrics for which some problem has a result that did not cost more than 500 evaluations above its budget, by budget and then by metric. A row lists by decreasing number, without repetition, exactly the algorithms that win a problem, with the number of problems they win, and the numbers add up to the number of problems with such a result. A problem is won by the first listed of the algorithms with the best mean; hence among equals the order in which the file system lists the directories decides.", "quantifier": "all boards of results, all ordered fields, all listing orders", "why_tests_cant": "which result counts depends on the cost of each group, and the counters are filled through three dictionaries keyed by tuples; sample directories rarely contain equal scores, expensive results and missing budgets together", "anchors": ["statistic/ranking.py: detailed_rank", "statistic/stats_bootstrap.py: validate_cost, yield_analysis"]}
{"id": "C112", "title": "The table shows the leaders of every metric", "statement": "For result directories with different names that are tidy as in C111, 'table' (table_rank) does not fail. The table has one row for every ranked metric for which some problem of some directory has a result of the budget 40, in the order of metrics_order, and no other row. A row has one cell per directory, in their order. A cell shows at most two algorithms with their points for all problems of that directory (2 for a sole winner, 1 for each of several within tolerance), by decreasing points; nobody left out has more points than someone shown; a cell has room left only if nobody else has points; and an algorithm carries a star exactly if somebody who is not shown has as many points.", "quantifier": "all lists of result directories, all ordered fields, all listing orders", "why_tests_cant": "the star depends on a count over all values together with whether the two shown are equal, and the points are accumulated over problems in nested default dictionaries; a test checks one table", "anchors": ["statistic/ranking.py: table_rank, format_result, get_weak_winners"]}
{"id": "C113", "title": "Whole runs of the distributed HGS stay in the box, and every budget is reached", "statement": "The distributed HGS runs with any of the eight drivers in its nodes, for any draws, and with objective values blurred anew in every step (not blurred for OMOPSO, NSGA-III and NSLS). Whatever sequence of calls (steps, populations, states) the user makes, no driver raises, and in whatever order the messages between the actors arrive, all calls are answered in the end, without deadlock or failure. All vectors of every population answered are in the box, and there are at least population_sizes[0] of them when the first call is a step (with OMOPSO, whose result is its archive, at least one). Every node has no population yet or one of exactly the size of its level (with OMOPSO a nonempty one), in the box. Each step costs at least the smallest cost of a generation times the smallest cost modifier, so that every budget is reached; this holds for NSGA-II as well, which in the sequential HGS may stop to cost anything (C106), since the nodes of the distributed one have no archive. With NSGA-III it needs a pair of parents to be crossed in every step; with NSLS it needs the local search to find a trial that is not dominated (C102), without which no step ends.", "quantifier": "all drivers that keep the contract and the eight shipped ones; all call sequences, message orders, draws, populations, boxes, parameters of the levels, objective functions", "why_tests_cant": "the actors run concurrently and the drivers in them are random; a test sees one order of messages and one sequence of draws for one problem", "anchors": ["algorithms/HGS/distributed/actors.py: NodeActor, HgsNodeSupervisor", "algorithms/HGS/distributed/node_tasks.py", "algorithms/HGS/distributed/hgs_tasks.py", "algorithms/HGS/distributed/DistributedHGS.py"]}
{"id": "C114", "title": "A budget simulation of HGS ends and stores a full result for every budget", "statement": "A budget simulation (BudgetWorker) of the sequential HGS stores one result for every budget of the list, in order: the population and cost of HGS after some number of steps. The cost is no less than the budget, and for budgets in increasing order no smaller number of steps would have done. All vectors are in the box of the problem, and there are at least population_sizes[0] of them for a positive budget. With SPEA2, OMOPSO (results with at least one vector), IBEA or SMS-EMOA in the nodes and the shipped numbers the simulation ends, without exception, within the largest budget divided by 10, 10, 15 or 50 of steps. With NSGA-II, NSGA-III, NSLS and JGBL it stores the same if it ends, but it need not end: if trimming leaves only finitely many vectors, a budget above the cost of all of them on all levels is never met and the worker goes on for ever.", "quantifier": "all lists of budgets, draws, populations, boxes, objective functions; drivers that keep the contract, and the eight shipped ones", "why_tests_cant": "a test runs a few budgets with a few draws; that every simulation ends, and that one with an archive may not, is about all of them", "anchors": ["simulation/worker.py: BudgetWorker.run_driver", "algorithms/base/driver.py: BudgetRun", "algorithms/HGS/HGS.py: HGS", "algorithms/HGS/classic/ClassicHGS.py: ClassicHGS.step", "algorithms/HGS/classic/ClassicHGS.py: ClassicHGS.finalized_population"]}
{"id": "C115", "title": "On islands the normalized objectives of NSGA-III lie between 0 and 1", "statement": "In every step of NSGA-III on an island of IMGA every normalized objective of every new and old individual lies between 0 and 1. Violated: an immigrant is not taken into the ideal point, so its normalized objectives can be negative. They are always below 1, nobody's normalization divides by zero, and they are not negative for the new individuals and for everybody who has no objective below the ideal point.", "quantifier": "all populations, boxes, objective functions, parameters, numbers of islands, torus widths, migrants, epoch lengths, draws and numbers of steps", "why_tests_cant": "whether an immigrant lies below the ideal point depends on the run; the bounds are about all runs", "anchors": ["algorithms/NSGAIII/NSGAIII.py: update_ideal_point, normalize", "algorithms/NSGAIII/message.py: NSGAIIIIMGAMessageAdapter", "algorithms/IMGA/IMGA.py: migration"]}
{"id": "C116", "title": "Figures over time show every result", "statement": "The figures over time contain one figure for every problem with results and every ranked metric, with one curve per algorithm that has results, which goes through the mean at every stored time, from left to right, within the visible range. Violated: one result of SPEA2 or SMSEMOA, alone or with IMGA, HGS or DHGS, makes the whole command fail, as does a directory without results; and the visible range ends at the largest time of the algorithm that is listed first, so that later points of the others are cut off. For results of the 24 other algorithms the figures and curves are as described.", "quantifier": "all results directories with unique problems, algorithms and times and a value of every metric for every result", "why_tests_cant": "which results are stored, and in which order they are listed, differs from directory to directory; the theorems are about all of them", "anchors": ["plots/pictures.py: pictures_time, plot_results", "simulation/serialization.py: TimeResultsExtractor"]}
{"id": "C117", "title": "The summary figures show the algorithms in the order of their scores", "statement": "The summary contains one figure for every ranked metric which shows for every problem each algorithm with a counted result at log(|mean| + 1) divided by the (slightly increased) largest such value, or undivided for the pdi; the heights are in the order of the absolute means, not negative and, but for the pdi, below 1. Violated: a problem without counted results listed after one with them, and results for ackley or kursawe, make the command fail; SPEA2 and SMSEMOA are not shown though they count for the scale; and the window of the hypervolume figure hides everything below 0.98.", "quantifier": "all results directories with unique problems, algorithms and budgets and a value of every metric for every result; every function for the logarithm (for the order: monotone from 1 on with log 1 = 0)", "why_tests_cant": "the scale depends on all results of a problem together; the theorems are about all contents of the directory", "anchors": ["plots/pictures.py: pictures_summary, plot_results_summary"]}
{"id": "C118", "title": "The violins show the samples that count", "statement": "For every problem and ranked metric the violin figure shows for every algorithm with a counted result the distribution of its values, with a small number instead of zeros, and there is no figure without violins. Violated: the samples of SPEA2 and SMSEMOA, alone or with IMGA, HGS or DHGS, and those that are zero throughout (for the distances to the front: perfect results) are left out. All other samples are shown.", "quantifier": "all results directories with unique problems, algorithms and budgets and a value of every metric for every result", "why_tests_cant": "that a sample is left out shows only in a picture, and only for some values; the theorems are about all values", "anchors": ["plots/violin.py: violin"]}
{"id": "C119", "title": "The figures of the best fronts show the best run", "statement": "For every problem best_fronts draws one figure with the objective vectors of the best of the counted results of every algorithm that has such results. Violated: it draws the first one that is stored, of which every vector can be dominated by another run for the same budget; algorithms with SMSEMOA are left out; and one algorithm directory without results makes the command fail. For the 28 other algorithms exactly the vectors of the first counted run are drawn, by their first two or three objectives.", "quantifier": "all contents of the results directories, with fronts of any size and number of objectives", "why_tests_cant": "which run is stored first has nothing to do with its quality; that another one is better shows only for some results", "anchors": ["plots/best_fronts.py: best_fronts, plot_results"]}
{"id": "C120", "title": "The progress reports tell the share done and the time left", "statement": "After every finished simulation the report gives the share of the simulations that have finished and, as hours, minutes and seconds, the time left if the others take as long as those finished on average. Violated: the share is always one simulation behind, so that the last report does not say 100%, the time left is computed from that share, and the minutes are not reduced by the hours, so that from an hour on they are wrong. What is printed are the share and the right hours and seconds for one simulation less, and the right minutes exactly if less than an hour (up to whole days) is left.", "quantifier": "all numbers of simulations and all durations", "why_tests_cant": "the durations are those of real runs, and an hour must be left; the theorems are about all durations", "anchors": ["simulation/run_parallel.py: log_simulation_stats, process_result"]}
{"id": "C121", "title": "Floating point does not break variation and starting populations", "statement": "With Python's rounding after every operation, mutate and crossover turn vectors of floats of the box into vectors of floats of the box without any NaN or infinity on the way; mutation moves a selected coordinate not up for draws up to 1/2 and not down for larger ones, and leaves the others; the two candidates of crossover lie on both sides of the rounded midpoint of the parents in every coordinate; gen_population draws vectors of the box for every problem of the repository.", "quantifier": "all boxes of floats, all vectors of floats in them, all values of random.random(), all rates and distribution indices, all libraries of powers that keep [0, 1] and the half-line from 1 on; all 21 problems", "why_tests_cant": "the results at the ends of the intervals depend on the last digit of intermediate results, which only very rare draws reveal", "anchors": ["algorithms/base/drivertools.py: mutate, crossover, get_beta_q", "evotools/ea_utils.py: gen_population"]}
{"id": "C122", "title": "The jumps of JGBL stay in the box in floating point", "statement": "With Python's rounding after every operation, the six children of every jumping individual are vectors of floats of the box if the population is. Violated for UF11 and UF12: the upper ends of five dimensions are exceeded, and recombination of such a gene gives a NaN that is turned into the lower end.", "quantifier": "all boxes of floats in which lower end plus length does not exceed the upper end, among them those of all problems other than UF11 and UF12; all populations and draws", "why_tests_cant": "the excess is one unit in the last place and needs a gene at the upper end in one of five dimensions of two problems", "anchors": ["algorithms/JGBL/JGBL.py: convert_to_ratio, decode_ratio, cut_and_paste, copy_and_paste, jump_genes", "algorithms/base/drivertools.py: crossover", "problems/UF11/problem.py", "problems/UF12/problem.py"]}
{"id": "C123", "title": "The benchmark problems are the published ones", "statement": "The objective functions and boxes of the benchmark problems are those of the literature (ZDT1-4, ZDT6; UF1-10 of the CEC 2009 competition with 30 variables; Kursawe; Ackley), so that results can be compared with published ones. Violated: UF5 has 10 variables instead of 30, UF6 has 30 bumps instead of 2, UF8-10 average over the complements of the published sets of indices, and the constant of ZDT6 is rounded to six digits.", "quantifier": "all decision vectors of the box of each problem", "why_tests_cant": "a wrong index set or constant leaves the values at the optimum unchanged, which is where the problems are looked at", "anchors": ["problems/ZDT1/problem.py", "problems/ZDT2/problem.py", "problems/ZDT3/problem.py", "problems/ZDT4/problem.py", "problems/ZDT6/problem.py", "problems/UF1/problem.py", "problems/UF2/problem.py", "problems/UF3/problem.py", "problems/UF4/problem.py", "problems/UF5/problem.py", "problems/UF6/problem.py", "problems/UF7/problem.py", "problems/UF8/problem.py", "problems/UF9/problem.py", "problems/UF10/problem.py", "problems/kursawe/problem.py", "problems/ackley/problem.py"]}
{"id": "C124", "title": "Floating point does not break the moves of OMOPSO, NSLS and NSGA-III", "statement": "With Python's rounding after every operation: all positions an OMOPSO swarm ever visits are vectors of floats of the box and no speed exceeds 16 times the width of its dimension, however long the run; the trial vectors of NSLS are vectors of floats of the box; the children of NSGA-III are vectors of floats of the box; its random reference points have coordinates in [0, 1] that are not all 0, so the rest left for the last coordinate is never negative; and its normalized objectives lie in [0, 1].", "quantifier": "all boxes of floats, starting populations, values of random.random(), numbers of steps, choices of personal bests and leaders among the visited positions, coordinatewise trim functions that keep the intervals; all libraries of powers that keep [0, 1]", "why_tests_cant": "speeds feed back into themselves over a whole run, and whether rounded partial sums exceed 1 depends on the last digit", "anchors": ["algorithms/OMOPSO/OMOPSO.py: compute_speed, move", "algorithms/NSLS/NSLS.py: local_search", "algorithms/NSGAIII/NSGAIII.py: simulated_binary_crossover, polynomial_mutation, generate_reference_point, normalize"]}
{"id": "C125", "title": "Floating point does not break the choice of layers, the exponents of IBEA and the crowding of NSGA-II", "statement": "With Python's rounding after every operation: weighted_choice never reaches its assertion and returns an item of positive weight, for weights whose sum, added up one after the other, is at least 1, so the island model always finds a layer for its migrants; the scaled objectives of IBEA lie in [0, 1] and are never in the wrong order, and the argument of math.exp lies between -32 and 32, so no OverflowError is raised; the crowding distance of NSGA-II lies between 0 and twice the number of objectives, nothing is divided by 0, the sort key is positive and never larger for a larger distance.", "quantifier": "all weights with a sum of at least 1, numbers of layers, values of random.random(), objective values, populations, kappa from 1/32 on (0.05 is shipped), up to 2^51 objectives", "why_tests_cant": "the assertion is reached only if a rounded product equals the rounded sum, which no choice of samples rules out; the bound of the exponents has to hold for the worst quotient", "anchors": ["evotools/random_tools.py: weighted_choice", "algorithms/IMGA/IMGA.py: weights, chosen_layer", "algorithms/IBEA/IBEA.py: _scale, _calculate_fitness, _environmental_selection, EPlusIndicator", "algorithms/NSGAII/NSGAII.py: _crowding, _environmental_selection"]}
{"id": "C126", "title": "In floating point, a SPEA2 fitness above 1 means dominated", "statement": "With Python's rounding after every operation, the fitness of an individual of SPEA2 exceeds 1 exactly if it is dominated by another of the union (the archive is filled with those of at most 1 first).", "quantifier": "all unions of at least two individuals, objective vectors, distance functions with values of at least 0", "why_tests_cant": "the density added to the integer raw fitness has to survive the rounding, which depends on how far apart the objective vectors are", "anchors": ["algorithms/SPEA2/SPEA2.py: calculate_fitnesses, environmental_selection"]}
{"id": "C127", "title": "The floating point error of the hypervolume is bounded", "statement": "With Python's rounding after every operation, the hypervolume of n points with one to three objectives differs from the volume they dominate by at most 2n + 7 relative errors of 2^-53 (for the metric: from the volume dominated by all points of the result, with the reference point 50), so at most by (2n + 7) / 2^52 times the volume. Consequently, of two results the one with the volume larger by more than these errors gets the larger value, and a value larger by more than these errors means a larger volume.", "quantifier": "all lists of points whose coordinates are floats (dominated, repeated, tied points and points beyond the reference point included), all reference points of floats from 1 on, one to three objectives", "why_tests_cant": "the errors of n summands and of nested areas accumulate; a test compares with a value computed in the same arithmetic", "anchors": ["algorithms/base/hv.py: HyperVolume.compute, hvRecursive, preProcess", "metrics/metrics.py: hypervolume"]}
{"id": "C128", "title": "In floating point, a result that covers another one never gets the smaller hypervolume", "statement": "With Python's rounding after every operation: if every point of a result is covered by a point of another one, the other one does not get a smaller value of the hypervolume metric. Violated: a further non-dominated point can decrease the value in its last digit.", "quantifier": "all pairs of results whose coordinates are floats", "why_tests_cant": "whether the value decreases depends on the last digits of sums and products", "anchors": ["metrics/metrics.py: hypervolume", "algorithms/base/hv.py: HyperVolume.compute"]}
{"id": "C129", "title": "The floating point errors of the other quality indicators are bounded", "statement": "With Python's rounding after every operation: GD and IGD of n points with d objectives differ from the exact values by at most (n + d + 9) / 2 relative errors of 2^-53 (AHD with the larger n), so of two results the one that is closer by more than these errors gets the smaller value; the value is 0 exactly if every point lies on the other set. The extent differs from the exact one by at most (d + 4) / 2 relative errors. The additive epsilon is the exact one rounded once, and it is positive exactly if some solution is not weakly dominated by a point of the front.", "quantifier": "GD, IGD, AHD, extent: all non-empty sets of points whose coordinates are floats that are 0 or at least 2^-400 in absolute value, fewer than 2^53 points, every `pow` whose squares are off by at most one unit in the last place, every correctly rounded square root; epsilon: all non-empty sets of points (the sign: of floats), at least one objective", "why_tests_cant": "the errors accumulate over the sum of all points, and the cancellation in the differences depends on the coordinates; a test compares with a value computed in the same arithmetic", "anchors": ["metrics/metrics_utils.py: distance, euclid_sqr_distance, extent", "metrics/epsilon.py: Epsilon.epsilon", "metrics/metrics.py: generational_distance, inverse_generational_distance, average_hausdorff_distance, epsilon, extent"]}
{"id": "C130", "title": "Rounding makes SMS-EMOA lose at most a tiny fraction of the hypervolume", "statement": "In floating point, one child added and one individual removed cost a population of n individuals at most the fraction (n + 5) / 2^49 of the volume it dominates, so after k children it still dominates at least (1 - (n + 5) / 2^49)^k of the volume at the beginning (for 100 individuals and a million children more than 99.9999 percent); the individual removed comes from the last front and has the smallest computed contribution, and the size of the population stays the same.", "quantifier": "all populations, all sequences of children, all objective values that are floats, one to three objectives, all reference points of floats from 1 on, all iteration orders of sets, populations below 2^48", "why_tests_cant": "contributions are differences of nearly equal numbers, so their relative error is unbounded and the wrong individual can be removed; that the loss is still small is a statement about all of them", "anchors": ["algorithms/SMSEMOA/SMSEMOA.py: SMSEMOA.reduce_population, SMSEMOA.calculate_hypervolume_contribution, SMSEMOA.step", "algorithms/base/hv.py: HyperVolume.compute"]}
{"id": "C131", "title": "In floating point, NSGA-II never loses the best value of an objective", "statement": "With Python's rounding after every operation: in each front of at least two individuals exactly one member with the smallest value per objective has an infinite crowding distance, all other distances lie between 0 and twice the number of objectives, and nobody of infinite distance is discarded while somebody of finite distance of the same front is kept; the selection keeps the requested number, smaller ranks first; over any number of steps, for each objective and each individual that was ever in the population some current individual is at least as good in that objective, provided there are at least as many places as objectives.", "quantifier": "all step sequences, offspring, objective values and set iteration orders, up to 2^51 objectives", "why_tests_cant": "that the rounded key of a finite distance can never reach the key 0 of an infinite one is a statement about all fronts", "anchors": ["algorithms/NSGAII/NSGAII.py: NSGAII._crowding, NSGAII._environmental_selection, NSGAII.step"]}
{"id": "C132", "title": "In floating point, IBEA discards an individual in favour of one it dominates only if the two are nearly equal", "statement": "With Python's rounding after every operation: the environmental selection returns min(size, number of candidates) of the candidates and discards them one at a time, each time one whose indicator fitness (minus the sum of the losses math.exp(-I/(c kappa)) inflicted by the others) is within 2^-7 of the smallest, and the fitness stored for the survivors is right up to 2^-8. If an individual is discarded while one that is nowhere better is kept, the two differ in no objective by more than a hundredth of kappa of the range of the candidates (plus 2^-52).", "quantifier": "all populations of up to 128 candidates, all real objective values, all kappa from 0.05 on, every math.exp that is monotone, exact at 0 and accurate to 2^-50 for exponents up to 700 in absolute value", "why_tests_cant": "the accumulated rounding errors of up to 127 corrections of terms as large as exp(20) depend on all individuals and the order in which they leave", "anchors": ["algorithms/IBEA/IBEA.py: IBEA._scale_objectives, IBEA._calculate_fitness, IBEA._environmental_selection, EPlusIndicator.__call__"]}
{"id": "C133", "title": "In floating point, the outlier report of a group of runs is as in exact arithmetic", "statement": "With Python's and numpy's rounding after every operation, yield_analysis of non-empty data does not fail: the quartiles are quartiles of the data and ordered, the fences are nested, the two numbers count exactly the values outside of the reported fences, at most \u230a(n+2)/4\u230b values on either side are outliers, at least one value is none, the mean without outliers is the mean of the values within the inner fences up to rounding and lies between these, and no value of the report depends on the order of the runs.", "quantifier": "all lists of fewer than 2^53 floats that are 0 or at least 2^-300 in absolute value, all draws of the bootstrap", "why_tests_cant": "whether the first quartile stays below the third one depends on how the last bits of two products and their sum are rounded", "anchors": ["statistic/stats_bootstrap.py: average, yield_analysis"]}
{"id": "C134", "title": "In floating point, the quality mark is bad only if more than a twentieth of the runs is far from the mean", "statement": "With Python's rounding after every operation, yield_analysis reports the mean and the standard deviation up to rounding, the mark is good if and only if at least 95 percent of the values lie within the reported bounds mean \u00b1 3 stdev, and with at most ten values the mark is always good.", "quantifier": "all lists of fewer than 2^47 floats that are 0 or at least 2^-300 in absolute value, all draws of the bootstrap, every square that is accurate to 2^-52 and the correctly rounded square root", "why_tests_cant": "the extreme value lies exactly on the bound in the worst case, so the last bit of the mean, of the variance and of the root decides", "anchors": ["statistic/stats_bootstrap.py: average, yield_analysis"]}
{"id": "C135", "title": "Converting stored JSON results to pickles loses nothing", "statement": "dir_walker.py (walk with json2pickle) replaces every .json file below the results directory by a .pickle file of the same name with the value that the file contained, and changes no other file. However it ends, also with an exception in the middle, what a .json file contained is still there, in the .json or in the .pickle file.", "quantifier": "all file trees, all contents, all orders in which the tree is walked", "why_tests_cant": "the property is about all directory trees, including those with name clashes and unreadable files, and about the state left behind by an exception", "anchors": ["dir_walker.py: walk, json2pickle"]}
{"id": "C136", "title": "Clearing large budgets removes exactly the files with large budgets", "statement": "walk with clear_budget removes the files below the results directory whose name begins with a number above 4500 (up to the first dot) and leaves everything else as it is. However it ends, only such files have been removed.", "quantifier": "all file trees, all file names, all orders in which the tree is walked", "why_tests_cant": "a deleted result cannot be brought back; tests try a few names only", "anchors": ["dir_walker.py: walk, clear_budget"]}
{"id": "C137", "title": "In floating point, NSGA-III assigns individuals to the nearest reference direction up to rounding", "statement": "With m objectives and functions dot and norm of numpy that are off by at most \u03b4 (2^-53 <= \u03b4, 100\u00b7m\u00b2\u00b7\u03b4 <= 1): every generated reference point has m coordinates in [0, 1] whose sum is 1 up to m\u00b72^-54. The scaled objectives lie in [0, 1], each within 2^-50 of the exact value. Every individual is put into the cluster of a reference point whose direction is nearest to the exactly scaled objectives up to 72\u00b7m\u00b2\u00b7\u03b4, and its score is within 50\u00b7(1 + \u03b8)\u00b7m\u00b2\u00b7\u03b4 of the length along this direction plus \u03b8 times the distance from it.", "quantifier": "all floating-point objectives seen so far, all numbers of objectives and reference points, all draws, all binary64 roundings", "why_tests_cant": "the error bound is for all inputs, among them almost equal distances and extreme objectives, where a test would only see one rounding pattern", "anchors": ["algorithms/NSGAIII/NSGAIII.py: generate_reference_point, normalize, scalar_projection, scalar_rejection, calculate_theta_fitness"]}
{"id": "C138", "title": "In floating point, every vector of the box of every benchmark problem has finite objective values", "statement": "Take any of the 21 benchmark problems and any vector inside its box. Evaluated operation by operation in floating point, none of its objective functions raises: no divisor is 0, no square root or power of a negative number occurs, nothing overflows. Every objective value is a finite number, of magnitude at most 5000 (2\u00b710^6 for UF11, 2\u00b710^8 for UF12).", "quantifier": "all vectors of the box, all 21 problems, all libraries whose elementary functions are accurate to 2^-50 and keep |sin|, |cos| <= 1, all orders of addition in np.dot", "why_tests_cant": "C108 shows it for exact arithmetic, where for example the divisor of ZDT4 is at least 1 with equality on a set of measure zero; whether rounding can push a divisor to 0 or a radicand below 0 depends on every float of a 30-dimensional box", "anchors": ["problems/*/problem.py: fitnesses, dims"]}
{"id": "C139", "title": "In floating point, the objective values of the benchmark problems are those of the formulas up to rounding", "statement": "Take any benchmark problem and any vector of floats inside its box. Each objective value that python computes differs from the exact value of the formula by at most 10^-13 (EWA1, EWA2), 10^-12 (ackley, ZDT1-3), 10^-11 (kursawe, UF1, UF5, UF7), 10^-10 (UF3, UF8, UF9), 10^-9 (ZDT6, UF2, UF6, UF10) or 10^-8 (ZDT4, UF4), and by at most 10^-7 (UF11) or 10^-5 (UF12) if none of the first 15 coordinates of the rotated vector is within 10^-12 of 0 or 1.", "quantifier": "all vectors of the box, all 21 problems (for UF11 and UF12: away from the jumps), all libraries whose elementary functions are accurate to 2^-50", "why_tests_cant": "the error depends on every float of a box of up to 30 dimensions, and a test has no exact value to compare with", "anchors": ["problems/*/problem.py: fitnesses, dims"]}
{"id": "C140", "title": "UF11 and UF12 penalise vectors that the rotation moves out of the unit cube", "statement": "Take a vector x inside the bounds of UF11 or UF12 and let z be the rotated vector M x. Objective number m is the value without a penalty times 2 / (1 + exp(-d)), where d is the distance of the first m - 1 coordinates of z from the unit cube.", "quantifier": "all vectors of the box, both problems, all five objectives", "why_tests_cant": "the penalty depends on a matrix of 225 numbers and a box of 30 dimensions; that it is absent for every vector can not be sampled", "anchors": ["problems/UF11/problem.py: psum, S, base_fit_bottom, base_fit", "problems/UF12/problem.py: psum, S, base_fit_bottom, base_fit"]}
{"id": "C141", "title": "What OMOPSO remembers of a particle does not grow", "statement": "An OMOPSO driver remembers one best position per particle. A step never fails with a RecursionError, and what a particle remembers does not become larger with the number of steps made.", "quantifier": "all swarms, draws, objectives and numbers of steps; all sizes of the interpreter stack", "why_tests_cant": "the failure needs some hundreds of improvements of one particle, more than the runs of the experiments make; in shorter runs only the time and the memory of a step grow", "anchors": ["algorithms/OMOPSO/OMOPSO.py: update_personal_best, update_leaders, init_personal_best, Individual.__deepcopy__"]}
{"id": "C142", "title": "In floating point, generations of NSGA-II, SPEA2, IBEA and SMS-EMOA neither fail nor leave the box", "statement": "Computing with doubles and started with N >= 2 vectors of floats in the box, whatever is drawn and however often step and finalized_population are called: no call raises a ZeroDivisionError, an OverflowError of math.exp or an IndexError, no coordinate becomes NaN or infinite, all individuals stay in the box, and finalized_population returns exactly N vectors (SPEA2: after the first step). For IBEA with a kappa of at least 1/32. Assumed: the trim function of the problem maps floats of the box to floats of the box.", "quantifier": "all populations of floats, objectives, parameters, values of random.random() and numbers of steps", "why_tests_cant": "C94 is about exact numbers; rounding can make a difference 0 or push a coordinate over a bound, for a few of 2^64 values and only in some generation of a long run", "anchors": ["algorithms/NSGAII/NSGAII.py: step, finalized_population, _crowding, _environmental_selection", "algorithms/SPEA2/SPEA2.py: step, calculate_density", "algorithms/IBEA/IBEA.py: step, finalized_population, _scale, _calculate_fitness", "algorithms/SMSEMOA/SMSEMOA.py: step", "algorithms/base/drivertools.py: mutate, crossover"]}
{"id": "C143", "title": "In floating point, the points of the ranking are those of exact arithmetic", "statement": "For one problem and metric, computing with doubles from the values of the metric in the runs of every algorithm: the points given are those of exact arithmetic (all algorithms whose average is within the tolerance of the best one get one point each, one that is alone gets two), they do not depend on the order of the runs, and two algorithms with the same values are never told apart by rounding: none of them gets both points.", "quantifier": "all tables with distinct algorithms, each with 1 to 65536 runs, all values that are floats and not negative, metrics to be maximised and minimised, all tolerances between 2^-10 and 1/2", "why_tests_cant": "C48 is about exact scores; the average depends on the order of the runs in its last digits, and the comparison of a rounded quotient with a rounded tolerance goes wrong only for scores that tests do not produce", "anchors": ["statistic/ranking.py: get_weak_winners", "statistic/ranking.py: rank", "statistic/ranking.py: table_rank", "statistic/stats_bootstrap.py: average"]}
{"id": "C144", "title": "In floating point, OMOPSO neither fails nor leaves the box", "statement": "Computing with doubles, an OMOPSO driver started with at least one vector of the box is constructed without an exception, and no step raises one. Every position a particle ever takes is a vector of floats inside the box, and no speed exceeds 16 times the width of its dimension. The finalized population is never empty and consists of positions that particles have had, stored with their true objectives. The personal best of every particle is a position it has had, and none of its positions so far dominates it.", "quantifier": "all boxes of floats, populations of at least one vector, objective functions with float values, trim functions that keep to the box, fitness archives with the right values, numbers of steps and all draws", "why_tests_cant": "C96 is about exact arithmetic. Speeds are products and sums of rounded numbers over any number of steps, crowding values are sums of rounded quotients, and the next guide depends on them; a run tests one sequence of draws", "anchors": ["algorithms/OMOPSO/OMOPSO.py: OMOPSO.__init__", "algorithms/OMOPSO/OMOPSO.py: step", "algorithms/OMOPSO/OMOPSO.py: compute_speed", "algorithms/OMOPSO/OMOPSO.py: move", "algorithms/OMOPSO/OMOPSO.py: update_personal_best", "algorithms/OMOPSO/OMOPSO.py: LeaderArchive", "algorithms/OMOPSO/OMOPSO.py: finalized_population"]}
{"id": "C145", "title": "Rounding does not disturb the slots of a time-limited run", "statement": "A time-limited run computes with floats: differences of readings of the clock, their sum, the time since the last slot and a floor division. None of these operations rounds anything, so that the run emits the slots, with the results, and makes the number of steps that exact arithmetic demands for the durations the clock shows: a step that ends exactly at the end of a slot counts for that slot, and no slot is lost or emitted twice however many steps add up to it.", "quantifier": "all slot lengths from 1 to 2^30 seconds, timeouts of at most 2^30 seconds, numbers and results of steps, all readings of time.time() from 2004 on that are not set back during a step, steps of at most 34 years", "why_tests_cant": "C16 is about exact arithmetic; sums of measured durations are the textbook case of rounding errors (ten times 0.1 is less than 1), and tests cannot choose the readings of the clock", "anchors": ["algorithms/base/driver.py: TimeRun._start", "simulation/worker.py: TimeWorker", "simulation/factory.py: create_time_bound_simulation"]}
{"id": "C146", "title": "HGS stops nodes without progress also in floating point", "statement": "A node of HGS whose hypervolume has not grown since the last metaepoch is stopped, so that a root that stagnates ends and the tree begins to grow. More generally the decision about a node is the one exact arithmetic makes, unless the progress of the node is beside the limit for its level.", "quantifier": "all hypervolumes, limits and levels; for the growth of the tree all runs of any number of steps, all reports of the drivers and all configurations with the shipped limit 0.0 for the root", "why_tests_cant": "the shipped limit for the root is 0.0, so that its end depends on what is left of EPSILON = 2^-52 after an addition and a division of floats; tests with small hypervolumes see the root stop, and the ones of the benchmark problems, with reference points at 50, are in the thousands", "anchors": ["algorithms/HGS/classic/ClassicHGS.py: trim_not_progressing, update_dominated_hypervolume, revive_root", "algorithms/HGS/distributed/node_tasks.py: trim_not_progressing", "simulation/run_config.py: min_progress_ratio"]}
{"id": "C147", "title": "Mutation and crossover do not pile up on the bounds", "statement": "Whatever is drawn, polynomial mutation and simulated binary crossover turn vectors without coordinates on the bounds of the box into vectors without such coordinates: the final clamping changes nothing. A greater draw gives a strictly greater mutated coordinate, so that no value is the result of a whole range of draws, and one mutation can reach every vector of the box that is farther than EPSILON from the bounds. A coordinate on a bound leaves it with half of the draws. The two values of a recombined coordinate lie on both sides of the middle of the parents, strictly inside the interval even if a parent is on a bound, and move apart as the draw grows.", "quantifier": "all vectors, boxes, rates and distribution indices that are not negative, all draws", "why_tests_cant": "clamping after an operator that overshoots would pass every test of the box, but collects a share of the offspring on the bounds, where several of the benchmark problems have their optimum; that the operators never overshoot is an inequality between powers", "anchors": ["algorithms/base/drivertools.py: mutate, crossover, get_beta_q", "algorithms/NSGAIII/NSGAIII.py: polynomial_mutation, simulated_binary_crossover"]}
{"id": "C148", "title": "Better individuals are more likely to become parents (NSGA-II, SPEA2)", "statement": "The probability with which a member is drawn into the mating pool depends only on how many members are better, equal and worse. In NSGA-II it is strictly greater for the member with the better pair (front, inverse crowding distance), so that after every selection a survivor is more likely to become a parent than each survivor it dominates; the probabilities sum up to 1 and each is at least 1 / n\u00b2. In SPEA2, with at least two members in the archive, a smaller fitness value means a strictly greater probability, and exactly a single worst member has the probability 0.", "quantifier": "all populations of different individuals, all objective values and fitness tables, all coins with a probability above one half", "why_tests_cant": "a test with a fixed seed sees a handful of tournaments; a reversed comparison or a tie broken the wrong way only changes frequencies", "anchors": ["algorithms/NSGAII/NSGAII.py: _mating_selection, _environmental_selection", "algorithms/SPEA2/SPEA2.py: Tournament.__call__"]}
{"id": "C149", "title": "In floating point, runs of NSLS stay in the box, have a fixed price and reach their budgets unless a step diverges", "statement": "With Python's rounding after every operation on the coordinates, and with at least two individuals, a run of NSLS always has N individuals, all of them vectors of floats of the box. The first step costs N evaluations and every step 2N evaluations per dimension. A step ends if the local search replaced somebody and never ends otherwise. If the local search always replaces somebody, which is so if no vector of the box dominates another one, a budget simulation stores N vectors for every budget at no less than the cost asked for.", "quantifier": "all boxes of floats, all populations of at least two vectors of floats of the box, objectives, random draws (the normal ones of any size), set orders, distances as computed, numbers of steps, budgets", "why_tests_cant": "a trial that a rounding error carries over a bound shows up once in many millions of turns; a diverging step would hang the test", "anchors": ["algorithms/NSLS/NSLS.py: step, local_search, nd_sort, next_generation"]}
{"id": "C150", "title": "In floating point, runs of NSGA-III stay in the box, never divide by 0 and reach their budgets", "statement": "With Python's rounding after every operation, and with at least two individuals, no step of NSGA-III raises, diverges, divides by 0 or makes a NaN, however numpy rounds inner products and lengths. There are always N individuals, all of them vectors of floats of the box with their true objectives, none of which is below the ideal point. A run of k steps costs between N and N + 2k(N // 2) evaluations, and exactly the upper bound if every pair is crossed over. If every step crosses over at least one pair, a budget simulation stores N vectors of the box for every budget at no less than the cost asked for. The reference points that the algorithm generates itself have positive lengths.", "quantifier": "all boxes of floats, all populations of at least two vectors of floats of the box, objectives, exponents and rates, random draws, set orders, inner products and lengths as computed, numbers of steps, budgets", "why_tests_cant": "a division by 0 in the normalization, or a child which a rounding error carries over a bound, shows up once in many millions of steps, and only for some objectives", "anchors": ["algorithms/NSGAIII/NSGAIII.py: step, make_offspring_individuals, normalize, clustering, generate_reference_point, simulated_binary_crossover, polynomial_mutation"]}
{"id": "C151", "title": "In floating point, runs of JGBL stay in the box and reach their budgets", "statement": "With Python's rounding after every operation, no step of JGBL raises. There are always N individuals or N and the offspring, all of them evaluated vectors of floats of the box, and finalized_population returns N of them. A run of k steps costs N evaluations for the start, k times the number of offspring, and six for every jump, of which there are at most N in a step. If a generation has offspring at all, a budget simulation stores N vectors of the box for every budget at no less than the cost asked for.", "quantifier": "all boxes of floats, populations of vectors of floats of the box, objectives, exponents and rates, random draws, set orders, fitness archives, numbers of steps, budgets", "why_tests_cant": "which bounds are exceeded by a rounding error depends on single bits of the bounds; whether the vector survives depends on the objectives", "anchors": ["algorithms/JGBL/JGBL.py: step, jump_genes, cut_and_paste, copy_and_paste", "algorithms/NSGAII/NSGAII.py: step, finish"]}
{"id": "C152", "title": "In floating point, budget simulations of NSGA-II, SPEA2, IBEA and SMS-EMOA reach every budget", "statement": "With Python's rounding after every operation, a budget simulation of NSGA-II, SPEA2 (at least two individuals, positive budgets), IBEA (kappa at least 1/32) and SMS-EMOA stores a result for every budget, provided a generation has at least one offspring (an epoch at least one turn): N vectors of floats of the box, at no less than the cost asked for. The costs are the ones without rounding, except that the number of offspring is the rounded c * N rounded down, which is wrong by at most one: 0.29 of 100 individuals are 28.", "quantifier": "all boxes of floats, populations of vectors of floats of the box, objectives, exponents and rates, random draws, set orders, numbers of steps, lists of budgets; all portions p from 2^-1022 on with p * N at most 2^50", "why_tests_cant": "a run needs all its draws to be good at once; a rounding error of one individual shows up only for certain portions and sizes", "anchors": ["algorithms/NSGAII/NSGAII.py: step, finish, population", "algorithms/SPEA2/SPEA2.py: step", "algorithms/IBEA/IBEA.py: step, finish", "algorithms/SMSEMOA/SMSEMOA.py: step, __init__", "simulation/worker.py: BudgetWorker.run_driver"]}
{"id": "C153", "title": "In floating point, runs of the island model stay in the box, lose nobody and reach their budgets", "statement": "With Python's rounding after every operation on the islands, a budget simulation of IMGA with islands running NSGA-II, SPEA2 (at least two individuals per island), IBEA (kappa at least 1/32), SMS-EMOA, or JGBL (in boxes in which a ratio of 1 is decoded to a number of the box) on its torus stores a result for every positive budget, provided that the largest island has offspring, the epochs are not empty and no island sends away more individuals than it has: as many vectors of floats of the box as in the initial population, at no less than the cost asked for. The choice of an emigrant never fails, and the sizes of the islands, computed by a division of floats, are the integer quotients.", "quantifier": "all boxes of floats, populations of vectors of floats of the box (of less than 2^53 individuals for the sizes), numbers of islands, widths of the torus, numbers of migrants, epoch lengths, objectives, random draws, set orders, lists of budgets", "why_tests_cant": "a run needs all draws on all islands to be good at once, and the migrants bring states together which no run of a single driver reaches", "anchors": ["algorithms/IMGA/IMGA.py: step, migration, create_islands, Island.emigrate", "algorithms/IMGA/message.py: DefaultIMGAMessageAdapter", "algorithms/IBEA/IBEA.py: step", "simulation/worker.py: BudgetWorker.run_driver"]}
{"id": "C154", "title": "In floating point, OMOPSO reaches its budgets, alone and on islands, and so do islands with NSGA-III and NSLS", "statement": "With Python's rounding after every operation, a budget simulation with OMOPSO stores a result for every budget: at least one vector, all of floats of the box, at no less than the cost asked for; on the torus of IMGA, with at least one particle on every island, it has at least one vector from every island. Islands with NSGA-III (at least two individuals on each, a crossover in every generation, no reference point of length 0) or NSLS (at least two individuals on each, local searches that find something) store results of as many vectors of floats of the box as the initial population has. NSGA-III never divides by 0 although its ideal point does not know the immigrants.", "quantifier": "all boxes of floats, populations of vectors of floats of the box, numbers of islands, widths of the torus, numbers of migrants, epoch lengths, objectives, random draws, set orders, lists of budgets", "why_tests_cant": "migration brings individuals, speeds and ideal points together which no run of a single driver reaches, and rounding makes the speeds differ from the exact ones", "anchors": ["algorithms/OMOPSO/OMOPSO.py: step, reset_speed", "algorithms/OMOPSO/message.py: OMOPSOIMGAMessageAdapter", "algorithms/NSGAIII/NSGAIII.py: step", "algorithms/NSLS/NSLS.py: step", "algorithms/IMGA/IMGA.py: step, migration", "simulation/worker.py: BudgetWorker.run_driver"]}
{"id": "C155", "title": "HGS in floating point runs without exceptions, stays in the box and reaches its budgets", "statement": "HGS with NSGA-II, SPEA2, IBEA or SMS-EMOA in its nodes, all of it in floating point: however many steps are made, nothing raises, all vectors of the result are floats of the box, and from the first step on there are at least as many as the population of the root has. With SPEA2, IBEA and SMS-EMOA every step costs something, and so a budget simulation stores a result for every budget. With NSGA-II a vector is paid for once on each level, and the cost never exceeds the number of floats of the box that trimming leaves.", "quantifier": "all draws, set orders, shuffles, configurations with up to three levels, hypervolumes as computed, numbers of steps, lists of budgets", "why_tests_cant": "the decisions that let the tree grow depend on rounded quotients of hypervolumes, the vectors on millions of rounded operations, and a tree may lose all its living nodes only after many steps; tests see a few trees", "anchors": ["algorithms/HGS/classic/ClassicHGS.py: ClassicHGS.step, ClassicHGS.finalized_population, Node, population_from_delegate", "algorithms/HGS/tools.py", "algorithms/HGS/HGS.py", "simulation/worker.py"]}
{"id": "C156", "title": "HGS in floating point with OMOPSO, NSGA-III, NSLS or JGBL in its nodes stays in the box", "statement": "HGS with OMOPSO, NSGA-III, NSLS or JGBL in its nodes, all of it in floating point: however many steps are made, nothing raises, and all vectors of the result are floats of the box. With OMOPSO there is at least one vector from the first step on, every step costs something, and a budget simulation stores a result for every budget. With NSGA-III, NSLS and JGBL there are at least as many vectors as the population of the root has, and a vector is paid for once on each level, so that the cost never exceeds the number of floats of the box that trimming leaves. Violated by JGBL: in some boxes of floats a jump leaves the box (C151).", "quantifier": "all draws, set orders, shuffles, configurations with up to three levels, hypervolumes as computed, numbers of steps, lists of budgets", "why_tests_cant": "the archive of a level is shared by nodes that come and go, a rounding error of one operator would show only after many generations in a node deep in the tree, and the reference directions, speeds and jumps are different for every draw; tests see a few trees", "anchors": ["algorithms/HGS/classic/ClassicHGS.py: ClassicHGS.step, ClassicHGS.finalized_population, Node", "algorithms/OMOPSO/OMOPSO.py", "algorithms/NSGAIII/NSGAIII.py", "algorithms/NSLS/NSLS.py", "algorithms/JGBL/JGBL.py", "simulation/worker.py"]}
{"id": "C157", "title": "Each simulation starts from its own random seed", "statement": "With os.urandom the seed of a simulation is the number written by 2500 bytes, and each number below 256 ** 2500 is written by exactly one string of bytes: nothing of what the system provides is lost, and different bytes give different seeds. Without os.urandom the seed comes from the clock and the process id, and two simulations have different seeds if they start at the same moment in different processes, if the later one has the larger process id, or if they start in one process at least 1/256 s apart. Violated otherwise: processes with neighbouring ids that start 1/256 s apart, and simulations in one process within 1/256 s, can have the same seed.", "quantifier": "all byte strings, all process ids, all readings of the clock between January 2004 and January 2038", "why_tests_cant": "equal seeds make simulations that count as independent repeat each other; whether that happens depends on the moment and the process id, which tests cannot choose", "anchors": ["simulation/worker.py: SimulationWorker._init_random_seed"]}
{"id": "C158", "title": "In floating point, whole runs of the distributed HGS stay in the box and reach their budgets", "statement": "With the float operations of a 64-bit machine in the drivers, in the populations around delegates and in the comparisons of the actors, the distributed HGS does with any of the eight drivers what C113 says: whatever sequence of calls the user makes, no driver raises, and in whatever order the messages between the actors arrive, all calls are answered in the end. All vectors of every population answered are floats in the box, and there are at least population_sizes[0] of them when the first call is a step (with OMOPSO at least one). Each step costs at least the smallest cost of a generation times the smallest cost modifier. JGBL only in boxes closed under its operations; in other boxes its jumps can leave the box (C151).", "quantifier": "all call sequences, message orders, draws, populations of floats, boxes with floats as bounds, parameters of the levels, objective functions; any rounding of the comparisons between costs and progress", "why_tests_cant": "the actors run concurrently, the drivers in them are random and rounding errors add up over a run; a test sees one order of messages and one sequence of draws for one problem", "anchors": ["algorithms/HGS/distributed/node_tasks.py", "algorithms/HGS/distributed/hgs_tasks.py", "algorithms/HGS/distributed/actors.py: NodeActor, HgsNodeSupervisor", "algorithms/HGS/distributed/DistributedHGS.py"]}
{"id": "C159", "title": "In floating point, HGS trimming stops exactly the stagnant and the redundant nodes", "statement": "With the float operations of the machine trimming does what C78 says, with the progress and its limit as the machine computes them: finished nodes stay as they are; a living node whose computed progress is below the computed limit is stopped and may sprout and be revived later; any other living node is stopped, for good, exactly if its centre is within the minimal distance of a finished progressed-out node of its level or of an earlier node of its level that was alive; afterwards the living nodes of a level are pairwise apart and apart from the ripe ones. On levels with a positive limit a node is stopped as soon as its hypervolume has not grown; on the root's level, with the limit 0.0, exactly if the hypervolume is below the rounded sum of the last one and EPSILON (see C146 for what that means).", "quantifier": "all runs: any number of steps, all reports of the drivers, all configurations of at most three levels; the first part for any rounding", "why_tests_cant": "quantifies over all populations and histories, and the decisions depend on the last digit of quotients of floats", "anchors": ["algorithms/HGS/classic/ClassicHGS.py: trim_sprouts, trim_all, trim_not_progressing, trim_redundant"]}
{"id": "C160", "title": "The command line runs what the user asks for", "statement": "Each line of the help text runs its own command. Numbers on the command line are read as Python writes integers, anything else is an error. run budget starts one job for each problem named, each algorithm named and each run number, and each job gets all budgets in ascending order; if one of the budgets is no integer nothing is run. run time does the same with the timeout and the step. Violated: run time without the timeout or without the step, which the help offers, fails before anything is run; without -a nothing is run (the README says: all algorithms); names that are not known are left out without an error, among them uf10 of the README's own example.", "quantifier": "all command lines (results of docopt), all texts as numbers, all lists of names", "why_tests_cant": "the space of texts and combinations is infinite; the failures are in command lines nobody tried", "anchors": ["evogil.py: main_worker", "simulation/factory.py: resolve_configuration, create_budget_simulation, create_time_bound_simulation, create_simulation, parse_budgets", "simulation/run_parallel.py: run_parallel"]}
{"id": "C161", "title": "Populations do not pile up on the bounds in the course of a run", "statement": "Start NSGA-II, SPEA2 (at least two individuals), IBEA or SMS-EMOA with vectors in which no coordinate equals a bound of its interval. In exact arithmetic with real powers no coordinate of the population, of the archive of SPEA2 or of finalized_population() is on a bound after any number of steps, and no step raises, whatever is drawn. This includes the truncation of the mantissa that HGS passes as trim_function, if zero lies in every interval (as for the problems shipped) and at least one digit is kept; in other boxes the truncation can move a vector onto a bound. In floating point a coordinate next to a bound can be rounded to it.", "quantifier": "all setups with a positive epsilon and indices that are not negative, all objectives, starting populations, fitness archives, sequences of steps and calls of finalized_population, orders in which sets are iterated, and draws from [0, 1); the truncation for all floats and numbers of digits", "why_tests_cant": "a test run uses one seed and a few steps; that a bound is never reached holds for every sequence of draws and any number of steps", "anchors": ["algorithms/base/drivertools.py: mutate, crossover", "algorithms/NSGAII/NSGAII.py: step, finish", "algorithms/SPEA2/SPEA2.py: step", "algorithms/IBEA/IBEA.py: step, finish", "algorithms/SMSEMOA/SMSEMOA.py: step", "algorithms/HGS/tools.py: trim_mantissa"]}
{"id": "C162", "title": "Observables of several processes are merged without loss", "statement": "multiprocess_observable passes on all values of all providers, those of each provider in their order, and completes after the last one, however the processes are scheduled. Violated if a provider fails (all values arrive, but the stream neither completes nor fails) and if a provider emits the string 'end' (it is swallowed, the stream completes too early and later values are lost). prime_number, the load of the demonstration in the same file, is True exactly for the prime numbers.", "quantifier": "all numbers of providers, all lists of values, and all interleavings of what the processes put into the queue; all integers", "why_tests_cant": "the order in which processes run is up to the operating system; a test sees one interleaving", "anchors": ["evotools/rxtools.py: multiprocess_observable, observable_worker, prime_number"]}
{"id": "C163", "title": "A worker returns its results with the time they took, or None, and always shuts the driver down", "statement": "SimulationWorker.run returns (results, CPU time of run_driver, number of the simulation) exactly if nothing raises; the time is the difference of the readings of the clock around run_driver, not negative, and logged once. If preparing the configuration, creating the driver or running it raises an Exception, run returns None and no time is logged. A driver that was created is shut down exactly once, whatever happens. The timing blocks change neither the outcome of their body nor, if it raises, the list of times. Violated: an exception of driver.shutdown() replaces the results of a successful run, and an exception of os.nice or of seeding is raised by run instead of being turned into None.", "quantifier": "all outcomes of the calls in run, all readings of the clock", "why_tests_cant": "the combinations of failing calls are many, and failures of shutdown, os.nice or seeding are hard to provoke", "anchors": ["simulation/worker.py: SimulationWorker.run", "simulation/timing.py: process_time, system_time, log_time"]}
{"id": "C164", "title": "--renice lowers the priority of every simulation by the increment", "statement": "With --renice <increment> every simulation runs at the niceness of the program plus the increment, limited to -20..19; without it, at the niceness of the program. Violated: the workers run one after the other in one process, and each of them calls os.nice(increment) again, so that simulation number i (from 0) runs as if the increment were i + 1 times as large; and an increment below 0 without privileges ends the program instead of being reported as an error of the simulation.", "quantifier": "all increments, all niceness values of the program, all numbers of simulations", "why_tests_cant": "the priority of a process is not visible in the results, and a test with one simulation sees the right one", "anchors": ["simulation/worker.py: SimulationWorker.run", "simulation/run_parallel.py: run_parallel"]}
{"id": "C165", "title": "A whole program runs every simulation and shuts everything down", "statement": "run_parallel starts every simulation, collects the results with their times and numbers in the order of the queue, shuts down every driver that was created exactly once, and shuts down the pool of processes and the actor system at the end, whatever raises in single simulations. Violated: the first simulation in which anything raises is the last one to be started, the results so far are not summed up, and neither the pool nor the actor system is shut down. Also then every driver that was created has been shut down once.", "quantifier": "all queues, all outcomes of the calls in every worker, all readings of the clock", "why_tests_cant": "needs failing simulations at every place of the queue, and processes that are left behind are not visible in the results", "anchors": ["simulation/run_parallel.py: run_parallel", "simulation/worker.py: SimulationWorker.run"]}
