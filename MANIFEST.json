{
 "claims": [
  {
   "property": "C01",
   "status": "proved",
   "theorems": [
    "Evogil.C01_dominates_iff",
    "Evogil.C01_cmp"
   ],
   "note": "Vectors over any linear order (no NaN)."
  },
  {
   "property": "C02",
   "status": "proved",
   "theorems": [
    "Evogil.C02_irrefl",
    "Evogil.C02_asymm",
    "Evogil.C02_trans",
    "Evogil.C02_cmp_antisymm",
    "Evogil.C02_trans_needs_equal_length"
   ],
   "note": "Transitivity for equal lengths; a witness shows the hypothesis is needed."
  },
  {
   "property": "C03",
   "status": "proved",
   "theorems": [
    "Evogil.C03_nsgaii",
    "Evogil.C03_omopso",
    "Evogil.C03_equal_obj"
   ],
   "note": ""
  },
  {
   "property": "C04",
   "status": "proved",
   "theorems": [
    "Evogil.C04_terminates",
    "Evogil.C04_partition",
    "Evogil.C04_layer_antichain",
    "Evogil.C04_layer_rank",
    "Evogil.C04_dominated_by_previous",
    "Evogil.C04_docstring_false"
   ],
   "note": "Termination and partition hold for vectors of any lengths; rank and 'dominated by previous layer' for equal lengths. The docstring's stronger claim is refuted."
  },
  {
   "property": "C05",
   "status": "proved",
   "theorems": [
    "Evogil.C05_nsgaii_sorts_by_rank",
    "Evogil.C05_smsemoa_sorts_by_rank",
    "Evogil.C05_nsgaiii_sorts_by_rank",
    "Evogil.C05_nsga_rank",
    "Evogil.C05_fronts_eq_layers"
   ],
   "note": "For every iteration order of the Python sets; populations without repeated objects. NSLS uses the NSGA-II test and text."
  },
  {
   "property": "C06",
   "status": "proved",
   "theorems": [
    "Evogil.C06_filter_eq",
    "Evogil.C06_mem_filter",
    "Evogil.C06_order_independent",
    "Evogil.C06_covers",
    "Evogil.C06_filter2"
   ],
   "note": ""
  },
  {
   "property": "C07",
   "status": "proved",
   "theorems": [
    "Evogil.C07_defined",
    "Evogil.C07_value",
    "Evogil.C07_nonneg",
    "Evogil.C07_zero_iff",
    "Evogil.C07_igd_swap",
    "Evogil.C07_ahd_value",
    "Evogil.C07_ahd_zero_iff"
   ],
   "note": "Over the real numbers. AHD mixes the non-dominated part and all solutions; the zero set is characterised for antichain fronts."
  },
  {
   "property": "C08",
   "status": "proved",
   "theorems": [
    "Evogil.C08_least_shift",
    "Evogil.C08_nonpos_iff",
    "Evogil.C08_empty",
    "Evogil.C08_not_the_usual_orientation"
   ],
   "note": "In the orientation implemented; a witness shows it is not the usual orientation."
  },
  {
   "property": "C09",
   "status": "proved",
   "theorems": [
    "Evogil.Hv.C09_exact"
   ],
   "note": "Exact real arithmetic; the coordinates relative to the reference point must be at least the value the code starts its bounds with (-1e308)."
  },
  {
   "property": "C10",
   "status": "proved",
   "theorems": [
    "Evogil.Hv.C10_lists",
    "Evogil.Hv.C10_remove",
    "Evogil.Hv.C10_restore",
    "Evogil.Hv.C10_run"
   ],
   "note": "Modelled at pointer level."
  },
  {
   "property": "C100",
   "status": "proved",
   "theorems": [
    "Evogil.Statistics.C100_mark",
    "Evogil.Statistics.C100_small",
    "Evogil.Statistics.C100_eleven"
   ],
   "note": "Exact arithmetic. C100_small is a finding: the check can never fail for ten runs or fewer."
  },
  {
   "property": "C101",
   "status": "proved",
   "theorems": [
    "Evogil.Nsgaiii.C101_run",
    "Evogil.Nsgaiii.C101_cost",
    "Evogil.Nsgaiii.C101_budget",
    "Evogil.Nsgaiii.C101_stuck"
   ],
   "note": "Exact arithmetic, powers with the laws of real powers, no fitness archive. Fewer than two individuals diverge (C31)."
  },
  {
   "property": "C102",
   "status": "proved",
   "theorems": [
    "Evogil.Nsls.C102_run",
    "Evogil.Nsls.C102_budget",
    "Evogil.Nsls.C102_incomparable"
   ],
   "note": "Exact arithmetic, no fitness archive. The number of evaluations per turn of the local search is built into the model (NSLS.py:107)."
  },
  {
   "property": "C103",
   "status": "proved",
   "theorems": [
    "Evogil.Imga.C103_step",
    "Evogil.Imga.C103_no_epoch",
    "Evogil.Imga.C103_budgets",
    "Evogil.Imga.C103_cost",
    "Evogil.Imga.C103_stuck",
    "Evogil.Imga.C103_nsgaii",
    "Evogil.Imga.C103_spea2",
    "Evogil.Imga.C103_ibea",
    "Evogil.Imga.C103_smsemoa",
    "Evogil.Imga.C103_step_loose",
    "Evogil.Imga.C103_run",
    "Evogil.Imga.C103_omopso",
    "Evogil.Imga.C103_nsgaiii",
    "Evogil.Imga.C103_nsls",
    "Evogil.Imga.C103_jgbl"
   ],
   "note": "Exact arithmetic, no fitness archive. The epochs of the islands, which run in threads, are modelled one after the other; they share no state. C103_step and C103_cost are for drivers whose steps always cost the same, C103_step_loose for the others. That steps cost something is a hypothesis on the draws for NSGA-III (the first pair is crossed) and NSLS (some trial succeeds). For the eight drivers, four times the number of migrants must fit on an island (C36)."
  },
  {
   "property": "C104",
   "status": "partial",
   "theorems": [
    "Evogil.C104_lists_partial",
    "Evogil.C104_iterator",
    "Evogil.C104_imga"
   ],
   "note": "The code violates the property for IMGA: C104_imga shows this for every simulation of C103 with NSGA-II islands. C104_lists_partial proves it for drivers that return lists, which all other modelled drivers do. What kind of object a driver returns is a parameter, read off the code."
  },
  {
   "property": "C105",
   "status": "partial",
   "theorems": [
    "Evogil.Swarm.C105_fresh_partial",
    "Evogil.Swarm.C105_refines",
    "Evogil.Swarm.C105_same",
    "Evogil.Swarm.C105_violated",
    "Evogil.Swarm.C105_aliased"
   ],
   "note": "The code violates the property: C105_violated and C105_aliased are concrete runs, C105_same says what happens to the lists in general. C105_fresh_partial proves it for copying trim functions. C105_refines shows in which cases the model of C96, which has vectors as values, agrees with the one with lists. Objective functions are assumed not to change their argument."
  },
  {
   "property": "C106",
   "status": "proved",
   "theorems": [
    "Evogil.Hgs.C106_run",
    "Evogil.Hgs.C106_cost",
    "Evogil.Hgs.C106_progress",
    "Evogil.Hgs.C106_nsgaii",
    "Evogil.Hgs.C106_spea2",
    "Evogil.Hgs.C106_box",
    "Evogil.Hgs.C106_ibea",
    "Evogil.Hgs.C106_smsemoa",
    "Evogil.Hgs.C106_archive",
    "Evogil.Hgs.C106_nsgaiii",
    "Evogil.Hgs.C106_nsls",
    "Evogil.Hgs.C106_jgbl",
    "Evogil.Hgs.C106_omopso"
   ],
   "note": "C106_run, C106_cost, C106_progress, C106_box and C106_archive hold for any driver that keeps the contract of Props/HgsRun; the others are the complete statements for all eight drivers, with no contract left. For OMOPSO, NSGA-III and NSLS the objective values of a level are a function of the vector (fitness_errors 0, as shipped); for NSLS the local search is assumed to find a trial that is not dominated (it loops for ever otherwise, C102). Trimming is assumed to keep vectors in the box (C79 shows when it does), metaepoch_len to be a list (the default, a number, raises TypeError), and equal vectors evaluated by SPEA2, IBEA or SMS-EMOA in the same step to get equal values."
  },
  {
   "property": "C107",
   "status": "proved",
   "theorems": [
    "Evogil.RankingRun.C107_rank",
    "Evogil.RankingRun.C107_total",
    "Evogil.RankingRun.C107_winners",
    "Evogil.RankingRun.C107_raises",
    "Evogil.RankingRun.C107_order"
   ],
   "note": "For metric values that are not negative; the number of bootstrap iterations is positive; the metric values themselves are given (C21, C92, C93 are about computing them)."
  },
  {
   "property": "C108",
   "status": "proved",
   "theorems": [
    "Evogil.Problems.Checked.C108_total",
    "Evogil.Problems.Checked.C108_values"
   ],
   "note": "Exact real arithmetic; the limit of the exponential function is taken as 709."
  },
  {
   "property": "C109",
   "status": "proved",
   "theorems": [
    "Evogil.Storage.C109_rows",
    "Evogil.Storage.C109_run",
    "Evogil.Storage.C109_interrupted",
    "Evogil.Storage.C109_counts",
    "Evogil.Storage.C109_command",
    "Evogil.Storage.C109_stray"
   ],
   "note": "Budgets are natural numbers; that a driver delivers one result per budget is a hypothesis here (C51)."
  },
  {
   "property": "C11",
   "status": "partial",
   "theorems": [
    "Evogil.C11_combined_front",
    "Evogil.C11_share_partial",
    "Evogil.C11_general",
    "Evogil.C11_exceeds_one"
   ],
   "note": "Proved for runs without repeated points; with repetitions the code exceeds 1 (witness)."
  },
  {
   "property": "C110",
   "status": "proved",
   "theorems": [
    "Evogil.Factory.C110_call",
    "Evogil.Factory.C110_drivers",
    "Evogil.Factory.C110_islands",
    "Evogil.Factory.C110_nodes",
    "Evogil.Factory.C110_no_front",
    "Evogil.Hgs.C110_numbers",
    "Evogil.Hgs.C110_run_spea2",
    "Evogil.Hgs.C110_run_ibea",
    "Evogil.Hgs.C110_run_smsemoa"
   ],
   "note": "Only the binding of the arguments is modelled, not the bodies of the constructors; For the runs, the drivers are as in C106 and trimming must keep the box (C79)."
  },
  {
   "property": "C111",
   "status": "proved",
   "theorems": [
    "Evogil.RankingRun.C111_detailed",
    "Evogil.RankingRun.C111_order_matters"
   ],
   "note": "Scores are means of the measurements over an ordered field instead of floats."
  },
  {
   "property": "C112",
   "status": "proved",
   "theorems": [
    "Evogil.RankingRun.C112_table"
   ],
   "note": "Scores are means of the measurements over an ordered field instead of floats; the LaTeX around the cells is not modelled."
  },
  {
   "property": "C113",
   "status": "proved",
   "theorems": [
    "Evogil.Dist.C113_run",
    "Evogil.Dist.C113_box",
    "Evogil.Dist.C113_nsgaii",
    "Evogil.Dist.C113_spea2",
    "Evogil.Dist.C113_ibea",
    "Evogil.Dist.C113_smsemoa",
    "Evogil.Dist.C113_omopso",
    "Evogil.Dist.C113_nsgaiii",
    "Evogil.Dist.C113_nsls",
    "Evogil.Dist.C113_jgbl"
   ],
   "note": "C113_run and C113_box hold for any driver that keeps the contract of Props/HgsRun; the others are the complete statements for all eight drivers. For OMOPSO, NSGA-III and NSLS the objective values of a level are a function of the vector (fitness_errors 0, as shipped); for NSLS the local search is assumed to find a trial that is not dominated. Hypotheses as for C41 and C106: thespian delivers every message once and in order between two actors, max_level is at most 2, trimming keeps vectors in the box."
  },
  {
   "property": "C114",
   "status": "proved",
   "theorems": [
    "Evogil.Hgs.C114_stored",
    "Evogil.Hgs.C114_ends",
    "Evogil.Hgs.C114_box",
    "Evogil.Hgs.C114_spea2",
    "Evogil.Hgs.C114_ibea",
    "Evogil.Hgs.C114_smsemoa",
    "Evogil.Hgs.C114_omopso",
    "Evogil.Hgs.C114_nsgaii",
    "Evogil.Hgs.C114_archive",
    "Evogil.Hgs.C114_nsgaiii",
    "Evogil.Hgs.C114_nsls",
    "Evogil.Hgs.C114_jgbl"
   ],
   "note": "C114_stored and C114_ends hold for any driver that keeps the contract of Props/HgsRun. C114_nsgaii comes with the witness that a simulation with an archive need not end. Assumptions on the drivers as for C106. Budgets are integers."
  },
  {
   "property": "C115",
   "status": "partial",
   "theorems": [
    "Evogil.Nsgaiii.C115_normalized_partial",
    "Evogil.Imga.C115_island_partial",
    "Evogil.Imga.C115_violated"
   ],
   "note": "The code violates the property: C115_violated is a run with a normalized objective below 0. The partial theorems prove the bounds that hold. Exact arithmetic."
  },
  {
   "property": "C116",
   "status": "partial",
   "theorems": [
    "Evogil.Plots.C116_pictures_partial",
    "Evogil.Plots.C116_unplotted_violated",
    "Evogil.Plots.C116_unplotted",
    "Evogil.Plots.C116_empty_violated",
    "Evogil.Plots.C116_range_violated"
   ],
   "note": "The code violates the property in the three ways of the violated theorems. C116_unplotted names the 8 algorithms (of 32) without a curve. Colours, markers and the error bars are not modelled."
  },
  {
   "property": "C117",
   "status": "partial",
   "theorems": [
    "Evogil.Plots.C117_summary_partial",
    "Evogil.Plots.C117_order",
    "Evogil.Plots.C117_unscored_violated",
    "Evogil.Plots.C117_axis_violated",
    "Evogil.Plots.C117_window_violated"
   ],
   "note": "The code violates the property in the ways of the violated theorems. Exact arithmetic; the logarithm is a parameter."
  },
  {
   "property": "C118",
   "status": "partial",
   "theorems": [
    "Evogil.Plots.C118_violin_partial",
    "Evogil.Plots.C118_missing_violated"
   ],
   "note": "The code violates the property as in C118_missing_violated. The drawing of the violins is not modelled, only their samples."
  },
  {
   "property": "C119",
   "status": "partial",
   "theorems": [
    "Evogil.Plots.C119_fronts_partial",
    "Evogil.Plots.C119_best_violated",
    "Evogil.Plots.C119_unshown",
    "Evogil.Plots.C119_empty_violated"
   ],
   "note": "The code violates the property: C119_best_violated is a stored result whose figure shows a front that is surpassed by another run. The reference front in the background is not part of the model."
  },
  {
   "property": "C12",
   "status": "proved",
   "theorems": [
    "Evogil.C12_spacing_nonneg",
    "Evogil.C12_nearest",
    "Evogil.C12_spacing_zero_iff",
    "Evogil.C12_extent_value",
    "Evogil.C12_extent_mono",
    "Evogil.C12_extent_zero_iff",
    "Evogil.C12_extent_defined",
    "Evogil.C12_ndr"
   ],
   "note": ""
  },
  {
   "property": "C120",
   "status": "partial",
   "theorems": [
    "Evogil.Progress.C120_reports_partial",
    "Evogil.Progress.C120_percent_violated",
    "Evogil.Progress.C120_minutes_violated"
   ],
   "note": "The code violates the property: C120_percent_violated for every report, C120_minutes_violated by a run of three hours. Times are not rounded to microseconds."
  },
  {
   "property": "C121",
   "status": "proved",
   "theorems": [
    "Evogil.Rounded.C121_mutate",
    "Evogil.Rounded.C121_crossover",
    "Evogil.Rounded.C121_population",
    "Evogil.Rounded.C121_boxes"
   ],
   "note": "Binary64 with unbounded exponents; powers as assumed of the library (satisfied by rounded real powers, rpow_laws)."
  },
  {
   "property": "C122",
   "status": "partial",
   "theorems": [
    "Evogil.Rounded.C122_jump_partial",
    "Evogil.Rounded.C122_problems",
    "Evogil.Rounded.C122_box_violated",
    "Evogil.Rounded.C122_nan_violated"
   ],
   "note": "The code violates the property for UF11 and UF12 (C122_box_violated, C122_nan_violated); proved for all other problems."
  },
  {
   "property": "C123",
   "status": "partial",
   "theorems": [
    "Evogil.Problems.C123_published_partial",
    "Evogil.Problems.C123_boxes",
    "Evogil.Problems.C123_uf8_partial",
    "Evogil.Problems.C123_uf8_complement",
    "Evogil.Problems.C123_zdt6_violated",
    "Evogil.Problems.C123_uf5_violated",
    "Evogil.Problems.C123_uf6_violated",
    "Evogil.Problems.C123_uf8_violated",
    "Evogil.Problems.C123_uf9_violated",
    "Evogil.Problems.C123_uf10_violated"
   ],
   "note": "Exact real arithmetic. Equal for ZDT4, UF1-4, UF7, kursawe and the function ackley; within 2e-16 for ZDT1-3 (decimal constant for 9/29); violated by ZDT6 (more than 4e-6, at most 1e-5), UF5, UF6 and UF8-10, whose exact relation to the published problems is proved instead (C123_uf8_complement: UF8-10 are the published problems with complementary index sets). UF11 and UF12 are not compared."
  },
  {
   "property": "C124",
   "status": "proved",
   "theorems": [
    "Evogil.Rounded.C124_omopso",
    "Evogil.Rounded.C124_nsls",
    "Evogil.Rounded.C124_nsgaiii",
    "Evogil.Rounded.C124_reference",
    "Evogil.Rounded.C124_normalize"
   ],
   "note": "Binary64 with unbounded exponents; powers as assumed of the library. Which visited position is a personal best or a leader is arbitrary (that they are visited positions is proved in exact arithmetic, C96)."
  },
  {
   "property": "C125",
   "status": "proved",
   "theorems": [
    "Evogil.Rounded.C125_choice",
    "Evogil.Rounded.C125_layer",
    "Evogil.Rounded.C125_exact_sum_fails",
    "Evogil.Rounded.C125_scaled",
    "Evogil.Rounded.C125_ibea",
    "Evogil.Rounded.C125_crowding"
   ],
   "note": "Binary64 with unbounded exponents. sum is the one of Python up to 3.11 (environment.yaml asks for 3.6); with the exact sum of Python 3.12 the assertion can be reached (C125_exact_sum_fails). math.exp itself is not modelled."
  },
  {
   "property": "C126",
   "status": "partial",
   "theorems": [
    "Evogil.Rounded.C126_spea2_partial",
    "Evogil.Rounded.C126_spea2_violated"
   ],
   "note": "Proved for distances of at most 2^52 - 2. Violated beyond: with a distance of 2^53 the density is lost in the sum and a dominated individual has fitness 1 (C126_spea2_violated)."
  },
  {
   "property": "C127",
   "status": "proved",
   "theorems": [
    "Evogil.Rounded.C127_exact",
    "Evogil.Rounded.C127_error",
    "Evogil.Rounded.C127_distance",
    "Evogil.Rounded.C127_rank",
    "Evogil.Rounded.C127_metric"
   ],
   "note": "Binary64 with unbounded exponents, one to three objectives. The multi-list is replaced by the lists of its nodes, which is shown to be the same without rounding (C127_exact)."
  },
  {
   "property": "C128",
   "status": "partial",
   "theorems": [
    "Evogil.Rounded.C128_mono_violated",
    "Evogil.Rounded.C128_one_objective_partial",
    "Evogil.Rounded.C128_single_partial"
   ],
   "note": "Violated with two objectives by [[0, 0.2]] and the same with (-2^-60, 0.3) added: 2490 becomes 2489.9999999999995. Proved for one objective and for single points; how far the order can be wrong at most is bounded by C127_rank."
  },
  {
   "property": "C129",
   "status": "proved",
   "theorems": [
    "Evogil.Rounded.C129_gd",
    "Evogil.Rounded.C129_zero",
    "Evogil.Rounded.C129_ahd",
    "Evogil.Rounded.C129_rank",
    "Evogil.Rounded.C129_extent",
    "Evogil.Rounded.C129_epsilon",
    "Evogil.Rounded.C129_epsilon_sign",
    "Evogil.Rounded.C129_tiny"
   ],
   "note": "Binary64 with unbounded exponents. For smaller coordinates the squares underflow and a solution off the front can have the distance 0 (C129_tiny)."
  },
  {
   "property": "C13",
   "status": "proved",
   "theorems": [
    "Evogil.C13_coordinates",
    "Evogil.C13_in_box",
    "Evogil.C13_total",
    "Evogil.C13_real",
    "Evogil.C13_direction",
    "Evogil.C13_direction_real"
   ],
   "note": "Ideal arithmetic; the same text is used by NSGA-III's polynomial_mutation."
  },
  {
   "property": "C130",
   "status": "proved",
   "theorems": [
    "Evogil.Rounded.C130_reduce",
    "Evogil.Rounded.C130_child",
    "Evogil.Rounded.C130_step",
    "Evogil.Rounded.C130_loss"
   ],
   "note": "Binary64 with unbounded exponents. A loss does occur: C130_loss. Without rounding there is none (C68)."
  },
  {
   "property": "C131",
   "status": "proved",
   "theorems": [
    "Evogil.Rounded.C131_extremes",
    "Evogil.Rounded.C131_prefers",
    "Evogil.Rounded.C131_elitist",
    "Evogil.Rounded.C131_best_value_kept",
    "Evogil.Rounded.C131_run"
   ],
   "note": "Binary64 with unbounded exponents; offspring are arbitrary fresh individuals; at least as many places as objectives."
  },
  {
   "property": "C132",
   "status": "proved",
   "theorems": [
    "Evogil.Rounded.Ibea.C132_leaves",
    "Evogil.Rounded.Ibea.C132_margin",
    "Evogil.Rounded.Ibea.C132_tie"
   ],
   "note": "Binary64 with unbounded exponents, kappa at least 0.05 and at most 128 candidates (as shipped: 0.05 and 96). C132_tie: the margin cannot be dropped; with the values -2^60, 1 and 0 of one objective the rounded scaling makes the last two equal and the better one of them is discarded."
  },
  {
   "property": "C133",
   "status": "partial",
   "theorems": [
    "Evogil.Rounded.Stats.C133_outliers_partial",
    "Evogil.Rounded.Stats.C133_two_violated",
    "Evogil.Rounded.Stats.C133_mean_violated",
    "Evogil.Rounded.Stats.C133_order_violated"
   ],
   "note": "Proved for data of any length other than two, except that the mean without outliers lies between the fences and that the order does not matter. Violated: two neighbouring floats can both be outliers (first quartile above the third one, mean without outliers minus infinity); ten times 0.1 has no outliers and a mean below the lower fence; the mean of 1, 2^-53, 2^-53 depends on the order. numpy.percentile is modelled as in numpy 1.14 (weighted sum of the two neighbours)."
  },
  {
   "property": "C134",
   "status": "partial",
   "theorems": [
    "Evogil.Rounded.Stats.C134_mark",
    "Evogil.Rounded.Stats.C134_small_partial",
    "Evogil.Rounded.Stats.C134_ten_violated"
   ],
   "note": "The last part holds for at most nine values and is violated for ten: nine times 0 and once 7 get the bad mark, though with exact arithmetic (C100) they get the good one. C134_mark: rounding 0.95 * n never changes the mark."
  },
  {
   "property": "C135",
   "status": "partial",
   "theorems": [
    "Evogil.DirWalker.C135_converted_partial",
    "Evogil.DirWalker.C135_nothing_lost",
    "Evogil.DirWalker.C135_overwritten_violated",
    "Evogil.DirWalker.C135_stops_violated"
   ],
   "note": "Proved in full when no .pickle stands beside a .json file of the same name and all .json files can be read; that no JSON content is lost holds always. Violated: a .pickle result beside a .json file of the same name is overwritten; after one unreadable .json file the rest is not converted."
  },
  {
   "property": "C136",
   "status": "partial",
   "theorems": [
    "Evogil.DirWalker.C136_cleared_partial",
    "Evogil.DirWalker.C136_removed_only",
    "Evogil.DirWalker.C136_stops_violated"
   ],
   "note": "Proved if every file name begins with a number; that only files with large budgets are removed holds always. Violated: a file with another name stops the walk with ValueError and later files stay. int() is a parameter."
  },
  {
   "property": "C137",
   "status": "proved",
   "theorems": [
    "Evogil.Rounded.Nsgaiii.C137_references",
    "Evogil.Rounded.Nsgaiii.C137_normalized",
    "Evogil.Rounded.Nsgaiii.C137_scores",
    "Evogil.Rounded.Nsgaiii.C137_generated"
   ],
   "note": "The order of the additions inside numpy is not modelled: dot and norm are any functions with absolute error at most \u03b4. pow is any function with the laws of C121 (values in [0, 1] for a base in [0, 1]). No overflow: differences of objectives must be finite floats."
  },
  {
   "property": "C138",
   "status": "proved",
   "theorems": [
    "Evogil.RoundedProblems.C138_zdt",
    "Evogil.RoundedProblems.C138_uf2",
    "Evogil.RoundedProblems.C138_uf3",
    "Evogil.RoundedProblems.C138_small",
    "Evogil.RoundedProblems.C138_rotated"
   ],
   "note": "Of math only the laws of Spec.IsMathLib are used: correct rounding of + - * / sqrt, accuracy 2^-50 of exp, sin, cos, pow, and |sin|, |cos| <= 1. A library that rounds every function correctly satisfies them (correctlyRounded_isMathLib). np.dot is any function whose error is at most 2^-47 times the sum of the magnitudes of the products, plus 2^-1000."
  },
  {
   "property": "C139",
   "status": "proved",
   "theorems": [
    "Evogil.RoundedProblems.C139_zdt",
    "Evogil.RoundedProblems.C139_uf2",
    "Evogil.RoundedProblems.C139_uf3",
    "Evogil.RoundedProblems.C139_small",
    "Evogil.RoundedProblems.C139_rotated"
   ],
   "note": "At z_i = 1 the functions of UF11 and UF12 jump (z_bis goes from 1 to lambda_i), so a rounding error of np.dot can change the value there by more than any such bound; hence the condition on the rotated vector (at 0 it is for convenience). The bounds are not sharp. Assumed of math: the laws of Spec.IsMathLib, see C138."
  },
  {
   "property": "C14",
   "status": "proved",
   "theorems": [
    "Evogil.C14_parents_untouched",
    "Evogil.C14_coordinates",
    "Evogil.C14_chosen_parent",
    "Evogil.C14_in_box",
    "Evogil.C14_total",
    "Evogil.C14_real"
   ],
   "note": "Lists are objects on a heap, so the claim about the parents is a theorem."
  },
  {
   "property": "C140",
   "status": "partial",
   "theorems": [
    "Evogil.Problems.C140_never",
    "Evogil.Problems.C140_inside_partial",
    "Evogil.Problems.C140_outside",
    "Evogil.Problems.C140_violated"
   ],
   "note": "Violated: base_fit_bottom passes the mirrored vector z_bis to S instead of z. With the numbers of the data files all mirrored coordinates of every vector of the box are between 0 and 1, so S returns 1 always and no vector is ever penalised. The property holds only where there is nothing to penalise; every other vector has a value that is too small. Exact arithmetic."
  },
  {
   "property": "C141",
   "status": "partial",
   "theorems": [
    "Evogil.Swarm.C141_step_partial",
    "Evogil.Swarm.C141_short_partial",
    "Evogil.Swarm.C141_grows",
    "Evogil.Swarm.C141_raises",
    "Evogil.Swarm.C141_exact",
    "Evogil.Swarm.C141_violated"
   ],
   "note": "Violated: update_personal_best stores a deep copy of the particle including its former best position, which is such a copy again; the chain becomes longer by one with every improvement, every copy for the archives copies all of it, and deepcopy needs two calls on the stack for each link. With room for r calls, runs of at most (r - 6) / 2 steps are those of C96; there are swarms for which the next step raises. The stack is supposed to have the same room wherever a copy is made. The stack depth of copy.deepcopy is that of CPython 3.6."
  },
  {
   "property": "C142",
   "status": "proved",
   "theorems": [
    "Evogil.Rounded.Run.C142_nsgaii",
    "Evogil.Rounded.Run.C142_spea2",
    "Evogil.Rounded.Run.C142_ibea",
    "Evogil.Rounded.Run.C142_smsemoa"
   ],
   "note": "round64 is rounding to nearest with 53 digits; exponents are not bounded from above. At most 2^51 objectives. The power function of the library is supposed not to be negative and at most 1 where the exact power is (PowerLaws), euclid_distance not to be negative; nothing is supposed about math.exp as long as its argument is at most 709, nor about the values of the hypervolume."
  },
  {
   "property": "C143",
   "status": "partial",
   "theorems": [
    "Evogil.Rounded.Ranking.C143_points_partial",
    "Evogil.Rounded.Ranking.C143_strong",
    "Evogil.Rounded.Ranking.C143_tie",
    "Evogil.Rounded.Ranking.C143_order_violated"
   ],
   "note": "Points: proved if no average is so near to the limit of the tolerance that a change of the tolerance by 2^-30 matters. Violated without that condition: with runs 1, 2^-53, 2^-53 against one run of 0.3166... the points depend on the order of the runs. That nobody gets both points beside an algorithm with the same values holds without condition."
  },
  {
   "property": "C144",
   "status": "proved",
   "theorems": [
    "Evogil.Rounded.Swarm.C144_omopso",
    "Evogil.Rounded.Swarm.C144_draws",
    "Evogil.Rounded.Swarm.C144_prune"
   ],
   "note": "Exponents are not bounded from above (no overflow). C144_draws: what random.random and random.uniform return satisfies the hypothesis on the coefficients. C144_prune: with rounding, too, pruning removes a member with the smallest last objective (C63)."
  },
  {
   "property": "C145",
   "status": "proved",
   "theorems": [
    "Evogil.Rounded.Time.C145_exact",
    "Evogil.Rounded.Time.C145_slots",
    "Evogil.Rounded.Time.C145_ends",
    "Evogil.Rounded.Time.C145_small_clock",
    "Evogil.Rounded.Time.C145_zero"
   ],
   "note": "Floats from 2^30 on are multiples of 2^-22, and multiples of 2^-22 below 2^31 are floats. C145_slots repeats C16 for the rounded run (with its exception for the first step). C145_small_clock: with a clock that shows small numbers, as perf_counter does, the claim would be false. C145_zero: a slot length of 0 raises."
  },
  {
   "property": "C146",
   "status": "partial",
   "theorems": [
    "Evogil.Rounded.Hgs.C146_root",
    "Evogil.Rounded.Hgs.C146_root_violated",
    "Evogil.Rounded.Hgs.C146_root_small_partial",
    "Evogil.Rounded.Hgs.C146_root_between",
    "Evogil.Rounded.Hgs.C146_positive_partial",
    "Evogil.Rounded.Hgs.C146_limit_positive",
    "Evogil.Rounded.Hgs.C146_accurate_partial",
    "Evogil.Rounded.Hgs.C146_halved",
    "Evogil.Rounded.Hgs.C146_run_violated",
    "Evogil.Dist.C146_distributed_partial",
    "Evogil.Dist.C146_distributed_violated",
    "Evogil.Dist.C146_distributed_run_violated"
   ],
   "note": "Violated for the root: from a hypervolume (above the first one) of 4 on, old + EPSILON is old, the quotient is exactly 1 and the progress 0 is not below the limit 0.0; such a root is stopped only if its hypervolume falls, and until then the tree has one node (C146_run_violated). Below 2 a stagnating root is stopped; from 2 to 4 it depends on the last digit (C146_root_between). With a positive limit, as for the other levels, nodes that do not grow are always stopped. The same holds for the distributed HGS (C146_distributed_*)."
  },
  {
   "property": "C147",
   "status": "proved",
   "theorems": [
    "Evogil.Interior.C147_mutate",
    "Evogil.Interior.C147_mutate_strict",
    "Evogil.Interior.C147_mutate_reach",
    "Evogil.Interior.C147_bound",
    "Evogil.Interior.C147_crossover",
    "Evogil.Interior.C147_spread"
   ],
   "note": "Real numbers and real powers, exact arithmetic. So in exact arithmetic a population without coordinates on the bounds never gets any, and optima on the bounds are approached but not reached; in floating point they are reached by rounding and clamping."
  },
  {
   "property": "C148",
   "status": "proved",
   "theorems": [
    "Evogil.Mating.C148_entries",
    "Evogil.Mating.C148_nsgaii",
    "Evogil.Mating.C148_nsgaii_everyone",
    "Evogil.Mating.C148_nsgaii_order",
    "Evogil.Mating.C148_nsgaii_rank",
    "Evogil.Mating.C148_spea2",
    "Evogil.Mating.C148_spea2_order"
   ],
   "note": "random.choice and random.sample are taken to be uniform, the probabilities are counted over all pairs of positions. IBEA has the opposite order, see C59."
  },
  {
   "property": "C149",
   "status": "proved",
   "theorems": [
    "Evogil.Rounded.Nsls.C149_run",
    "Evogil.Rounded.Nsls.C149_budget",
    "Evogil.Rounded.Nsls.C149_incomparable"
   ],
   "note": "Binary64 with unbounded exponents, no fitness archive. The objective functions and the distances are arbitrary functions, so their rounding is included. The number of evaluations per turn of the local search is built into the model (NSLS.py:107)."
  },
  {
   "property": "C15",
   "status": "proved",
   "theorems": [
    "Evogil.C15_budget_run",
    "Evogil.C15_messages_below",
    "Evogil.C15_no_step",
    "Evogil.C15_ends_iff",
    "Evogil.C15_terminates"
   ],
   "note": "Any driver, given as a state machine."
  },
  {
   "property": "C150",
   "status": "proved",
   "theorems": [
    "Evogil.Rounded.Nsgaiii.C150_run",
    "Evogil.Rounded.Nsgaiii.C150_cost",
    "Evogil.Rounded.Nsgaiii.C150_budget",
    "Evogil.Rounded.Nsgaiii.C150_references"
   ],
   "note": "Binary64 with unbounded exponents, no fitness archive. math.pow obeys the laws of Spec.PowerLaws. The objective functions are arbitrary, so their rounding is included. C150_references is over the reals and needs numpy to be accurate (Spec.IsNumpy); the others need only that no reference point has length 0."
  },
  {
   "property": "C151",
   "status": "partial",
   "theorems": [
    "Evogil.Rounded.Run.C151_run_partial",
    "Evogil.Rounded.Run.C151_budget_partial",
    "Evogil.Rounded.Run.C151_cost_partial",
    "Evogil.Rounded.Run.C151_problems",
    "Evogil.Rounded.Run.C151_box_violated"
   ],
   "note": "The code violates the property in the box of UF11 and UF12: C151_box_violated is a run whose result after one step has a vector outside of the box. Proved for all boxes in which the lower end plus the width is not rounded above the upper end and no width is rounded to 0; C151_problems shows that the boxes of all other problems are of this kind. Binary64 with unbounded exponents; math.pow obeys the laws of Spec.PowerLaws; the costs are without a fitness archive."
  },
  {
   "property": "C152",
   "status": "proved",
   "theorems": [
    "Evogil.Rounded.Run.C152_nsgaii",
    "Evogil.Rounded.Run.C152_nsgaii_cost",
    "Evogil.Rounded.Run.C152_spea2",
    "Evogil.Rounded.Run.C152_spea2_cost",
    "Evogil.Rounded.Run.C152_ibea",
    "Evogil.Rounded.Run.C152_ibea_cost",
    "Evogil.Rounded.Run.C152_smsemoa",
    "Evogil.Rounded.Run.C152_smsemoa_cost",
    "Evogil.Rounded.Run.C152_offspring",
    "Evogil.Rounded.Run.C152_offspring_less"
   ],
   "note": "Binary64 with unbounded exponents, no fitness archive. math.pow obeys the laws of Spec.PowerLaws; the distances of SPEA2, math.exp in IBEA and the hypervolume in SMS-EMOA are arbitrary functions (distances not negative)."
  },
  {
   "property": "C153",
   "status": "proved",
   "theorems": [
    "Evogil.Rounded.Islands.C153_nsgaii",
    "Evogil.Rounded.Islands.C153_spea2",
    "Evogil.Rounded.Islands.C153_ibea",
    "Evogil.Rounded.Islands.C153_smsemoa",
    "Evogil.Rounded.Islands.C153_jgbl",
    "Evogil.Rounded.Islands.C153_size",
    "Evogil.Rounded.Islands.C153_pick"
   ],
   "note": "Binary64 with unbounded exponents, no fitness archive; the other assumptions are those of C152 (C151 for JGBL). The emigrants are whatever a function with PickOk gives; C153_pick shows that the code's choice in floats is one. OMOPSO, NSGA-III and NSLS on islands: C154."
  },
  {
   "property": "C154",
   "status": "proved",
   "theorems": [
    "Evogil.Rounded.Swarm.C154_alone",
    "Evogil.Rounded.Islands.C154_omopso",
    "Evogil.Rounded.Islands.C154_nsgaiii",
    "Evogil.Rounded.Islands.C154_nsls"
   ],
   "note": "Binary64 with unbounded exponents, no fitness archive; the other assumptions are those of C144, C149 and C150. The emigrants are whatever a function with PickOk gives (C153_pick)."
  },
  {
   "property": "C155",
   "status": "proved",
   "theorems": [
    "Evogil.Rounded.Hgs.C155_run",
    "Evogil.Rounded.Hgs.C155_progress",
    "Evogil.Rounded.Hgs.C155_stored",
    "Evogil.Rounded.Hgs.C155_ends",
    "Evogil.Rounded.Hgs.C155_box",
    "Evogil.Rounded.Hgs.C155_spea2",
    "Evogil.Rounded.Hgs.C155_ibea",
    "Evogil.Rounded.Hgs.C155_smsemoa",
    "Evogil.Rounded.Hgs.C155_nsgaii"
   ],
   "note": "IBEA with kappa at least 1/32 (shipped: 0.05); costs and budgets are exact; hypervolumes, means and the tests for redundancy are parameters, as computed"
  },
  {
   "property": "C156",
   "status": "partial",
   "theorems": [
    "Evogil.Rounded.Hgs.C156_archived",
    "Evogil.Rounded.Hgs.C156_omopso",
    "Evogil.Rounded.Hgs.C156_nsgaiii",
    "Evogil.Rounded.Hgs.C156_nsls",
    "Evogil.Rounded.Hgs.C156_jgbl_partial",
    "Evogil.Rounded.Run.C151_box_violated"
   ],
   "note": "partial because of JGBL, whose jumps leave some boxes (C151); closed boxes are what is proved, and the boxes of all plain problems are closed; NSGA-III and NSLS with at least two individuals per level; NSLS for searches that find a trial that is not dominated, as otherwise a step does not end (C149); OMOPSO without an archive, and with the speeds the draws can give; costs and budgets are exact"
  },
  {
   "property": "C157",
   "status": "partial",
   "theorems": [
    "Evogil.Seed.C157_bytes",
    "Evogil.Seed.C157_seed",
    "Evogil.Seed.C157_fallback",
    "Evogil.Seed.C157_distinct_partial",
    "Evogil.Seed.C157_processes_violated",
    "Evogil.Seed.C157_moment_violated"
   ],
   "note": "partial because the code violates the property without os.urandom; all reals that are floats are allowed for the clock; what random.seed does with the number is not modelled"
  },
  {
   "property": "C158",
   "status": "partial",
   "theorems": [
    "Evogil.Rounded.Dist.C158_box",
    "Evogil.Rounded.Dist.C158_nsgaii",
    "Evogil.Rounded.Dist.C158_spea2",
    "Evogil.Rounded.Dist.C158_ibea",
    "Evogil.Rounded.Dist.C158_smsemoa",
    "Evogil.Rounded.Dist.C158_omopso",
    "Evogil.Rounded.Dist.C158_nsgaiii",
    "Evogil.Rounded.Dist.C158_nsls",
    "Evogil.Rounded.Dist.C158_jgbl_partial",
    "Evogil.Rounded.Run.C151_box_violated"
   ],
   "note": "partial because of JGBL, whose jumps leave some boxes (C151); closed boxes are what is proved, and the boxes of all plain problems are closed; the other assumptions are those of C113, C155 and C156; costs and budgets are exact"
  },
  {
   "property": "C159",
   "status": "proved",
   "theorems": [
    "Evogil.Rounded.Hgs.C159_trim",
    "Evogil.Rounded.Hgs.C159_apart",
    "Evogil.Rounded.Hgs.C159_redundant_final",
    "Evogil.Rounded.Hgs.C159_stagnant",
    "Evogil.Rounded.Hgs.C159_root"
   ],
   "note": "the tests of centres (near) are parameters, so that their rounding does not matter; costs are exact"
  },
  {
   "property": "C16",
   "status": "partial",
   "theorems": [
    "Evogil.C16_time_run_partial",
    "Evogil.C16_slot_faithful_after_first_step",
    "Evogil.C16_ends",
    "Evogil.C16_first_slot_false"
   ],
   "note": "Order, uniqueness, timeout and completeness of the slots proved; the reported result is the last one before the slot except for slots that pass during the first step, where the claim is refuted by a witness. If the time is up after one step nothing is emitted. Clock readings in an ordered field, no rounding."
  },
  {
   "property": "C160",
   "status": "partial",
   "theorems": [
    "Evogil.CommandLine.C160_commands",
    "Evogil.CommandLine.C160_numbers",
    "Evogil.CommandLine.C160_budget_partial",
    "Evogil.CommandLine.C160_budget_rejected",
    "Evogil.CommandLine.C160_time_partial",
    "Evogil.CommandLine.C160_time_violated",
    "Evogil.CommandLine.C160_all_violated",
    "Evogil.CommandLine.C160_names_violated"
   ],
   "note": "violated by the code for run time with only one of the two numbers, without -a, and for unknown names (see the statement); proved for the rest. docopt is not modelled, only its result; ASCII only; no limit to the number of digits"
  },
  {
   "property": "C161",
   "status": "partial",
   "theorems": [
    "Evogil.Generations.C161_nsgaii",
    "Evogil.Generations.C161_spea2",
    "Evogil.Generations.C161_ibea",
    "Evogil.Generations.C161_smsemoa",
    "Evogil.Generations.C161_trim_partial",
    "Evogil.Generations.C161_trim_violated",
    "Evogil.Generations.C161_rounded_violated"
   ],
   "note": "proved for every trim function that does not itself move a vector onto a bound, in particular without one and for the truncation of HGS if zero lies in every interval; for other boxes violated by the truncation. Exact arithmetic: in floating point a mutated coordinate can be rounded to a bound (C161_rounded_violated)"
  },
  {
   "property": "C162",
   "status": "partial",
   "theorems": [
    "Evogil.RxTools.C162_merge_partial",
    "Evogil.RxTools.C162_failure_violated",
    "Evogil.RxTools.C162_end_violated",
    "Evogil.RxTools.C162_prime"
   ],
   "note": "violated by the code for providers that fail or emit the string 'end'; proved for all others. The functions are not used by the rest of the program"
  },
  {
   "property": "C163",
   "status": "partial",
   "theorems": [
    "Evogil.Worker.C163_log_time",
    "Evogil.Worker.C163_success",
    "Evogil.Worker.C163_success_only",
    "Evogil.Worker.C163_shutdown",
    "Evogil.Worker.C163_failure_partial",
    "Evogil.Worker.C163_shutdown_violated",
    "Evogil.Worker.C163_setup_violated"
   ],
   "note": "violated by the code if driver.shutdown(), os.nice or seeding raises; proved for the rest. KeyboardInterrupt and SystemExit are passed on, as usual"
  },
  {
   "property": "C164",
   "status": "partial",
   "theorems": [
    "Evogil.Renice.C164_none",
    "Evogil.Renice.C164_accumulates",
    "Evogil.Renice.C164_first_partial",
    "Evogil.Renice.C164_violated",
    "Evogil.Renice.C164_negative_violated"
   ],
   "note": "violated by the code from the second simulation on; the exact niceness of each simulation is proved for increments of at least 0. The behaviour of os.nice is that of Linux"
  },
  {
   "property": "C165",
   "status": "partial",
   "theorems": [
    "Evogil.Worker.C165_all",
    "Evogil.Worker.C165_shutdowns",
    "Evogil.Worker.C165_failure_violated"
   ],
   "note": "violated by the code as soon as one simulation fails; proved for programs without failures, and for the drivers in all cases. See C49 for the summary"
  },
  {
   "property": "C17",
   "status": "proved",
   "theorems": [
    "Evogil.C17_steps_run"
   ],
   "note": ""
  },
  {
   "property": "C18",
   "status": "proved",
   "theorems": [
    "Evogil.Storage.C18_read_back",
    "Evogil.Storage.C18_other_files_kept",
    "Evogil.Storage.C18_other_results",
    "Evogil.Storage.C18_store_succeeds",
    "Evogil.Storage.C18_store_wf",
    "Evogil.Storage.C18_history"
   ],
   "note": "File tree as paths to nodes; pickling is the identity; names without path separators."
  },
  {
   "property": "C19",
   "status": "partial",
   "theorems": [
    "Evogil.Storage.C19_order_independent",
    "Evogil.Storage.C19_runs",
    "Evogil.Storage.C19_groups",
    "Evogil.Storage.C19_leading_zero_loses_results",
    "Evogil.Storage.C19_file_as_run_fails"
   ],
   "note": "C19_groups is the full claim for run directories whose result files carry the names the code itself writes; a stray name with a leading zero makes the listing drop results (witness)."
  },
  {
   "property": "C20",
   "status": "proved",
   "theorems": [
    "Evogil.Storage.C20_seven_digits",
    "Evogil.Storage.C20_random",
    "Evogil.Storage.C20_injective",
    "Evogil.Storage.C20_injective_dates",
    "Evogil.Storage.C20_listed",
    "Evogil.Storage.C20_large_not_listed",
    "Evogil.Storage.C20_rebuilt_id"
   ],
   "note": "Also shows that numbers from 10^7 on are stored but never listed."
  },
  {
   "property": "C21",
   "status": "proved",
   "theorems": [
    "Evogil.Storage.C21_answer",
    "Evogil.Storage.C21_as_computed",
    "Evogil.Storage.C21_other_params_refused",
    "Evogil.Storage.C21_results_untouched",
    "Evogil.Storage.C21_stale"
   ],
   "note": "For results that are not rewritten; a witness shows the stale value otherwise."
  },
  {
   "property": "C22",
   "status": "proved",
   "theorems": [
    "Evogil.Evaluation.C22_objectives",
    "Evogil.Evaluation.C22_cost_is_calls",
    "Evogil.Evaluation.C22_cost_no_archive",
    "Evogil.Evaluation.C22_cost_archive"
   ],
   "note": "key must determine the objective values (true for untransformed keys and for vectors that are already trimmed)"
  },
  {
   "property": "C23",
   "status": "proved",
   "theorems": [
    "Evogil.Nsgaii.C23_elitist",
    "Evogil.Nsgaii.C23_nondominated_survive"
   ],
   "note": "for every set iteration order; candidates are distinct objects"
  },
  {
   "property": "C24",
   "status": "proved",
   "theorems": [
    "Evogil.Spea2.C24_raw",
    "Evogil.Spea2.C24_fitness",
    "Evogil.Spea2.C24_single_raises"
   ],
   "note": "exact arithmetic, any non-negative distance; a union of one individual raises IndexError"
  },
  {
   "property": "C25",
   "status": "proved",
   "theorems": [
    "Evogil.Spea2.C25_archive",
    "Evogil.Spea2.C25_step"
   ],
   "note": "includes termination of the truncation loop"
  },
  {
   "property": "C26",
   "status": "proved",
   "theorems": [
    "Evogil.Ibea.C26_selection"
   ],
   "note": "exact arithmetic; exp is a parameter (any function)"
  },
  {
   "property": "C27",
   "status": "proved",
   "theorems": [
    "Evogil.Smsemoa.C27_reduce",
    "Evogil.Smsemoa.C27_empty_raises",
    "Evogil.Smsemoa.C27_size"
   ],
   "note": "hypervolume is a parameter (any function)"
  },
  {
   "property": "C28",
   "status": "partial",
   "theorems": [
    "Evogil.Omopso.C28_violated",
    "Evogil.Omopso.C28_add_partial",
    "Evogil.Omopso.C28_eta_partial"
   ],
   "note": "violated: deleting during iteration skips the next member, so a dominated member can stay. Proved for the insertions where no two neighbours are dominated by the newcomer (tolerance 0) and, for every tolerance, where nobody directly behind a removed member is comparable with the newcomer."
  },
  {
   "property": "C29",
   "status": "proved",
   "theorems": [
    "Evogil.Omopso.C29_coord",
    "Evogil.Omopso.C29_move",
    "Evogil.Omopso.C29_mutation"
   ],
   "note": "exact arithmetic; the mutation operators are covered although the code never applies them"
  },
  {
   "property": "C30",
   "status": "proved",
   "theorems": [
    "Evogil.Nsgaiii.C30_simplex",
    "Evogil.Nsgaiii.C30_simplex_real",
    "Evogil.Nsgaiii.C30_length_pos"
   ],
   "note": "exact arithmetic; draws strictly between 0 and 1 (the code redraws zeros)"
  },
  {
   "property": "C31",
   "status": "proved",
   "theorems": [
    "Evogil.Nsgaiii.C31_ideal",
    "Evogil.Nsgaiii.C31_ideal_history",
    "Evogil.Nsgaiii.C31_selection",
    "Evogil.Nsgaiii.C31_selection_diverges",
    "Evogil.Nsgaiii.C31_step",
    "Evogil.Nsgaiii.C31_init",
    "Evogil.Nsgaiii.C31_single_diverges"
   ],
   "note": "whole step modelled; includes the non-termination for a single individual; fitness archive not modelled"
  },
  {
   "property": "C32",
   "status": "proved",
   "theorems": [
    "Evogil.Nsls.C32_turn",
    "Evogil.Nsls.C32_local_search",
    "Evogil.Nsls.C32_next_generation",
    "Evogil.Nsls.C32_next_generation_diverges",
    "Evogil.Nsls.C32_step",
    "Evogil.Nsls.C32_can_diverge"
   ],
   "note": "exact arithmetic, distance a parameter; the step can fail to terminate (shown on a concrete run)"
  },
  {
   "property": "C33",
   "status": "partial",
   "theorems": [
    "Evogil.Bogo.C33_antichain",
    "Evogil.Bogo.C33_partial",
    "Evogil.Bogo.C33_violated"
   ],
   "note": "The antichain half holds for all sequences. Coverage is violated: a dominated arrival removes the archive member that dominates it (C33_violated: the archive becomes empty); coverage is proved when no arrival is dominated by the archive it meets."
  },
  {
   "property": "C34",
   "status": "proved",
   "theorems": [
    "Evogil.Jgbl.C34_codec",
    "Evogil.Jgbl.C34_cut_and_paste",
    "Evogil.Jgbl.C34_copy_and_paste",
    "Evogil.Jgbl.C34_jump_genes",
    "Evogil.Jgbl.C34_children"
   ],
   "note": "Exact arithmetic (rounding: C122). For boxes with lower < upper ends (equal ends make convert_to_ratio divide by zero)."
  },
  {
   "property": "C35",
   "status": "proved",
   "theorems": [
    "Evogil.Imga.C35_partition"
   ],
   "note": ""
  },
  {
   "property": "C36",
   "status": "proved",
   "theorems": [
    "Evogil.Imga.C36_exchange",
    "Evogil.Imga.C36_conservation",
    "Evogil.Imga.C36_torus",
    "Evogil.Imga.C36_too_small",
    "Evogil.Imga.C36_asymmetric"
   ],
   "note": "Individuals are opaque objects with a decision vector; the draws are arbitrary members of the layers. C36_too_small and C36_asymmetric show that both side conditions are needed."
  },
  {
   "property": "C37",
   "status": "proved",
   "theorems": [
    "Evogil.Imga.C37_neighbours",
    "Evogil.Imga.C37_symmetric",
    "Evogil.Imga.C37_loop_free",
    "Evogil.Imga.C37_four",
    "Evogil.Imga.C37_isolated"
   ],
   "note": "Findings: with exactly one complete row islands are their own neighbours, and the first island of the incomplete row is not linked to its column; with five islands and the default width the fifth is isolated (C37_isolated)."
  },
  {
   "property": "C38",
   "status": "proved",
   "theorems": [
    "Evogil.Hgs.C38_tree",
    "Evogil.Hgs.C38_root_level"
   ],
   "note": "Includes that no step raises (missing centre attributes, KeyError of level_nodes) for max_level at most 2 and three thresholds. What the drivers do in a metaepoch is a parameter."
  },
  {
   "property": "C39",
   "status": "proved",
   "theorems": [
    "Evogil.Hgs.C39_cost",
    "Evogil.Hgs.C39_node_cost",
    "Evogil.Hgs.C39_monotone"
   ],
   "note": "Monotonicity assumes non-negative modifiers and drivers that do not report less than before (see C54 for the drivers)."
  },
  {
   "property": "C40",
   "status": "partial",
   "theorems": [
    "Evogil.Hgs.C40_alive_partial",
    "Evogil.Hgs.C40_revival_partial",
    "Evogil.Hgs.C40_config_violated"
   ],
   "note": "The first two clauses hold. The last one is violated by the code: revive_root halves the list object of the configuration in place, as neither the factory nor HGS copies it."
  },
  {
   "property": "C41",
   "status": "proved",
   "theorems": [
    "Evogil.Dist.C41_served",
    "Evogil.Dist.C41_once",
    "Evogil.Dist.C41_order"
   ],
   "note": "thespian delivers every message once, in order between two given actors. max_level is at most 2 (the code knows levels 0 to 2 only), there is a progress threshold per level, metaepoch_len is positive."
  },
  {
   "property": "C42",
   "status": "partial",
   "theorems": [
    "Evogil.Dist.C42_partial",
    "Evogil.Dist.C42_violated"
   ],
   "note": "Violated: the redundancy phase stops nothing, so it agrees with the sequential variant exactly if no living node is near a ripe or an earlier living one."
  },
  {
   "property": "C43",
   "status": "proved",
   "theorems": [
    "Evogil.Factory.C43_plan",
    "Evogil.Factory.C43_defaults",
    "Evogil.Factory.C43_parsable",
    "Evogil.Factory.C43_budgets"
   ],
   "note": "Names in ASCII. Without --algo the plan is empty (C43_defaults)."
  },
  {
   "property": "C44",
   "status": "proved",
   "theorems": [
    "Evogil.Factory.C44_precedence"
   ],
   "note": "For initialisers that update the configuration by a dictionary, as all those in run_config do."
  },
  {
   "property": "C45",
   "status": "proved",
   "theorems": [
    "Evogil.Factory.C45_nested",
    "Evogil.Factory.C45_refused",
    "Evogil.Factory.C45_known_algorithms"
   ],
   "note": "For tables and initialisers that do not overwrite the driver keys, as in run_config."
  },
  {
   "property": "C46",
   "status": "proved",
   "theorems": [
    "Evogil.Statistics.findAcceptable_some",
    "Evogil.Statistics.findAcceptable_none_iff",
    "Evogil.Statistics.findAcceptable_raises_iff"
   ],
   "note": "exact arithmetic; yield_analysis assumed not to raise (non-empty cost data, positive boot size)"
  },
  {
   "property": "C47",
   "status": "proved",
   "theorems": [
    "Evogil.Statistics.bootstrap_spec",
    "Evogil.Statistics.bootstrap_empty_resamples"
   ],
   "note": "for any draws, any statistic into a linear order, 0 < alpha <= 1/2; the degenerate interval for a single value is a finding"
  },
  {
   "property": "C48",
   "status": "proved",
   "theorems": [
    "Evogil.Statistics.awards_spec",
    "Evogil.Statistics.awards_perm"
   ],
   "note": "tables with one non-negative score per algorithm, eps > 0, tolerance >= 0"
  },
  {
   "property": "C49",
   "status": "partial",
   "theorems": [
    "Evogil.RunParallel.not_failureIsolated",
    "Evogil.RunParallel.runParallel_stops_at_failure",
    "Evogil.RunParallel.runParallel_all_ok_partial"
   ],
   "note": "violated by the code: the first worker that returns None ends the pipeline with a TypeError; proved for runs without failures"
  },
  {
   "property": "C50",
   "status": "proved",
   "theorems": [
    "Evogil.Trim.C50_rounding",
    "Evogil.Trim.C50_unique",
    "Evogil.Trim.C50_exact",
    "Evogil.Trim.C50_idempotent",
    "Evogil.Trim.C50_error"
   ],
   "note": "Floats are rationals with 53 significant bits and unlimited exponent; floatextras.as_tuple and from_tuple are modelled by their documented decomposition."
  },
  {
   "property": "C51",
   "status": "proved",
   "theorems": [
    "Evogil.C51_names",
    "Evogil.C51_cost_reached",
    "Evogil.C51_costs_sorted",
    "Evogil.C51_terminates",
    "Evogil.C51_step_numbers"
   ],
   "note": ""
  },
  {
   "property": "C52",
   "status": "partial",
   "theorems": [
    "Evogil.C52_stored_one_step_late_partial",
    "Evogil.C52_false"
   ],
   "note": "The code violates it: the stored population is the one a step later. Proved exactly that, for drivers whose finalization is pure."
  },
  {
   "property": "C53",
   "status": "proved",
   "theorems": [
    "Evogil.Statistics.weightedChoice_interval",
    "Evogil.Statistics.weightedChoice_pos",
    "Evogil.Statistics.weightedChoice_fails_iff"
   ],
   "note": "non-negative weights, exact arithmetic"
  },
  {
   "property": "C54",
   "status": "partial",
   "theorems": [
    "Evogil.Evaluation.C54_charge",
    "Evogil.Evaluation.C54_calls",
    "Evogil.Evaluation.C54_no_archive_partial",
    "Evogil.Evaluation.C54_smsemoa_overcharges",
    "Evogil.Evaluation.C54_archive_miscounts",
    "Evogil.Evaluation.C54_ibea_recharges",
    "Evogil.Evaluation.C54_ibea_first_partial"
   ],
   "note": "violated by the code: SMS-EMOA charges a population per child, IBEA charges known individuals again, OMOPSO and SPEA2 miscount with a fitness archive; proved for OMOPSO and SPEA2 without archive and for the first pass of IBEA"
  },
  {
   "property": "C55",
   "status": "partial",
   "theorems": [
    "Evogil.Problems.C55_attainable_partial",
    "Evogil.Problems.C55_uf6_partial",
    "Evogil.Problems.C55_uf9_partial",
    "Evogil.Problems.C55_uf6_violated",
    "Evogil.Problems.C55_uf9_violated",
    "Evogil.Problems.C55_ewa1_violated",
    "Evogil.Problems.C55_ewa2_violated",
    "Evogil.Problems.C55_kursawe_violated",
    "Evogil.Problems.C55_uf11_violated",
    "Evogil.Problems.C55_uf12_violated",
    "Evogil.Problems.uf12_gap"
   ],
   "note": "Exact real arithmetic. Holds for ZDT1-4, ZDT6, UF1-5, UF7, UF8, UF10 and ackley; violated by UF6, UF9, EWA1, EWA2, (by a rounding error) the table of kursawe, the table of UF11 (row 3) and every row of the table of UF12; the latter is stated for tables whose rows are within the squared distance 1.2 of (1, ..., 1), which the rows of the file are."
  },
  {
   "property": "C56",
   "status": "partial",
   "theorems": [
    "Evogil.Problems.C56_undominated_partial",
    "Evogil.Problems.C56_uf8_violated",
    "Evogil.Problems.C56_uf10_violated",
    "Evogil.Problems.C56_zdt3_violated",
    "Evogil.Problems.C56_uf11_violated",
    "Evogil.Problems.C56_kursawe_violated",
    "Evogil.Problems.C56_uf12",
    "Evogil.Problems.uf12_gap",
    "Evogil.Problems.uf11_penalty_void",
    "Evogil.Problems.rotP_dist",
    "Evogil.Problems.rotS_one"
   ],
   "note": "Exact real arithmetic. Holds for ZDT1, ZDT2, ZDT4, ZDT6, UF1-7, UF9, ackley, EWA1 and EWA2, and for UF12 (whose whole table is out of reach, see C55); violated by UF8, UF10 (wrong exponent) ZDT3 (a kept sample lies behind a local minimum), UF11 (row 4625 of its table is dominated) and kursawe (by a rounding error)."
  },
  {
   "property": "C57",
   "status": "partial",
   "theorems": [
    "Evogil.FrontTools.C57_pieces_partial",
    "Evogil.FrontTools.C57_defined",
    "Evogil.FrontTools.C57_isolated",
    "Evogil.FrontTools.C57_unsorted_loses"
   ],
   "note": "No point is lost and pieces start at gaps; violated: a gap after the first point of a piece starts no new one, and a front without a gap raises IndexError."
  },
  {
   "property": "C58",
   "status": "proved",
   "theorems": [
    "Evogil.HgsOptional.C58_roundtrip",
    "Evogil.HgsOptional.C58_domain",
    "Evogil.HgsOptional.C58_scale",
    "Evogil.HgsOptional.C58_all"
   ],
   "note": "Exact arithmetic."
  },
  {
   "property": "C59",
   "status": "partial",
   "theorems": [
    "Evogil.Ibea.C59_violated",
    "Evogil.Ibea.C59_partial",
    "Evogil.Mating.C59_chance_violated",
    "Evogil.Mating.C59_extremes_partial"
   ],
   "note": "violated: with p = 0.9 the individual with the smaller (worse) fitness wins in nine of ten tournaments; over all draws the fitter of two members is strictly less likely to become a parent"
  },
  {
   "property": "C60",
   "status": "proved",
   "theorems": [
    "Evogil.Nsgaii.C60_extremes",
    "Evogil.Nsgaii.C60_strict_minimum",
    "Evogil.Nsgaii.C60_prefers_distance"
   ],
   "note": "NSGA-II; the largest value of an objective is not protected (line 154 is commented out)"
  },
  {
   "property": "C61",
   "status": "proved",
   "theorems": [
    "Evogil.C61_old_mutate",
    "Evogil.C61_old_crossover",
    "Evogil.C61_crossover_beta"
   ],
   "note": ""
  },
  {
   "property": "C62",
   "status": "proved",
   "theorems": [
    "Evogil.Nsgaii.C62_best_value_kept",
    "Evogil.Nsgaii.C62_run"
   ],
   "note": "offspring are arbitrary fresh individuals; at least as many places as objectives"
  },
  {
   "property": "C63",
   "status": "partial",
   "theorems": [
    "Evogil.Omopso.C63_prune_removes_minimum",
    "Evogil.Omopso.C63_violated"
   ],
   "note": "violated always: the pruned leader is one with the smallest value of the last objective (proved for all archives)"
  },
  {
   "property": "C64",
   "status": "partial",
   "theorems": [
    "Evogil.Omopso.C64_add",
    "Evogil.Omopso.C64_sequence",
    "Evogil.Omopso.C64_eta_violated",
    "Evogil.Omopso.C64_eta_partial",
    "Evogil.Omopso.C64_eta_unbounded"
   ],
   "note": "proved for tolerance 0 (all sequences); violated for the tolerance of the reported archive, where the loss has no bound (C64_eta_unbounded: every member may be M times worse in the first objective, for any M) except a factor of (1 + eta)^2 per later offer (C64_eta_partial)."
  },
  {
   "property": "C65",
   "status": "proved",
   "theorems": [
    "Evogil.Omopso.C65_leader_size"
   ],
   "note": "all sequences, any dominance test"
  },
  {
   "property": "C66",
   "status": "proved",
   "theorems": [
    "Evogil.Omopso.C66_personal_best"
   ],
   "note": "all trajectories"
  },
  {
   "property": "C67",
   "status": "partial",
   "theorems": [
    "Evogil.Spea2.C67_truncation_partial",
    "Evogil.Spea2.C67_violated"
   ],
   "note": "proved: the removed individual belongs to a closest pair. Violated: the tie break stops at a level equal to the number of tied candidates, so for the usual tie of two neighbours the next distance is never compared"
  },
  {
   "property": "C68",
   "status": "proved",
   "theorems": [
    "Evogil.Smsemoa.C68_reduce",
    "Evogil.Smsemoa.C68_step",
    "Evogil.Smsemoa.C68_reduce_of",
    "Evogil.Smsemoa.C68_step_of",
    "Evogil.Hv.C68_routine"
   ],
   "note": "for every hypervolume function that is order-independent, monotone and ignores dominated points, and for the modelled routine of hv.py with one to four objectives"
  },
  {
   "property": "C69",
   "status": "proved",
   "theorems": [
    "Evogil.Ibea.C69_scaled"
   ],
   "note": "exact arithmetic, any positive epsilon"
  },
  {
   "property": "C70",
   "status": "proved",
   "theorems": [
    "Evogil.Ibea.C70_indicator",
    "Evogil.Ibea.C70_fitness",
    "Evogil.Ibea.C70_selection"
   ],
   "note": "for every strictly increasing exp, in particular Real.exp"
  },
  {
   "property": "C71",
   "status": "partial",
   "theorems": [
    "Evogil.Nsls.C71_violated",
    "Evogil.Nsls.C71_partial"
   ],
   "note": "violated: running minima and maxima are collected because of the indentation; holds when everything collected fits"
  },
  {
   "property": "C72",
   "status": "proved",
   "theorems": [
    "Evogil.Nsgaiii.C72_crossover",
    "Evogil.Nsgaiii.C72_mutation"
   ],
   "note": "exact arithmetic, powers satisfying the laws proved for real powers"
  },
  {
   "property": "C73",
   "status": "proved",
   "theorems": [
    "Evogil.Nsgaiii.C73_normalized",
    "Evogil.Nsgaiii.C73_cluster",
    "Evogil.Nsgaiii.C73_geometry",
    "Evogil.Nsgaiii.C73_score"
   ],
   "note": "for runs without immigrants (immigrants do not update the ideal point, see C115)"
  },
  {
   "property": "C74",
   "status": "partial",
   "theorems": [
    "Evogil.Nsgaiii.C74_nsgaiii_violated",
    "Evogil.Nsls.C74_nsls_partial"
   ],
   "note": "proved for NSLS; violated for every non-empty population and all draws by NSGA-III: the step raises TypeError"
  },
  {
   "property": "C75",
   "status": "proved",
   "theorems": [
    "Evogil.Nsls.C75_farthest"
   ],
   "note": "any distance function"
  },
  {
   "property": "C76",
   "status": "proved",
   "theorems": [
    "Evogil.Jgbl.C76_step"
   ],
   "note": "The step is modelled on individuals; the six children per jumping individual are a parameter here and modelled in C34_jump_genes."
  },
  {
   "property": "C77",
   "status": "partial",
   "theorems": [
    "Evogil.Hgs.C77_far_partial",
    "Evogil.Hgs.C77_limits_partial",
    "Evogil.Hgs.C77_root_alive",
    "Evogil.Hgs.C77_violated"
   ],
   "note": "All clauses hold except the bound on living sprouts: it holds when sprouts are released, but a revival wakes all finished sprouts at once."
  },
  {
   "property": "C78",
   "status": "proved",
   "theorems": [
    "Evogil.Hgs.C78_trim",
    "Evogil.Hgs.C78_apart",
    "Evogil.Hgs.C78_redundant_final"
   ],
   "note": "The mean of a population and the distance test are parameters."
  },
  {
   "property": "C79",
   "status": "partial",
   "theorems": [
    "Evogil.Trim.C79_box_partial",
    "Evogil.Trim.C79_box_violated"
   ],
   "note": "Holds when zero lies in every interval (all problems shipped); violated in general: with one bit the lower bound 3/8 becomes 1/4."
  },
  {
   "property": "C80",
   "status": "proved",
   "theorems": [
    "Evogil.Problems.C80_covers"
   ],
   "note": "Exact real arithmetic."
  },
  {
   "property": "C81",
   "status": "proved",
   "theorems": [
    "Evogil.Spea2.C81_select",
    "Evogil.Spea2.C81_nondominated",
    "Evogil.Spea2.C81_single_raises"
   ],
   "note": "Exact arithmetic. An archive with one member raises ValueError."
  },
  {
   "property": "C82",
   "status": "partial",
   "theorems": [
    "Evogil.Hv.C82_exact_partial",
    "Evogil.Hv.C82_four_partial",
    "Evogil.Hv.C82_distinct_partial",
    "Evogil.Hv.C82_violated_four",
    "Evogil.Hv.C82_violated_five"
   ],
   "note": "Exact real arithmetic, points strictly below the reference point. Holds for mutually non-dominated points with four objectives, and for any number of objectives if comparable points are strictly ordered in the coordinates the marks use (for instance no ties); violated with five objectives by a mutually non-dominated set with ties and with four objectives when dominated points are present."
  },
  {
   "property": "C83",
   "status": "proved",
   "theorems": [
    "Evogil.Hv.C83_mono",
    "Evogil.Hv.C83_congr"
   ],
   "note": "Exact real arithmetic."
  },
  {
   "property": "C84",
   "status": "proved",
   "theorems": [
    "Evogil.Hv.C84_metric",
    "Evogil.Hv.C84_mono",
    "Evogil.Hv.C84_empty"
   ],
   "note": "Exact real arithmetic; with four objectives no coordinate may be exactly 50."
  },
  {
   "property": "C85",
   "status": "proved",
   "theorems": [
    "Evogil.Dist.C85_tree",
    "Evogil.Dist.C85_always",
    "Evogil.Dist.C85_revival"
   ],
   "note": "Hypotheses as for C41; any rounding of the thresholds and of their halving."
  },
  {
   "property": "C86",
   "status": "proved",
   "theorems": [
    "Evogil.Dist.C86_metaepoch",
    "Evogil.Dist.C86_cost",
    "Evogil.Dist.C86_parallel",
    "Evogil.Dist.C86_trim",
    "Evogil.Dist.C86_metaepoch_rounded",
    "Evogil.Dist.C86_trim_rounded"
   ],
   "note": "Hypotheses as for C41; the comparison of costs needs nonnegative modifiers and drivers whose cost never decreases. C86_metaepoch and C86_trim compare with the sequential HGS in exact arithmetic (fl = id); C86_metaepoch_rounded and C86_trim_rounded compare with the sequential HGS under the same rounding, whatever that rounding is; the other two allow any rounding."
  },
  {
   "property": "C87",
   "status": "partial",
   "theorems": [
    "Evogil.Dist.C87_sprouts_partial",
    "Evogil.Dist.C87_limit_violated"
   ],
   "note": "Hypotheses as for C41. All clauses hold but the last: the number of living sprouts is checked before each sprout but not updated, so a node with room for one gets up to sproutiveness."
  },
  {
   "property": "C88",
   "status": "proved",
   "theorems": [
    "Evogil.Dist.C88_population"
   ],
   "note": "Hypotheses as for C41."
  },
  {
   "property": "C89",
   "status": "partial",
   "theorems": [
    "Evogil.C89_absolute",
    "Evogil.C89_exact_partial",
    "Evogil.C89_error_partial",
    "Evogil.Problems.C89_violated"
   ],
   "note": "Violated: the code takes the absolute value, so negative objectives are reflected; for ZDT3 HGS sees a dominated vector of the box as the better one. Proved for objectives that are not negative."
  },
  {
   "property": "C90",
   "status": "proved",
   "theorems": [
    "Evogil.C90_gen_population",
    "Evogil.C90_covers_box",
    "Evogil.C90_from_delegate",
    "Evogil.C90_from_delegate_total"
   ],
   "note": "Exact arithmetic; random.uniform(a, b) is a + (b - a) u with u between 0 and 1."
  },
  {
   "property": "C91",
   "status": "proved",
   "theorems": [
    "Evogil.C91_order"
   ],
   "note": ""
  },
  {
   "property": "C92",
   "status": "partial",
   "theorems": [
    "Evogil.Storage.C92_reference_partial",
    "Evogil.Storage.C92_violated"
   ],
   "note": "Violated: runs are numbered here in the order of the directory listing, elsewhere in the order of their names. Proved if both orders agree."
  },
  {
   "property": "C93",
   "status": "proved",
   "theorems": [
    "Evogil.Storage.C93_never_stale",
    "Evogil.Storage.C93_share",
    "Evogil.Storage.C93_earlier_run"
   ],
   "note": "One problem; each evaluation starts with an empty dictionary (a new process). C93_earlier_run shows that the assumption about the names of new runs is needed."
  },
  {
   "property": "C94",
   "status": "proved",
   "theorems": [
    "Evogil.Generations.C94_nsgaii",
    "Evogil.Generations.C94_spea2",
    "Evogil.Generations.C94_spea2_single",
    "Evogil.Generations.C94_ibea",
    "Evogil.Generations.C94_smsemoa"
   ],
   "note": "Exact arithmetic; draws are valid results of the random functions. C94_spea2_single: with one individual the first step of SPEA2 raises."
  },
  {
   "property": "C95",
   "status": "proved",
   "theorems": [
    "Evogil.Generations.C95_nsgaii",
    "Evogil.Generations.C95_nsgaii_cost",
    "Evogil.Generations.C95_nsgaii_overshoot",
    "Evogil.Generations.C95_nsgaii_empty",
    "Evogil.Generations.C95_spea2",
    "Evogil.Generations.C95_spea2_cost",
    "Evogil.Generations.C95_spea2_overshoot",
    "Evogil.Generations.C95_ibea",
    "Evogil.Generations.C95_ibea_cost",
    "Evogil.Generations.C95_smsemoa",
    "Evogil.Generations.C95_smsemoa_cost",
    "Evogil.Generations.C95_smsemoa_overshoot",
    "Evogil.Generations.C95_smsemoa_empty"
   ],
   "note": "No fitness archive. The _empty theorems show that without a child per step no budget above N is reached and the simulation never ends."
  },
  {
   "property": "C96",
   "status": "proved",
   "theorems": [
    "Evogil.Swarm.C96_omopso",
    "Evogil.Swarm.C96_empty",
    "Evogil.Swarm.C96_budget",
    "Evogil.Swarm.C96_cost"
   ],
   "note": "Exact arithmetic; the statement about budgets without a fitness archive. C96_empty: with an empty population the constructor raises."
  },
  {
   "property": "C97",
   "status": "proved",
   "theorems": [
    "Evogil.Jumping.C97_jgbl",
    "Evogil.Jumping.C97_budget",
    "Evogil.Jumping.C97_cost"
   ],
   "note": "Exact arithmetic; with rounding the box of UF11 and UF12 is left, see C122. Boxes with an interval of length 0 are excluded: JGBL divides by the length (C34). Draws are valid results of the random functions, which requires int(jumping_percentage * dims) <= dims."
  },
  {
   "property": "C98",
   "status": "proved",
   "theorems": [
    "Evogil.Jumping.C98_best_values"
   ],
   "note": "Exact arithmetic; the fitness archive, if any, holds right values. An example shows that a best value can be lost if there are fewer individuals than objectives."
  },
  {
   "property": "C99",
   "status": "proved",
   "theorems": [
    "Evogil.Statistics.C99_outliers",
    "Evogil.Statistics.C99_order",
    "Evogil.Statistics.C99_affine"
   ],
   "note": "Exact arithmetic; square root as a parameter. numpy.percentile is modelled with its default linear interpolation. pr_dispersion is left out."
  }
 ]
}