import Verif.Props.Dominance
import Verif.Props.ParetoFilter
import Verif.Props.Layers
import Verif.Props.NdSort
import Verif.Props.Driver
import Verif.Props.Variation
import Verif.Props.Metrics
import Verif.Props.Storage
import Verif.Props.Listing
import Verif.Props.MetricCache
import Verif.Props.Factory
import Verif.Props.Statistics
import Verif.Props.RunParallel
import Verif.Props.Evaluation
import Verif.Props.Nsgaii
import Verif.Props.Omopso
import Verif.Props.OmopsoEta
import Verif.Props.Spea2
import Verif.Props.Smsemoa
import Verif.Props.Ibea
import Verif.Props.Nsgaiii
import Verif.Props.Nsls
import Verif.Props.Bogo
import Verif.Props.Jgbl
import Verif.Props.Imga
import Verif.Props.Torus
import Verif.Props.Hgs
import Verif.Props.Trim
import Verif.Props.FrontTools
import Verif.Props.HgsOptional
import Verif.Props.Problems
import Verif.Props.ProblemsUf8
import Verif.Model.HgsFitness
import Verif.Props.HgsFitness
import Verif.Props.Zdt3
import Verif.Props.HyperVolume
import Verif.Props.HyperVolumeUse
import Verif.Model.DistHgs
import Verif.Spec.Inevitable
import Verif.Lemmas.DistSim
import Verif.Model.DistHgsSeq
import Verif.Lemmas.DistBcast
import Verif.Lemmas.DistPhases
import Verif.Lemmas.DistAsk
import Verif.Lemmas.DistSprout
import Verif.Lemmas.DistTurn
import Verif.Lemmas.DistGrow
import Verif.Lemmas.DistRelease
import Verif.Lemmas.DistRun
import Verif.Spec.DistHgs
import Verif.Props.DistHgs
import Verif.Lemmas.DistMore
import Verif.Props.DistHgsStep
import Verif.Model.PdiCache
import Verif.Lemmas.PdiCache
import Verif.Props.PdiCache
import Verif.Lemmas.PdiHistory
import Verif.Props.PdiHistory
import Verif.Model.Generations
import Verif.Lemmas.Generations
import Verif.Props.Generations
import Verif.Model.GenerationsRun
import Verif.Props.GenerationsRun
import Verif.Model.Swarm
import Verif.Props.Swarm
import Verif.Model.Jumping
import Verif.Model.Outliers
import Verif.Model.NsgaiiiRun
import Verif.Model.NslsRun
import Verif.Props.NsgaiiiRun
import Verif.Props.NslsRun
import Verif.Spec.Quartiles
import Verif.Props.Outliers
import Verif.Props.Jumping
import Verif.Props.Elitism
import Verif.Model.ImgaRun
import Verif.Model.SavedResult
import Verif.Props.ImgaRun
import Verif.Props.SavedResult
import Verif.Model.SwarmHeap
import Verif.Props.SwarmHeap
import Verif.Model.HgsRun
import Verif.Spec.HgsRun
import Verif.Lemmas.HgsRun
import Verif.Props.HgsRun
import Verif.Props.HgsRunNsgaii
import Verif.Props.HgsRunSpea2
import Verif.Model.RankingRun
import Verif.Spec.RankingRun
import Verif.Lemmas.RankingRun
import Verif.Props.RankingRun
import Verif.Model.ProblemsData
import Verif.Props.ProblemsData
import Verif.Model.ProblemsChecked
import Verif.Props.ProblemsChecked
import Verif.Model.Summary
import Verif.Spec.Summary
import Verif.Lemmas.Summary
import Verif.Props.Summary
import Verif.Model.HgsRunMore
import Verif.Props.HgsRunSeeded
import Verif.Props.HgsRunIbea
import Verif.Props.HgsRunSms
import Verif.Model.RunConfig
import Verif.Spec.RunConfig
import Verif.Props.RunConfig
import Verif.Props.RunConfigNodes
import Verif.Props.RunConfigRuns
import Verif.Model.RankingTables
import Verif.Spec.RankingTables
import Verif.Props.RankingTables
import Verif.Props.RankingCells
import Verif.Model.DistDrivers
import Verif.Spec.DistDrivers
import Verif.Lemmas.DistDrivers
import Verif.Props.DistDrivers
import Verif.Props.DistDriversRuns
import Verif.Model.HgsBudget
import Verif.Spec.HgsBudget
import Verif.Props.HgsBudget
import Verif.Props.HgsBudgetRuns
import Verif.Model.HgsRunRest
import Verif.Props.HgsRunRest
import Verif.Props.DistDriversRest
import Verif.Model.HgsRunArchive
import Verif.Props.HgsRunArchive
import Verif.Props.HgsArchiveRuns
import Verif.Model.ImgaRunRest
import Verif.Props.ImgaRunRest
import Verif.Props.IslandIdeal
import Verif.Props.ProblemsTables
import Verif.Model.Plots
import Verif.Spec.Plots
import Verif.Props.Plots
import Verif.Props.PlotsSummary
import Verif.Props.PlotsViolin
import Verif.Props.PlotsFronts
import Verif.Model.Progress
import Verif.Spec.Progress
import Verif.Props.Progress
import Verif.Model.Binary64
import Verif.Lemmas.Binary64
import Verif.Lemmas.Binary64Real
import Verif.Model.Rounded
import Verif.Spec.Rounded
import Verif.Lemmas.Rounded
import Verif.Props.Rounded
import Verif.Spec.Published
import Verif.Props.Published
import Verif.Props.RoundedJgbl
import Verif.Model.RoundedMoves
import Verif.Spec.RoundedMoves
import Verif.Lemmas.Nearest
import Verif.Props.RoundedMoves
import Verif.Model.RoundedSelection
import Verif.Props.RoundedSelection
import Verif.Model.RoundedHv
import Verif.Spec.RoundedError
import Verif.Lemmas.RoundedError
import Verif.Lemmas.RoundedHv
import Verif.Props.RoundedHv
import Verif.Model.RoundedMetrics
import Verif.Props.RoundedMetrics
import Verif.Model.RoundedSmsemoa
import Verif.Props.RoundedSmsemoa
import Verif.Model.RoundedNsgaii
import Verif.Props.RoundedNsgaii
import Verif.Model.RoundedIbea
import Verif.Props.RoundedIbea
import Verif.Lemmas.Interpolation
import Verif.Lemmas.RoundedMean
import Verif.Model.RoundedStats
import Verif.Props.RoundedStats
import Verif.Model.DirWalker
import Verif.Spec.DirWalker
import Verif.Props.DirWalker
import Verif.Model.RoundedNsgaiii
import Verif.Spec.Numpy
import Verif.Spec.Scaled
import Verif.Props.RoundedNsgaiii
import Verif.Model.FloatExpr
import Verif.Model.RoundedProblems
import Verif.Spec.MathLib
import Verif.Lemmas.FloatRange
import Verif.Lemmas.MathLib
import Verif.Props.RoundedProblems
import Verif.Lemmas.FloatErrorDef
import Verif.Lemmas.FloatError
import Verif.Props.RoundedProblemsError
import Verif.Lemmas.Rotation
import Verif.Lemmas.Prune
import Verif.Spec.Penalty
import Verif.Props.RotatedPenalty
import Verif.Props.RoundedRotated
import Verif.Model.SwarmNest
import Verif.Lemmas.SwarmNest
import Verif.Props.SwarmNest
import Verif.Model.RoundedRun
import Verif.Lemmas.RoundedRun
import Verif.Props.RoundedRun
import Verif.Model.RoundedRanking
import Verif.Props.RoundedRanking
import Verif.Model.RoundedSwarm
import Verif.Props.RoundedSwarm
import Verif.Model.RoundedTime
import Verif.Props.RoundedTime
import Verif.Model.RoundedHgs
import Verif.Props.RoundedHgs
import Verif.Props.Interior
import Verif.Lemmas.InteriorRun
import Verif.Props.InteriorRun
import Verif.Model.RxTools
import Verif.Props.RxTools
import Verif.Model.Worker
import Verif.Props.Worker
import Verif.Model.Renice
import Verif.Props.Renice
import Verif.Model.WorkerQueue
import Verif.Props.WorkerQueue
import Verif.Spec.Mating
import Verif.Lemmas.Mating
import Verif.Props.Mating
import Verif.Model.RoundedNsls
import Verif.Lemmas.RoundedNsls
import Verif.Props.RoundedNsls
import Verif.Model.RoundedNsgaiiiRun
import Verif.Props.RoundedNsgaiiiRun
import Verif.Model.RoundedJumping
import Verif.Props.RoundedJumping
import Verif.Model.RoundedBudget
import Verif.Props.RoundedBudget
import Verif.Model.RoundedImga
import Verif.Props.RoundedImga
import Verif.Model.RoundedImgaRest
import Verif.Props.RoundedImgaRest
import Verif.Model.RoundedHgsRun
import Verif.Spec.RoundedHgsRun
import Verif.Lemmas.RoundedHgsRun
import Verif.Props.RoundedHgsRun
import Verif.Props.RoundedHgsNodes
import Verif.Model.RoundedHgsRest
import Verif.Props.RoundedHgsRest
import Verif.Model.Seed
import Verif.Props.Seed
import Verif.Model.RoundedDist
import Verif.Props.RoundedDist
import Verif.Props.RoundedHgsTrim
import Verif.Props.RoundedDistStep
import Verif.Props.CommandLine

/-! # The axioms used by the theorems of the manifest -/

#print axioms Evogil.C01_dominates_iff
#print axioms Evogil.C01_cmp
#print axioms Evogil.C02_irrefl
#print axioms Evogil.C02_asymm
#print axioms Evogil.C02_trans
#print axioms Evogil.C02_cmp_antisymm
#print axioms Evogil.C02_trans_needs_equal_length
#print axioms Evogil.C03_nsgaii
#print axioms Evogil.C03_omopso
#print axioms Evogil.C03_equal_obj
#print axioms Evogil.C04_terminates
#print axioms Evogil.C04_partition
#print axioms Evogil.C04_layer_antichain
#print axioms Evogil.C04_layer_rank
#print axioms Evogil.C04_dominated_by_previous
#print axioms Evogil.C04_docstring_false
#print axioms Evogil.C05_nsgaii_sorts_by_rank
#print axioms Evogil.C05_smsemoa_sorts_by_rank
#print axioms Evogil.C05_nsgaiii_sorts_by_rank
#print axioms Evogil.C05_nsga_rank
#print axioms Evogil.C05_fronts_eq_layers
#print axioms Evogil.C06_filter_eq
#print axioms Evogil.C06_mem_filter
#print axioms Evogil.C06_order_independent
#print axioms Evogil.C06_covers
#print axioms Evogil.C06_filter2
#print axioms Evogil.C07_defined
#print axioms Evogil.C07_value
#print axioms Evogil.C07_nonneg
#print axioms Evogil.C07_zero_iff
#print axioms Evogil.C07_igd_swap
#print axioms Evogil.C07_ahd_value
#print axioms Evogil.C07_ahd_zero_iff
#print axioms Evogil.C08_least_shift
#print axioms Evogil.C08_nonpos_iff
#print axioms Evogil.C08_empty
#print axioms Evogil.C08_not_the_usual_orientation
#print axioms Evogil.Hv.C09_exact
#print axioms Evogil.Hv.C10_lists
#print axioms Evogil.Hv.C10_remove
#print axioms Evogil.Hv.C10_restore
#print axioms Evogil.Hv.C10_run
#print axioms Evogil.C11_combined_front
#print axioms Evogil.C11_share_partial
#print axioms Evogil.C11_general
#print axioms Evogil.C11_exceeds_one
#print axioms Evogil.C12_spacing_nonneg
#print axioms Evogil.C12_nearest
#print axioms Evogil.C12_spacing_zero_iff
#print axioms Evogil.C12_extent_value
#print axioms Evogil.C12_extent_mono
#print axioms Evogil.C12_extent_zero_iff
#print axioms Evogil.C12_extent_defined
#print axioms Evogil.C12_ndr
#print axioms Evogil.C13_coordinates
#print axioms Evogil.C13_in_box
#print axioms Evogil.C13_total
#print axioms Evogil.C13_real
#print axioms Evogil.C13_direction
#print axioms Evogil.C13_direction_real
#print axioms Evogil.C14_parents_untouched
#print axioms Evogil.C14_coordinates
#print axioms Evogil.C14_chosen_parent
#print axioms Evogil.C14_in_box
#print axioms Evogil.C14_total
#print axioms Evogil.C14_real
#print axioms Evogil.C15_budget_run
#print axioms Evogil.C15_messages_below
#print axioms Evogil.C15_no_step
#print axioms Evogil.C15_ends_iff
#print axioms Evogil.C15_terminates
#print axioms Evogil.C16_time_run_partial
#print axioms Evogil.C16_slot_faithful_after_first_step
#print axioms Evogil.C16_ends
#print axioms Evogil.C16_first_slot_false
#print axioms Evogil.C17_steps_run
#print axioms Evogil.Storage.C18_read_back
#print axioms Evogil.Storage.C18_other_files_kept
#print axioms Evogil.Storage.C18_other_results
#print axioms Evogil.Storage.C18_store_succeeds
#print axioms Evogil.Storage.C18_store_wf
#print axioms Evogil.Storage.C18_history
#print axioms Evogil.Storage.C19_order_independent
#print axioms Evogil.Storage.C19_runs
#print axioms Evogil.Storage.C19_groups
#print axioms Evogil.Storage.C19_leading_zero_loses_results
#print axioms Evogil.Storage.C19_file_as_run_fails
#print axioms Evogil.Storage.C20_seven_digits
#print axioms Evogil.Storage.C20_random
#print axioms Evogil.Storage.C20_injective
#print axioms Evogil.Storage.C20_injective_dates
#print axioms Evogil.Storage.C20_listed
#print axioms Evogil.Storage.C20_large_not_listed
#print axioms Evogil.Storage.C20_rebuilt_id
#print axioms Evogil.Storage.C21_answer
#print axioms Evogil.Storage.C21_as_computed
#print axioms Evogil.Storage.C21_other_params_refused
#print axioms Evogil.Storage.C21_results_untouched
#print axioms Evogil.Storage.C21_stale
#print axioms Evogil.Evaluation.C22_objectives
#print axioms Evogil.Evaluation.C22_cost_is_calls
#print axioms Evogil.Evaluation.C22_cost_no_archive
#print axioms Evogil.Evaluation.C22_cost_archive
#print axioms Evogil.Nsgaii.C23_elitist
#print axioms Evogil.Nsgaii.C23_nondominated_survive
#print axioms Evogil.Spea2.C24_raw
#print axioms Evogil.Spea2.C24_fitness
#print axioms Evogil.Spea2.C24_single_raises
#print axioms Evogil.Spea2.C25_archive
#print axioms Evogil.Spea2.C25_step
#print axioms Evogil.Ibea.C26_selection
#print axioms Evogil.Smsemoa.C27_reduce
#print axioms Evogil.Smsemoa.C27_empty_raises
#print axioms Evogil.Smsemoa.C27_size
#print axioms Evogil.Omopso.C28_violated
#print axioms Evogil.Omopso.C28_add_partial
#print axioms Evogil.Omopso.C28_eta_partial
#print axioms Evogil.Omopso.C29_coord
#print axioms Evogil.Omopso.C29_move
#print axioms Evogil.Omopso.C29_mutation
#print axioms Evogil.Nsgaiii.C30_simplex
#print axioms Evogil.Nsgaiii.C30_simplex_real
#print axioms Evogil.Nsgaiii.C30_length_pos
#print axioms Evogil.Nsgaiii.C31_ideal
#print axioms Evogil.Nsgaiii.C31_ideal_history
#print axioms Evogil.Nsgaiii.C31_selection
#print axioms Evogil.Nsgaiii.C31_selection_diverges
#print axioms Evogil.Nsgaiii.C31_step
#print axioms Evogil.Nsgaiii.C31_init
#print axioms Evogil.Nsgaiii.C31_single_diverges
#print axioms Evogil.Nsls.C32_turn
#print axioms Evogil.Nsls.C32_local_search
#print axioms Evogil.Nsls.C32_next_generation
#print axioms Evogil.Nsls.C32_next_generation_diverges
#print axioms Evogil.Nsls.C32_step
#print axioms Evogil.Nsls.C32_can_diverge
#print axioms Evogil.Bogo.C33_antichain
#print axioms Evogil.Bogo.C33_partial
#print axioms Evogil.Bogo.C33_violated
#print axioms Evogil.Jgbl.C34_codec
#print axioms Evogil.Jgbl.C34_cut_and_paste
#print axioms Evogil.Jgbl.C34_copy_and_paste
#print axioms Evogil.Jgbl.C34_jump_genes
#print axioms Evogil.Jgbl.C34_children
#print axioms Evogil.Imga.C35_partition
#print axioms Evogil.Imga.C36_exchange
#print axioms Evogil.Imga.C36_conservation
#print axioms Evogil.Imga.C36_torus
#print axioms Evogil.Imga.C36_too_small
#print axioms Evogil.Imga.C36_asymmetric
#print axioms Evogil.Imga.C37_neighbours
#print axioms Evogil.Imga.C37_symmetric
#print axioms Evogil.Imga.C37_loop_free
#print axioms Evogil.Imga.C37_four
#print axioms Evogil.Imga.C37_isolated
#print axioms Evogil.Hgs.C38_tree
#print axioms Evogil.Hgs.C38_root_level
#print axioms Evogil.Hgs.C39_cost
#print axioms Evogil.Hgs.C39_node_cost
#print axioms Evogil.Hgs.C39_monotone
#print axioms Evogil.Hgs.C40_alive_partial
#print axioms Evogil.Hgs.C40_revival_partial
#print axioms Evogil.Hgs.C40_config_violated
#print axioms Evogil.Dist.C41_served
#print axioms Evogil.Dist.C41_once
#print axioms Evogil.Dist.C41_order
#print axioms Evogil.Dist.C42_partial
#print axioms Evogil.Dist.C42_violated
#print axioms Evogil.Factory.C43_plan
#print axioms Evogil.Factory.C43_defaults
#print axioms Evogil.Factory.C43_parsable
#print axioms Evogil.Factory.C43_budgets
#print axioms Evogil.Factory.C44_precedence
#print axioms Evogil.Factory.C45_nested
#print axioms Evogil.Factory.C45_refused
#print axioms Evogil.Factory.C45_known_algorithms
#print axioms Evogil.Statistics.findAcceptable_some
#print axioms Evogil.Statistics.findAcceptable_none_iff
#print axioms Evogil.Statistics.findAcceptable_raises_iff
#print axioms Evogil.Statistics.bootstrap_spec
#print axioms Evogil.Statistics.bootstrap_empty_resamples
#print axioms Evogil.Statistics.awards_spec
#print axioms Evogil.Statistics.awards_perm
#print axioms Evogil.RunParallel.not_failureIsolated
#print axioms Evogil.RunParallel.runParallel_stops_at_failure
#print axioms Evogil.RunParallel.runParallel_all_ok_partial
#print axioms Evogil.Trim.C50_rounding
#print axioms Evogil.Trim.C50_unique
#print axioms Evogil.Trim.C50_exact
#print axioms Evogil.Trim.C50_idempotent
#print axioms Evogil.Trim.C50_error
#print axioms Evogil.C51_names
#print axioms Evogil.C51_cost_reached
#print axioms Evogil.C51_costs_sorted
#print axioms Evogil.C51_terminates
#print axioms Evogil.C51_step_numbers
#print axioms Evogil.C52_stored_one_step_late_partial
#print axioms Evogil.C52_false
#print axioms Evogil.Statistics.weightedChoice_interval
#print axioms Evogil.Statistics.weightedChoice_pos
#print axioms Evogil.Statistics.weightedChoice_fails_iff
#print axioms Evogil.Evaluation.C54_charge
#print axioms Evogil.Evaluation.C54_calls
#print axioms Evogil.Evaluation.C54_no_archive_partial
#print axioms Evogil.Evaluation.C54_smsemoa_overcharges
#print axioms Evogil.Evaluation.C54_archive_miscounts
#print axioms Evogil.Evaluation.C54_ibea_recharges
#print axioms Evogil.Evaluation.C54_ibea_first_partial
#print axioms Evogil.Problems.C55_attainable_partial
#print axioms Evogil.Problems.C55_uf6_partial
#print axioms Evogil.Problems.C55_uf9_partial
#print axioms Evogil.Problems.C55_uf6_violated
#print axioms Evogil.Problems.C55_uf9_violated
#print axioms Evogil.Problems.C55_ewa1_violated
#print axioms Evogil.Problems.C55_ewa2_violated
#print axioms Evogil.Problems.C55_kursawe_violated
#print axioms Evogil.Problems.C55_uf11_violated
#print axioms Evogil.Problems.C55_uf12_violated
#print axioms Evogil.Problems.uf12_gap
#print axioms Evogil.Problems.C56_undominated_partial
#print axioms Evogil.Problems.C56_uf8_violated
#print axioms Evogil.Problems.C56_uf10_violated
#print axioms Evogil.Problems.C56_zdt3_violated
#print axioms Evogil.Problems.C56_uf11_violated
#print axioms Evogil.Problems.C56_kursawe_violated
#print axioms Evogil.Problems.C56_uf12
#print axioms Evogil.Problems.uf11_penalty_void
#print axioms Evogil.Problems.rotP_dist
#print axioms Evogil.Problems.rotS_one
#print axioms Evogil.FrontTools.C57_pieces_partial
#print axioms Evogil.FrontTools.C57_defined
#print axioms Evogil.FrontTools.C57_isolated
#print axioms Evogil.FrontTools.C57_unsorted_loses
#print axioms Evogil.HgsOptional.C58_roundtrip
#print axioms Evogil.HgsOptional.C58_domain
#print axioms Evogil.HgsOptional.C58_scale
#print axioms Evogil.HgsOptional.C58_all
#print axioms Evogil.Ibea.C59_violated
#print axioms Evogil.Ibea.C59_partial
#print axioms Evogil.Mating.C59_chance_violated
#print axioms Evogil.Mating.C59_extremes_partial
#print axioms Evogil.Nsgaii.C60_extremes
#print axioms Evogil.Nsgaii.C60_strict_minimum
#print axioms Evogil.Nsgaii.C60_prefers_distance
#print axioms Evogil.C61_old_mutate
#print axioms Evogil.C61_old_crossover
#print axioms Evogil.C61_crossover_beta
#print axioms Evogil.Nsgaii.C62_best_value_kept
#print axioms Evogil.Nsgaii.C62_run
#print axioms Evogil.Omopso.C63_prune_removes_minimum
#print axioms Evogil.Omopso.C63_violated
#print axioms Evogil.Omopso.C64_add
#print axioms Evogil.Omopso.C64_sequence
#print axioms Evogil.Omopso.C64_eta_violated
#print axioms Evogil.Omopso.C64_eta_partial
#print axioms Evogil.Omopso.C64_eta_unbounded
#print axioms Evogil.Omopso.C65_leader_size
#print axioms Evogil.Omopso.C66_personal_best
#print axioms Evogil.Spea2.C67_truncation_partial
#print axioms Evogil.Spea2.C67_violated
#print axioms Evogil.Smsemoa.C68_reduce
#print axioms Evogil.Smsemoa.C68_step
#print axioms Evogil.Smsemoa.C68_reduce_of
#print axioms Evogil.Smsemoa.C68_step_of
#print axioms Evogil.Hv.C68_routine
#print axioms Evogil.Ibea.C69_scaled
#print axioms Evogil.Ibea.C70_indicator
#print axioms Evogil.Ibea.C70_fitness
#print axioms Evogil.Ibea.C70_selection
#print axioms Evogil.Nsls.C71_violated
#print axioms Evogil.Nsls.C71_partial
#print axioms Evogil.Nsgaiii.C72_crossover
#print axioms Evogil.Nsgaiii.C72_mutation
#print axioms Evogil.Nsgaiii.C73_normalized
#print axioms Evogil.Nsgaiii.C73_cluster
#print axioms Evogil.Nsgaiii.C73_geometry
#print axioms Evogil.Nsgaiii.C73_score
#print axioms Evogil.Nsgaiii.C74_nsgaiii_violated
#print axioms Evogil.Nsls.C74_nsls_partial
#print axioms Evogil.Nsls.C75_farthest
#print axioms Evogil.Jgbl.C76_step
#print axioms Evogil.Hgs.C77_far_partial
#print axioms Evogil.Hgs.C77_limits_partial
#print axioms Evogil.Hgs.C77_root_alive
#print axioms Evogil.Hgs.C77_violated
#print axioms Evogil.Hgs.C78_trim
#print axioms Evogil.Hgs.C78_apart
#print axioms Evogil.Hgs.C78_redundant_final
#print axioms Evogil.Trim.C79_box_partial
#print axioms Evogil.Trim.C79_box_violated
#print axioms Evogil.Problems.C80_covers
#print axioms Evogil.Spea2.C81_select
#print axioms Evogil.Spea2.C81_nondominated
#print axioms Evogil.Spea2.C81_single_raises
#print axioms Evogil.Hv.C82_exact_partial
#print axioms Evogil.Hv.C82_four_partial
#print axioms Evogil.Hv.C82_distinct_partial
#print axioms Evogil.Hv.C82_violated_four
#print axioms Evogil.Hv.C82_violated_five
#print axioms Evogil.Hv.C83_mono
#print axioms Evogil.Hv.C83_congr
#print axioms Evogil.Hv.C84_metric
#print axioms Evogil.Hv.C84_mono
#print axioms Evogil.Hv.C84_empty
#print axioms Evogil.Dist.C85_tree
#print axioms Evogil.Dist.C85_always
#print axioms Evogil.Dist.C85_revival
#print axioms Evogil.Dist.C86_metaepoch
#print axioms Evogil.Dist.C86_cost
#print axioms Evogil.Dist.C86_parallel
#print axioms Evogil.Dist.C86_trim
#print axioms Evogil.Dist.C86_metaepoch_rounded
#print axioms Evogil.Dist.C86_trim_rounded
#print axioms Evogil.Dist.C87_sprouts_partial
#print axioms Evogil.Dist.C87_limit_violated
#print axioms Evogil.Dist.C88_population
#print axioms Evogil.C89_absolute
#print axioms Evogil.C89_exact_partial
#print axioms Evogil.C89_error_partial
#print axioms Evogil.Problems.C89_violated
#print axioms Evogil.C90_gen_population
#print axioms Evogil.C90_covers_box
#print axioms Evogil.C90_from_delegate
#print axioms Evogil.C90_from_delegate_total
#print axioms Evogil.C91_order
#print axioms Evogil.Storage.C92_reference_partial
#print axioms Evogil.Storage.C92_violated
#print axioms Evogil.Storage.C93_never_stale
#print axioms Evogil.Storage.C93_share
#print axioms Evogil.Storage.C93_earlier_run
#print axioms Evogil.Generations.C94_nsgaii
#print axioms Evogil.Generations.C94_spea2
#print axioms Evogil.Generations.C94_spea2_single
#print axioms Evogil.Generations.C94_ibea
#print axioms Evogil.Generations.C94_smsemoa
#print axioms Evogil.Generations.C95_nsgaii
#print axioms Evogil.Generations.C95_nsgaii_cost
#print axioms Evogil.Generations.C95_nsgaii_overshoot
#print axioms Evogil.Generations.C95_nsgaii_empty
#print axioms Evogil.Generations.C95_spea2
#print axioms Evogil.Generations.C95_spea2_cost
#print axioms Evogil.Generations.C95_spea2_overshoot
#print axioms Evogil.Generations.C95_ibea
#print axioms Evogil.Generations.C95_ibea_cost
#print axioms Evogil.Generations.C95_smsemoa
#print axioms Evogil.Generations.C95_smsemoa_cost
#print axioms Evogil.Generations.C95_smsemoa_overshoot
#print axioms Evogil.Generations.C95_smsemoa_empty
#print axioms Evogil.Swarm.C96_omopso
#print axioms Evogil.Swarm.C96_empty
#print axioms Evogil.Swarm.C96_budget
#print axioms Evogil.Swarm.C96_cost
#print axioms Evogil.Jumping.C97_jgbl
#print axioms Evogil.Jumping.C97_budget
#print axioms Evogil.Jumping.C97_cost
#print axioms Evogil.Jumping.C98_best_values
#print axioms Evogil.Statistics.C99_outliers
#print axioms Evogil.Statistics.C99_order
#print axioms Evogil.Statistics.C99_affine
#print axioms Evogil.Statistics.C100_mark
#print axioms Evogil.Statistics.C100_small
#print axioms Evogil.Statistics.C100_eleven
#print axioms Evogil.Nsgaiii.C101_run
#print axioms Evogil.Nsgaiii.C101_cost
#print axioms Evogil.Nsgaiii.C101_budget
#print axioms Evogil.Nsgaiii.C101_stuck
#print axioms Evogil.Nsls.C102_run
#print axioms Evogil.Nsls.C102_budget
#print axioms Evogil.Nsls.C102_incomparable
#print axioms Evogil.Imga.C103_step
#print axioms Evogil.Imga.C103_no_epoch
#print axioms Evogil.Imga.C103_budgets
#print axioms Evogil.Imga.C103_cost
#print axioms Evogil.Imga.C103_stuck
#print axioms Evogil.Imga.C103_nsgaii
#print axioms Evogil.Imga.C103_spea2
#print axioms Evogil.Imga.C103_ibea
#print axioms Evogil.Imga.C103_smsemoa
#print axioms Evogil.Imga.C103_step_loose
#print axioms Evogil.Imga.C103_run
#print axioms Evogil.Imga.C103_omopso
#print axioms Evogil.Imga.C103_nsgaiii
#print axioms Evogil.Imga.C103_nsls
#print axioms Evogil.Imga.C103_jgbl
#print axioms Evogil.C104_lists_partial
#print axioms Evogil.C104_iterator
#print axioms Evogil.C104_imga
#print axioms Evogil.Swarm.C105_fresh_partial
#print axioms Evogil.Swarm.C105_refines
#print axioms Evogil.Swarm.C105_same
#print axioms Evogil.Swarm.C105_violated
#print axioms Evogil.Swarm.C105_aliased
#print axioms Evogil.Hgs.C106_run
#print axioms Evogil.Hgs.C106_cost
#print axioms Evogil.Hgs.C106_progress
#print axioms Evogil.Hgs.C106_nsgaii
#print axioms Evogil.Hgs.C106_spea2
#print axioms Evogil.Hgs.C106_box
#print axioms Evogil.Hgs.C106_ibea
#print axioms Evogil.Hgs.C106_smsemoa
#print axioms Evogil.Hgs.C106_archive
#print axioms Evogil.Hgs.C106_nsgaiii
#print axioms Evogil.Hgs.C106_nsls
#print axioms Evogil.Hgs.C106_jgbl
#print axioms Evogil.Hgs.C106_omopso
#print axioms Evogil.RankingRun.C107_rank
#print axioms Evogil.RankingRun.C107_total
#print axioms Evogil.RankingRun.C107_winners
#print axioms Evogil.RankingRun.C107_raises
#print axioms Evogil.RankingRun.C107_order
#print axioms Evogil.Problems.Checked.C108_total
#print axioms Evogil.Problems.Checked.C108_values
#print axioms Evogil.Storage.C109_rows
#print axioms Evogil.Storage.C109_run
#print axioms Evogil.Storage.C109_interrupted
#print axioms Evogil.Storage.C109_counts
#print axioms Evogil.Storage.C109_command
#print axioms Evogil.Storage.C109_stray
#print axioms Evogil.Factory.C110_call
#print axioms Evogil.Factory.C110_drivers
#print axioms Evogil.Factory.C110_islands
#print axioms Evogil.Factory.C110_nodes
#print axioms Evogil.Factory.C110_no_front
#print axioms Evogil.Hgs.C110_numbers
#print axioms Evogil.Hgs.C110_run_spea2
#print axioms Evogil.Hgs.C110_run_ibea
#print axioms Evogil.Hgs.C110_run_smsemoa
#print axioms Evogil.RankingRun.C111_detailed
#print axioms Evogil.RankingRun.C111_order_matters
#print axioms Evogil.RankingRun.C112_table
#print axioms Evogil.Dist.C113_run
#print axioms Evogil.Dist.C113_box
#print axioms Evogil.Dist.C113_nsgaii
#print axioms Evogil.Dist.C113_spea2
#print axioms Evogil.Dist.C113_ibea
#print axioms Evogil.Dist.C113_smsemoa
#print axioms Evogil.Dist.C113_omopso
#print axioms Evogil.Dist.C113_nsgaiii
#print axioms Evogil.Dist.C113_nsls
#print axioms Evogil.Dist.C113_jgbl
#print axioms Evogil.Hgs.C114_stored
#print axioms Evogil.Hgs.C114_ends
#print axioms Evogil.Hgs.C114_box
#print axioms Evogil.Hgs.C114_spea2
#print axioms Evogil.Hgs.C114_ibea
#print axioms Evogil.Hgs.C114_smsemoa
#print axioms Evogil.Hgs.C114_omopso
#print axioms Evogil.Hgs.C114_nsgaii
#print axioms Evogil.Hgs.C114_archive
#print axioms Evogil.Hgs.C114_nsgaiii
#print axioms Evogil.Hgs.C114_nsls
#print axioms Evogil.Hgs.C114_jgbl
#print axioms Evogil.Nsgaiii.C115_normalized_partial
#print axioms Evogil.Imga.C115_island_partial
#print axioms Evogil.Imga.C115_violated
#print axioms Evogil.Plots.C116_pictures_partial
#print axioms Evogil.Plots.C116_unplotted_violated
#print axioms Evogil.Plots.C116_unplotted
#print axioms Evogil.Plots.C116_empty_violated
#print axioms Evogil.Plots.C116_range_violated
#print axioms Evogil.Plots.C117_summary_partial
#print axioms Evogil.Plots.C117_order
#print axioms Evogil.Plots.C117_unscored_violated
#print axioms Evogil.Plots.C117_axis_violated
#print axioms Evogil.Plots.C117_window_violated
#print axioms Evogil.Plots.C118_violin_partial
#print axioms Evogil.Plots.C118_missing_violated
#print axioms Evogil.Plots.C119_fronts_partial
#print axioms Evogil.Plots.C119_best_violated
#print axioms Evogil.Plots.C119_unshown
#print axioms Evogil.Plots.C119_empty_violated
#print axioms Evogil.Progress.C120_reports_partial
#print axioms Evogil.Progress.C120_percent_violated
#print axioms Evogil.Progress.C120_minutes_violated
#print axioms Evogil.Rounded.C121_mutate
#print axioms Evogil.Rounded.C121_crossover
#print axioms Evogil.Rounded.C121_population
#print axioms Evogil.Rounded.C121_boxes
#print axioms Evogil.Rounded.C122_jump_partial
#print axioms Evogil.Rounded.C122_problems
#print axioms Evogil.Rounded.C122_box_violated
#print axioms Evogil.Rounded.C122_nan_violated
#print axioms Evogil.Problems.C123_published_partial
#print axioms Evogil.Problems.C123_boxes
#print axioms Evogil.Problems.C123_uf8_partial
#print axioms Evogil.Problems.C123_uf8_complement
#print axioms Evogil.Problems.C123_zdt6_violated
#print axioms Evogil.Problems.C123_uf5_violated
#print axioms Evogil.Problems.C123_uf6_violated
#print axioms Evogil.Problems.C123_uf8_violated
#print axioms Evogil.Problems.C123_uf9_violated
#print axioms Evogil.Problems.C123_uf10_violated
#print axioms Evogil.Rounded.C124_omopso
#print axioms Evogil.Rounded.C124_nsls
#print axioms Evogil.Rounded.C124_nsgaiii
#print axioms Evogil.Rounded.C124_reference
#print axioms Evogil.Rounded.C124_normalize
#print axioms Evogil.Rounded.C125_choice
#print axioms Evogil.Rounded.C125_layer
#print axioms Evogil.Rounded.C125_exact_sum_fails
#print axioms Evogil.Rounded.C125_scaled
#print axioms Evogil.Rounded.C125_ibea
#print axioms Evogil.Rounded.C125_crowding
#print axioms Evogil.Rounded.C126_spea2_partial
#print axioms Evogil.Rounded.C126_spea2_violated
#print axioms Evogil.Rounded.C127_exact
#print axioms Evogil.Rounded.C127_error
#print axioms Evogil.Rounded.C127_distance
#print axioms Evogil.Rounded.C127_rank
#print axioms Evogil.Rounded.C127_metric
#print axioms Evogil.Rounded.C128_mono_violated
#print axioms Evogil.Rounded.C128_one_objective_partial
#print axioms Evogil.Rounded.C128_single_partial
#print axioms Evogil.Rounded.C129_gd
#print axioms Evogil.Rounded.C129_zero
#print axioms Evogil.Rounded.C129_ahd
#print axioms Evogil.Rounded.C129_rank
#print axioms Evogil.Rounded.C129_extent
#print axioms Evogil.Rounded.C129_epsilon
#print axioms Evogil.Rounded.C129_epsilon_sign
#print axioms Evogil.Rounded.C129_tiny
#print axioms Evogil.Rounded.C130_reduce
#print axioms Evogil.Rounded.C130_child
#print axioms Evogil.Rounded.C130_step
#print axioms Evogil.Rounded.C130_loss
#print axioms Evogil.Rounded.C131_extremes
#print axioms Evogil.Rounded.C131_prefers
#print axioms Evogil.Rounded.C131_elitist
#print axioms Evogil.Rounded.C131_best_value_kept
#print axioms Evogil.Rounded.C131_run
#print axioms Evogil.Rounded.Ibea.C132_leaves
#print axioms Evogil.Rounded.Ibea.C132_margin
#print axioms Evogil.Rounded.Ibea.C132_tie
#print axioms Evogil.Rounded.Stats.C133_outliers_partial
#print axioms Evogil.Rounded.Stats.C133_two_violated
#print axioms Evogil.Rounded.Stats.C133_mean_violated
#print axioms Evogil.Rounded.Stats.C133_order_violated
#print axioms Evogil.Rounded.Stats.C134_mark
#print axioms Evogil.Rounded.Stats.C134_small_partial
#print axioms Evogil.Rounded.Stats.C134_ten_violated
#print axioms Evogil.DirWalker.C135_converted_partial
#print axioms Evogil.DirWalker.C135_nothing_lost
#print axioms Evogil.DirWalker.C135_overwritten_violated
#print axioms Evogil.DirWalker.C135_stops_violated
#print axioms Evogil.DirWalker.C136_cleared_partial
#print axioms Evogil.DirWalker.C136_removed_only
#print axioms Evogil.DirWalker.C136_stops_violated
#print axioms Evogil.Rounded.Nsgaiii.C137_references
#print axioms Evogil.Rounded.Nsgaiii.C137_normalized
#print axioms Evogil.Rounded.Nsgaiii.C137_scores
#print axioms Evogil.Rounded.Nsgaiii.C137_generated
#print axioms Evogil.RoundedProblems.C138_zdt
#print axioms Evogil.RoundedProblems.C138_uf2
#print axioms Evogil.RoundedProblems.C138_uf3
#print axioms Evogil.RoundedProblems.C138_small
#print axioms Evogil.RoundedProblems.C138_rotated
#print axioms Evogil.RoundedProblems.C139_zdt
#print axioms Evogil.RoundedProblems.C139_uf2
#print axioms Evogil.RoundedProblems.C139_uf3
#print axioms Evogil.RoundedProblems.C139_small
#print axioms Evogil.RoundedProblems.C139_rotated
#print axioms Evogil.Problems.C140_never
#print axioms Evogil.Problems.C140_inside_partial
#print axioms Evogil.Problems.C140_outside
#print axioms Evogil.Problems.C140_violated
#print axioms Evogil.Swarm.C141_step_partial
#print axioms Evogil.Swarm.C141_short_partial
#print axioms Evogil.Swarm.C141_grows
#print axioms Evogil.Swarm.C141_raises
#print axioms Evogil.Swarm.C141_exact
#print axioms Evogil.Swarm.C141_violated
#print axioms Evogil.Rounded.Run.C142_nsgaii
#print axioms Evogil.Rounded.Run.C142_spea2
#print axioms Evogil.Rounded.Run.C142_ibea
#print axioms Evogil.Rounded.Run.C142_smsemoa
#print axioms Evogil.Rounded.Ranking.C143_points_partial
#print axioms Evogil.Rounded.Ranking.C143_strong
#print axioms Evogil.Rounded.Ranking.C143_tie
#print axioms Evogil.Rounded.Ranking.C143_order_violated
#print axioms Evogil.Rounded.Swarm.C144_omopso
#print axioms Evogil.Rounded.Swarm.C144_draws
#print axioms Evogil.Rounded.Swarm.C144_prune
#print axioms Evogil.Rounded.Time.C145_exact
#print axioms Evogil.Rounded.Time.C145_slots
#print axioms Evogil.Rounded.Time.C145_ends
#print axioms Evogil.Rounded.Time.C145_small_clock
#print axioms Evogil.Rounded.Time.C145_zero
#print axioms Evogil.Rounded.Hgs.C146_root
#print axioms Evogil.Rounded.Hgs.C146_root_violated
#print axioms Evogil.Rounded.Hgs.C146_root_small_partial
#print axioms Evogil.Rounded.Hgs.C146_root_between
#print axioms Evogil.Rounded.Hgs.C146_positive_partial
#print axioms Evogil.Rounded.Hgs.C146_limit_positive
#print axioms Evogil.Rounded.Hgs.C146_accurate_partial
#print axioms Evogil.Rounded.Hgs.C146_halved
#print axioms Evogil.Rounded.Hgs.C146_run_violated
#print axioms Evogil.Dist.C146_distributed_partial
#print axioms Evogil.Dist.C146_distributed_violated
#print axioms Evogil.Dist.C146_distributed_run_violated
#print axioms Evogil.Interior.C147_mutate
#print axioms Evogil.Interior.C147_mutate_strict
#print axioms Evogil.Interior.C147_mutate_reach
#print axioms Evogil.Interior.C147_bound
#print axioms Evogil.Interior.C147_crossover
#print axioms Evogil.Interior.C147_spread
#print axioms Evogil.Mating.C148_entries
#print axioms Evogil.Mating.C148_nsgaii
#print axioms Evogil.Mating.C148_nsgaii_everyone
#print axioms Evogil.Mating.C148_nsgaii_order
#print axioms Evogil.Mating.C148_nsgaii_rank
#print axioms Evogil.Mating.C148_spea2
#print axioms Evogil.Mating.C148_spea2_order
#print axioms Evogil.Rounded.Nsls.C149_run
#print axioms Evogil.Rounded.Nsls.C149_budget
#print axioms Evogil.Rounded.Nsls.C149_incomparable
#print axioms Evogil.Rounded.Nsgaiii.C150_run
#print axioms Evogil.Rounded.Nsgaiii.C150_cost
#print axioms Evogil.Rounded.Nsgaiii.C150_budget
#print axioms Evogil.Rounded.Nsgaiii.C150_references
#print axioms Evogil.Rounded.Run.C151_run_partial
#print axioms Evogil.Rounded.Run.C151_budget_partial
#print axioms Evogil.Rounded.Run.C151_cost_partial
#print axioms Evogil.Rounded.Run.C151_problems
#print axioms Evogil.Rounded.Run.C151_box_violated
#print axioms Evogil.Rounded.Run.C152_nsgaii
#print axioms Evogil.Rounded.Run.C152_nsgaii_cost
#print axioms Evogil.Rounded.Run.C152_spea2
#print axioms Evogil.Rounded.Run.C152_spea2_cost
#print axioms Evogil.Rounded.Run.C152_ibea
#print axioms Evogil.Rounded.Run.C152_ibea_cost
#print axioms Evogil.Rounded.Run.C152_smsemoa
#print axioms Evogil.Rounded.Run.C152_smsemoa_cost
#print axioms Evogil.Rounded.Run.C152_offspring
#print axioms Evogil.Rounded.Run.C152_offspring_less
#print axioms Evogil.Rounded.Islands.C153_nsgaii
#print axioms Evogil.Rounded.Islands.C153_spea2
#print axioms Evogil.Rounded.Islands.C153_ibea
#print axioms Evogil.Rounded.Islands.C153_smsemoa
#print axioms Evogil.Rounded.Islands.C153_jgbl
#print axioms Evogil.Rounded.Islands.C153_size
#print axioms Evogil.Rounded.Islands.C153_pick
#print axioms Evogil.Rounded.Swarm.C154_alone
#print axioms Evogil.Rounded.Islands.C154_omopso
#print axioms Evogil.Rounded.Islands.C154_nsgaiii
#print axioms Evogil.Rounded.Islands.C154_nsls
#print axioms Evogil.Rounded.Hgs.C155_run
#print axioms Evogil.Rounded.Hgs.C155_progress
#print axioms Evogil.Rounded.Hgs.C155_stored
#print axioms Evogil.Rounded.Hgs.C155_ends
#print axioms Evogil.Rounded.Hgs.C155_box
#print axioms Evogil.Rounded.Hgs.C155_spea2
#print axioms Evogil.Rounded.Hgs.C155_ibea
#print axioms Evogil.Rounded.Hgs.C155_smsemoa
#print axioms Evogil.Rounded.Hgs.C155_nsgaii
#print axioms Evogil.Rounded.Hgs.C156_archived
#print axioms Evogil.Rounded.Hgs.C156_omopso
#print axioms Evogil.Rounded.Hgs.C156_nsgaiii
#print axioms Evogil.Rounded.Hgs.C156_nsls
#print axioms Evogil.Rounded.Hgs.C156_jgbl_partial
#print axioms Evogil.Seed.C157_bytes
#print axioms Evogil.Seed.C157_seed
#print axioms Evogil.Seed.C157_fallback
#print axioms Evogil.Seed.C157_distinct_partial
#print axioms Evogil.Seed.C157_processes_violated
#print axioms Evogil.Seed.C157_moment_violated
#print axioms Evogil.Rounded.Dist.C158_box
#print axioms Evogil.Rounded.Dist.C158_nsgaii
#print axioms Evogil.Rounded.Dist.C158_spea2
#print axioms Evogil.Rounded.Dist.C158_ibea
#print axioms Evogil.Rounded.Dist.C158_smsemoa
#print axioms Evogil.Rounded.Dist.C158_omopso
#print axioms Evogil.Rounded.Dist.C158_nsgaiii
#print axioms Evogil.Rounded.Dist.C158_nsls
#print axioms Evogil.Rounded.Dist.C158_jgbl_partial
#print axioms Evogil.Rounded.Hgs.C159_trim
#print axioms Evogil.Rounded.Hgs.C159_apart
#print axioms Evogil.Rounded.Hgs.C159_redundant_final
#print axioms Evogil.Rounded.Hgs.C159_stagnant
#print axioms Evogil.Rounded.Hgs.C159_root
#print axioms Evogil.CommandLine.C160_commands
#print axioms Evogil.CommandLine.C160_numbers
#print axioms Evogil.CommandLine.C160_budget_partial
#print axioms Evogil.CommandLine.C160_budget_rejected
#print axioms Evogil.CommandLine.C160_time_partial
#print axioms Evogil.CommandLine.C160_time_violated
#print axioms Evogil.CommandLine.C160_all_violated
#print axioms Evogil.CommandLine.C160_names_violated
#print axioms Evogil.Generations.C161_nsgaii
#print axioms Evogil.Generations.C161_spea2
#print axioms Evogil.Generations.C161_ibea
#print axioms Evogil.Generations.C161_smsemoa
#print axioms Evogil.Generations.C161_trim_partial
#print axioms Evogil.Generations.C161_trim_violated
#print axioms Evogil.Generations.C161_rounded_violated
#print axioms Evogil.RxTools.C162_merge_partial
#print axioms Evogil.RxTools.C162_failure_violated
#print axioms Evogil.RxTools.C162_end_violated
#print axioms Evogil.RxTools.C162_prime
#print axioms Evogil.Worker.C163_log_time
#print axioms Evogil.Worker.C163_success
#print axioms Evogil.Worker.C163_success_only
#print axioms Evogil.Worker.C163_shutdown
#print axioms Evogil.Worker.C163_failure_partial
#print axioms Evogil.Worker.C163_shutdown_violated
#print axioms Evogil.Worker.C163_setup_violated
#print axioms Evogil.Renice.C164_none
#print axioms Evogil.Renice.C164_accumulates
#print axioms Evogil.Renice.C164_first_partial
#print axioms Evogil.Renice.C164_violated
#print axioms Evogil.Renice.C164_negative_violated
#print axioms Evogil.Worker.C165_all
#print axioms Evogil.Worker.C165_shutdowns
#print axioms Evogil.Worker.C165_failure_violated
