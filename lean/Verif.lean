import Verif.Props.Dominance
import Verif.Props.ParetoFilter
import Verif.Props.Layers
import Verif.Props.NdSort
import Verif.Props.Driver
import Verif.Props.Variation
import Verif.Props.Metrics
import Verif.Props.Storage
import Verif.Props.Listing
import Verif.Props.MetricCache
import Verif.Props.Factory
import Verif.Props.Statistics
import Verif.Props.RunParallel
import Verif.Props.Evaluation
import Verif.Props.Nsgaii
import Verif.Props.Omopso
import Verif.Props.OmopsoEta
import Verif.Props.Spea2
import Verif.Props.Smsemoa
import Verif.Props.Ibea
import Verif.Props.Nsgaiii
import Verif.Props.Nsls
import Verif.Props.Bogo
import Verif.Props.Jgbl
import Verif.Props.Imga
import Verif.Props.Torus
import Verif.Props.Hgs
import Verif.Props.Trim
import Verif.Props.FrontTools
import Verif.Props.HgsOptional
import Verif.Props.Problems
import Verif.Props.ProblemsUf8
import Verif.Model.HgsFitness
import Verif.Props.HgsFitness
import Verif.Props.Zdt3
import Verif.Props.HyperVolume
import Verif.Props.HyperVolumeUse
import Verif.Audit
import Verif.Model.DistHgs
import Verif.Spec.Inevitable
import Verif.Lemmas.DistSim
import Verif.Model.DistHgsSeq
import Verif.Lemmas.DistBcast
import Verif.Lemmas.DistPhases
import Verif.Lemmas.DistAsk
import Verif.Lemmas.DistSprout
import Verif.Lemmas.DistTurn
import Verif.Lemmas.DistGrow
import Verif.Lemmas.DistRelease
import Verif.Lemmas.DistRun
import Verif.Spec.DistHgs
import Verif.Props.DistHgs
import Verif.Lemmas.DistMore
import Verif.Props.DistHgsStep
import Verif.Model.PdiCache
import Verif.Lemmas.PdiCache
import Verif.Props.PdiCache
import Verif.Lemmas.PdiHistory
import Verif.Props.PdiHistory
import Verif.Model.Generations
import Verif.Lemmas.Generations
import Verif.Props.Generations
import Verif.Model.GenerationsRun
import Verif.Props.GenerationsRun
import Verif.Model.Swarm
import Verif.Props.Swarm
import Verif.Model.Jumping
import Verif.Model.Outliers
import Verif.Model.NsgaiiiRun
import Verif.Model.NslsRun
import Verif.Props.NsgaiiiRun
import Verif.Props.NslsRun
import Verif.Spec.Quartiles
import Verif.Props.Outliers
import Verif.Props.Jumping
import Verif.Props.Elitism
import Verif.Model.ImgaRun
import Verif.Model.SavedResult
import Verif.Props.ImgaRun
import Verif.Props.SavedResult
import Verif.Model.SwarmHeap
import Verif.Props.SwarmHeap
import Verif.Model.HgsRun
import Verif.Spec.HgsRun
import Verif.Lemmas.HgsRun
import Verif.Props.HgsRun
import Verif.Props.HgsRunNsgaii
import Verif.Props.HgsRunSpea2
import Verif.Model.RankingRun
import Verif.Spec.RankingRun
import Verif.Lemmas.RankingRun
import Verif.Props.RankingRun
import Verif.Model.ProblemsData
import Verif.Props.ProblemsData
import Verif.Model.ProblemsChecked
import Verif.Props.ProblemsChecked
import Verif.Model.Summary
import Verif.Spec.Summary
import Verif.Lemmas.Summary
import Verif.Props.Summary
import Verif.Model.HgsRunMore
import Verif.Props.HgsRunSeeded
import Verif.Props.HgsRunIbea
import Verif.Props.HgsRunSms
import Verif.Model.RunConfig
import Verif.Spec.RunConfig
import Verif.Props.RunConfig
import Verif.Props.RunConfigNodes
import Verif.Props.RunConfigRuns
import Verif.Model.RankingTables
import Verif.Spec.RankingTables
import Verif.Props.RankingTables
import Verif.Props.RankingCells
import Verif.Model.DistDrivers
import Verif.Spec.DistDrivers
import Verif.Lemmas.DistDrivers
import Verif.Props.DistDrivers
import Verif.Props.DistDriversRuns
import Verif.Model.HgsBudget
import Verif.Spec.HgsBudget
import Verif.Props.HgsBudget
import Verif.Props.HgsBudgetRuns
import Verif.Model.HgsRunRest
import Verif.Props.HgsRunRest
import Verif.Props.DistDriversRest
import Verif.Model.HgsRunArchive
import Verif.Props.HgsRunArchive
import Verif.Props.HgsArchiveRuns
import Verif.Model.ImgaRunRest
import Verif.Props.ImgaRunRest
import Verif.Props.IslandIdeal
import Verif.Props.ProblemsTables
import Verif.Model.Plots
import Verif.Spec.Plots
import Verif.Props.Plots
import Verif.Props.PlotsSummary
import Verif.Props.PlotsViolin
import Verif.Props.PlotsFronts
import Verif.Model.Progress
import Verif.Spec.Progress
import Verif.Props.Progress
import Verif.Model.Binary64
import Verif.Lemmas.Binary64
import Verif.Lemmas.Binary64Real
import Verif.Model.Rounded
import Verif.Spec.Rounded
import Verif.Lemmas.Rounded
import Verif.Props.Rounded
import Verif.Spec.Published
import Verif.Props.Published
import Verif.Props.RoundedJgbl
import Verif.Model.RoundedMoves
import Verif.Spec.RoundedMoves
import Verif.Lemmas.Nearest
import Verif.Props.RoundedMoves
import Verif.Model.RoundedSelection
import Verif.Props.RoundedSelection
import Verif.Model.RoundedHv
import Verif.Spec.RoundedError
import Verif.Lemmas.RoundedError
import Verif.Lemmas.RoundedHv
import Verif.Props.RoundedHv
import Verif.Model.RoundedMetrics
import Verif.Props.RoundedMetrics
import Verif.Model.RoundedSmsemoa
import Verif.Props.RoundedSmsemoa
import Verif.Model.RoundedNsgaii
import Verif.Props.RoundedNsgaii
import Verif.Model.RoundedIbea
import Verif.Props.RoundedIbea
import Verif.Lemmas.Interpolation
import Verif.Lemmas.RoundedMean
import Verif.Model.RoundedStats
import Verif.Props.RoundedStats
import Verif.Model.DirWalker
import Verif.Spec.DirWalker
import Verif.Props.DirWalker
import Verif.Model.RoundedNsgaiii
import Verif.Spec.Numpy
import Verif.Spec.Scaled
import Verif.Props.RoundedNsgaiii
import Verif.Model.FloatExpr
import Verif.Model.RoundedProblems
import Verif.Spec.MathLib
import Verif.Lemmas.FloatRange
import Verif.Lemmas.MathLib
import Verif.Props.RoundedProblems
import Verif.Lemmas.FloatErrorDef
import Verif.Lemmas.FloatError
import Verif.Props.RoundedProblemsError
import Verif.Lemmas.Rotation
import Verif.Lemmas.Prune
import Verif.Spec.Penalty
import Verif.Props.RotatedPenalty
import Verif.Props.RoundedRotated
import Verif.Model.SwarmNest
import Verif.Lemmas.SwarmNest
import Verif.Props.SwarmNest
import Verif.Model.RoundedRun
import Verif.Lemmas.RoundedRun
import Verif.Props.RoundedRun
import Verif.Model.RoundedRanking
import Verif.Props.RoundedRanking
import Verif.Model.RoundedSwarm
import Verif.Props.RoundedSwarm
import Verif.Model.RoundedTime
import Verif.Props.RoundedTime
import Verif.Model.RoundedHgs
import Verif.Props.RoundedHgs
import Verif.Props.Interior
import Verif.Lemmas.InteriorRun
import Verif.Props.InteriorRun
import Verif.Model.RxTools
import Verif.Props.RxTools
import Verif.Model.Worker
import Verif.Props.Worker
import Verif.Model.Renice
import Verif.Props.Renice
import Verif.Model.WorkerQueue
import Verif.Props.WorkerQueue
import Verif.Spec.Mating
import Verif.Lemmas.Mating
import Verif.Props.Mating
import Verif.Model.RoundedNsls
import Verif.Lemmas.RoundedNsls
import Verif.Props.RoundedNsls
import Verif.Model.RoundedNsgaiiiRun
import Verif.Props.RoundedNsgaiiiRun
import Verif.Model.RoundedJumping
import Verif.Props.RoundedJumping
import Verif.Model.RoundedBudget
import Verif.Props.RoundedBudget
import Verif.Model.RoundedImga
import Verif.Props.RoundedImga
import Verif.Model.RoundedImgaRest
import Verif.Props.RoundedImgaRest
import Verif.Model.RoundedHgsRun
import Verif.Spec.RoundedHgsRun
import Verif.Lemmas.RoundedHgsRun
import Verif.Props.RoundedHgsRun
import Verif.Props.RoundedHgsNodes
import Verif.Model.RoundedHgsRest
import Verif.Props.RoundedHgsRest
import Verif.Model.Seed
import Verif.Props.Seed
import Verif.Model.RoundedDist
import Verif.Props.RoundedDist
import Verif.Props.RoundedHgsTrim
import Verif.Props.RoundedDistStep
import Verif.Props.CommandLine
