import Verif.Props.Compare
import Verif.Props.Selection
import Verif.Props.Proportional
import Verif.Props.Crossover
import Verif.Props.Mutation
import Verif.Props.Binary
import Verif.Props.Counters
import Verif.Props.Algorithm
import Verif.Props.Individual
import Verif.Props.Pipeline
import Verif.Props.Segmented
import Verif.Props.Migration
import Verif.Props.Wrappers
import Verif.Props.Population
import Verif.Props.Distrib
import Verif.Props.Pareto
import Verif.Props.NonDom
import Verif.Props.RankOrdinal
import Verif.Props.Crowding
import Verif.Props.Nsga2
import Verif.Props.Enlu
import Verif.Props.EnluInserter
import Verif.Props.Cgp
import Verif.Props.Rules
import Verif.Props.Probe
import Verif.Props.Metrics
import Verif.Props.NeuralNet
import Verif.Props.TruthTable
import Verif.Props.Ela
import Verif.Props.Distribution
import Verif.Props.Parsimony
import Verif.Props.OpTypes
import Verif.Props.Transfer
import Verif.Props.Transform
import Verif.Props.Environment
import Verif.Props.Activation
import Verif.Props.Benchmarks
import Verif.Props.Quadratic
import Verif.Props.Zdt
import Verif.Props.EaSolve
import Verif.Props.Schwefel
import Verif.Props.Branches
import Verif.Props.Branches2
import Verif.Model.DistIndividual
import Verif.Props.DistIndividual
import Verif.Model.Analysis
import Verif.Props.Analysis
import Verif.Model.CgpOps
import Verif.Props.CgpOps
import Verif.Model.Images
import Verif.Props.Images
import Verif.Model.Defaults
import Verif.Props.Defaults
import Verif.Model.EventLog
import Verif.Props.EventLog
import Verif.Model.PlotProbes
import Verif.Props.PlotProbes
import Verif.Model.Printing
import Verif.Props.Printing
import Verif.Model.SteadyNsga2
import Verif.Props.SteadyNsga2
import Verif.Lemmas.Footprint
import Verif.Lemmas.Owns
import Verif.Model.EvoRun
import Verif.Props.EvoRun
import Verif.Lemmas.Live
import Verif.Props.EvoTotal
import Verif.Model.IslandRun
import Verif.Props.IslandRun
import Verif.Model.AsyncRun
import Verif.Props.AsyncRun
import Verif.Model.NsgaRun
import Verif.Props.NsgaRun
import Verif.Model.Towers
import Verif.Props.Towers
import Verif.Model.Plot2d
import Verif.Props.Plot2d
import Verif.Model.WorkerLog
import Verif.Props.WorkerLog
import Verif.Model.RepFile
import Verif.Props.RepFile
import Verif.Spec.Chance
import Verif.Lemmas.Chance
import Verif.Props.Chance
import Verif.Props.SelectChance
import Verif.Py.Float
import Verif.Spec.Float
import Verif.Spec.FloatSum
import Verif.Lemmas.Float
import Verif.Props.Float
import Verif.Model.FloatOps
import Verif.Lemmas.FloatWheel
import Verif.Props.FloatDecode
import Verif.Props.FloatWheel
import Verif.Props.FloatShare
import Verif.Model.CoopRun
import Verif.Lemmas.Carry
import Verif.Props.CoopRun
import Verif.Lemmas.Tape
import Verif.Props.Search
import Verif.Model.CoopGroup
import Verif.Props.CoopGroup
import Verif.Model.RulePlot
import Verif.Props.RulePlot
import Verif.Model.CurvePlot
import Verif.Props.CurvePlot
import Verif.Model.Gaussian
import Verif.Props.Gaussian
import Verif.Model.ArtPrimitives
import Verif.Props.ArtPrimitives
import Verif.Props.Pressure
import Verif.Model.WalkRun
import Verif.Props.WalkRun
import Verif.Lemmas.Shift
import Verif.Props.History
import Verif.Model.PersistRun
import Verif.Props.PersistRun
import Verif.Props.Genealogy
import Verif.Model.LoggedRun
import Verif.Props.LoggedRun
import Verif.Props.Budget
import Verif.Model.SegRun
import Verif.Props.SegRun
import Verif.Model.TaskRun
import Verif.Props.TaskRun
import Verif.Model.PlusRun
import Verif.Props.PlusRun
import Verif.Props.PlusSearch
import Verif.Model.AltRun
import Verif.Props.AltRun
import Verif.Model.PittRun
import Verif.Props.SegLive
import Verif.Props.PittRun
import Verif.Model.NetRun
import Verif.Props.NetRun
import Verif.Model.CircuitRun
import Verif.Props.CircuitRun
import Verif.Model.GroupRun
import Verif.Lemmas.Tags
import Verif.Props.GroupRun
import Verif.Model.ImageRun
import Verif.Props.ImageRun
import Verif.Model.SyncRun
import Verif.Props.SyncRun
import Verif.Py.NLargest
import Verif.Lemmas.NLargest
import Verif.Model.SelectionAsk
import Verif.Props.NLargest
import Verif.Model.MoFailure
import Verif.Props.MoFailure
import Verif.Model.ParsimonyNan
import Verif.Props.ParsimonyNan
import Verif.Model.NsgaFast
import Verif.Props.NsgaFast
import Verif.Lemmas.Rescore
import Verif.Props.Rescore
import Verif.Props.MoRescale
import Verif.Lemmas.Recode
import Verif.Props.Recode
import Verif.Lemmas.NLargestMap
import Verif.Lemmas.Values
import Verif.Props.ValueSpec
import Verif.Props.Values
import Verif.Lemmas.Reorder
import Verif.Props.Reorder
import Verif.Lemmas.Restart
import Verif.Props.Restart
import Verif.Lemmas.NsgaNames
import Verif.Props.NsgaRestart
import Verif.Props.PlusValues
import Verif.Props.IslandValues
import Verif.Lemmas.RecodeLoops
import Verif.Lemmas.ReorderLoops
import Verif.Lemmas.RescoreLoops
import Verif.Props.OtherLoops
import Verif.Props.IslandRestart
import Verif.Props.BudgetMore
import Verif.Props.Lineages
import Verif.Props.OtherCodes
import Verif.Props.SyncHistory
import Verif.Props.LongerRuns
