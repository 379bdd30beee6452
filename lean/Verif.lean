import Verif.Spec.Tree
import Verif.Model.NodeUtils
import Verif.Proofs.Postfix
import Verif.Props.Postfix
import Verif.Spec.Scalar
import Verif.Model.Compile
import Verif.Model.Eval
import Verif.Spec.Plan
import Verif.Proofs.SlotMachine
import Verif.Proofs.EvalCorrect
import Verif.Props.Eval
import Verif.Spec.Deriv
import Verif.Spec.Calculus
import Verif.Model.Deriv
import Verif.Model.Builtin
import Verif.Proofs.DerivKernel
import Verif.Proofs.DerivCorrect
import Verif.Proofs.DiffTop
import Verif.Proofs.GradTop
import Verif.Proofs.Builtin
import Verif.Proofs.RealDeriv
import Verif.Props.Deriv
import Verif.Spec.Consts
import Verif.Model.Utils
import Verif.Proofs.Utils
import Verif.Props.Utils
import Verif.Model.Simplify
import Verif.Proofs.Fold
import Verif.Proofs.CombineShape
import Verif.Proofs.CombineRep
import Verif.Proofs.CombineVal
import Verif.Props.Simplify
import Verif.Spec.Formula
import Verif.Model.Strings
import Verif.Proofs.Strings
import Verif.Props.Strings
import Verif.Model.Rand
import Verif.Model.Lookup
import Verif.Props.Lookup
import Verif.Model.Mutation
import Verif.Spec.Edit
import Verif.Proofs.Mutation
import Verif.Proofs.MutOps
import Verif.Proofs.MutAdd
import Verif.Props.Mutation
import Verif.Spec.Constraints
import Verif.Model.Constraints
import Verif.Proofs.Constraints
import Verif.Props.Constraints
import Verif.Spec.Float
import Verif.Spec.Binary64
import Verif.Spec.Search
import Verif.Model.Random
import Verif.Model.Population
import Verif.Proofs.Hall
import Verif.Proofs.Population
import Verif.Proofs.Random
import Verif.Proofs.Stats
import Verif.Props.Hall
import Verif.Props.Population
import Verif.Props.Random
import Verif.Props.Stats
import Verif.Props.Tournament
import Verif.Model.Loss
import Verif.Spec.Loss
import Verif.Spec.LossFormula
import Verif.Proofs.Loss
import Verif.Props.Loss
import Verif.Props.LossDeriv
import Verif.Model.Optim
import Verif.Proofs.Optim
import Verif.Props.Optim
import Verif.Proofs.GradErase
import Verif.Proofs.ConstOpt
import Verif.Spec.Member
import Verif.Spec.Demo
import Verif.Model.Member
import Verif.Model.ConstOpt
import Verif.Props.Member
import Verif.Model.Evolve
import Verif.Spec.Evolve
import Verif.Proofs.Evolve
import Verif.Proofs.Unchanged
import Verif.Props.Evolve
import Verif.Props.Iterate
import Verif.Model.Search
import Verif.Spec.Schedule
import Verif.Proofs.Search
import Verif.Proofs.Schedule
import Verif.Props.Schedule
import Verif.Props.Engine
import Verif.Props.OneWorker
import Verif.Proofs.Binary
import Verif.Props.Binary
import Verif.Props.Warmup
import Verif.Spec.Progress
import Verif.Props.Progress
import Verif.Spec.Sound
import Verif.Proofs.Sound
import Verif.Proofs.Init
import Verif.Spec.History
import Verif.Spec.Identity
import Verif.Props.SearchSound
import Verif.Props.Best
import Verif.Props.Hang
import Verif.Props.Identity
import Verif.Spec.Batch
import Verif.Props.Batch
import Verif.Props.Batching
import Verif.Model.Web
import Verif.Spec.Web
import Verif.Spec.Metrics
import Verif.Props.WebSplit
import Verif.Props.WebTable
import Verif.Props.Metrics
import Verif.Props.WebMember
import Verif.Model.Progress
import Verif.Props.Wrap
import Verif.Model.Pool
import Verif.Spec.Pool
import Verif.Props.Pool
import Verif.Props.PoolStart
import Verif.Spec.NoPanic
import Verif.Proofs.Ctx
import Verif.Proofs.NoPanic
import Verif.Props.NoPanic
import Verif.Model.Dataset
import Verif.Spec.Dataset
import Verif.Props.Baseline
import Verif.Spec.Bfgs
import Verif.Props.Bfgs
import Verif.Props.Newton
import Verif.Spec.Migration
import Verif.Props.Migration
import Verif.Props.BatchTask
import Verif.Model.OpSetDecl
import Verif.Props.OpSetDecl
import Verif.Props.MutChoice
import Verif.Spec.Accept
import Verif.Props.Accept
import Verif.Model.WebSession
import Verif.Spec.WebSession
import Verif.Props.WebSession
import Verif.Spec.Stream
import Verif.Proofs.Stream
import Verif.Props.Stream
import Verif.Proofs.Poisson
import Verif.Model.Options
import Verif.Spec.Options
import Verif.Props.Options
import Verif.Spec.LineSearch
import Verif.Props.LineSearch
import Verif.Spec.Prob
import Verif.Props.Prob
import Verif.Spec.Reach
import Verif.Props.Reach
import Verif.Spec.Restarts
import Verif.Props.Restarts
import Verif.Model.Normal
import Verif.Spec.Normal
import Verif.Props.Normal
import Verif.Spec.Display
import Verif.Props.Display
import Verif.Spec.Ptrs
import Verif.Props.Ptrs
import Verif.Spec.Find
import Verif.Props.Find
import Verif.Props.FindSearch
import Verif.Props.FindDefault
import Verif.Model.Worker
import Verif.Spec.Worker
import Verif.Props.Worker
import Verif.Model.WorkerSession
import Verif.Props.WorkerSession
import Verif.Model.Page
import Verif.Spec.Page
import Verif.Props.Page
import Verif.Model.PageData
import Verif.Spec.PageData
import Verif.Props.PageData
import Verif.Model.PageOptions
import Verif.Spec.PageOptions
import Verif.Props.PageOptions
import Verif.Model.PageRun
import Verif.Spec.PageRun
import Verif.Props.PageRun
import Verif.Props.Cases
import Verif.Model.PageForm
import Verif.Spec.PageForm
import Verif.Props.PageForm
import Verif.Spec.Budget
import Verif.Proofs.Budget
import Verif.Props.Budget
import Verif.Spec.Chance
import Verif.Proofs.Chance
import Verif.Proofs.ChanceRand
import Verif.Props.Chance
import Verif.Props.ChanceSearch
import Verif.Props.ChanceDefault
import Verif.Spec.Longer
import Verif.Props.Longer
import Verif.Spec.Weights
import Verif.Proofs.Weights
import Verif.Props.Weights
import Verif.Model.Stored
import Verif.Spec.Stored
import Verif.Props.Stored
import Verif.Props.Limit
import Verif.Spec.GradSkip
import Verif.Proofs.GradExact
import Verif.Proofs.DiffExact
import Verif.Props.AnyArithmetic
import Verif.Spec.Rows
import Verif.Proofs.Verdict
import Verif.Proofs.VerdictEvolve
import Verif.Proofs.VerdictSearch
import Verif.Proofs.Rows
import Verif.Proofs.RowsData
import Verif.Props.Rows
import Verif.Model.PageStats
import Verif.Spec.PageStats
import Verif.Props.PageStats
import Verif.Spec.Accuracy
import Verif.Proofs.Accuracy
import Verif.Props.Accuracy
import Verif.Spec.AccuracyMore
import Verif.Props.AccuracyMore
import Verif.Props.MoreCases
import Verif.Spec.Isolated
import Verif.Proofs.Isolated
import Verif.Props.Isolated
import Verif.Props.IsolatedCases
import Verif.Props.RowOrder
import Verif.Props.ChanceIsolated
import Verif.Spec.Chooser
import Verif.Props.ChanceSchedule
import Verif.Spec.Timed
import Verif.Props.ChanceTimed
import Verif.Props.ChancePool
import Verif.Spec.AccuracyEps
import Verif.Props.AccuracyEps
import Verif.Props.AccuracyWeighted
import Verif.Spec.LogCosh
import Verif.Props.LogCosh
import Verif.Props.PageSelect
import Verif.Props.AccuracyGradient
import Verif.Props.StatsAccuracy
import Verif.Props.StoredMore
import Verif.Props.PageHeaders
import Verif.Spec.EvalAccuracy
import Verif.Props.EvalAccuracy
import Verif.Props.EvalAccuracyCases
import Verif.Props.EvalAccuracyFlag
