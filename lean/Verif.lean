import Verif.Props.Graph
import Verif.Props.Pdag
import Verif.Props.Meek
import Verif.Props.Enum
import Verif.Props.Paths
import Verif.Props.GraphEdit
import Verif.Props.ListUtils
import Verif.Props.LModel
import Verif.Props.Heap
import Verif.Props.GradDescent
import Verif.Props.Cache
import Verif.Props.Score
import Verif.Props.ScoreTotal
import Verif.Props.ScoreStale
import Verif.Props.ScoreInit
import Verif.Props.ScoreCtor
import Verif.Props.MainPrune
import Verif.Props.MainFit
import Verif.Props.MainTotal
import Verif.Props.Scree
import Verif.Props.Gen
import Verif.Props.Metrics
import Verif.Props.Gradients
import Verif.Props.BSolvers
import Verif.Props.Progress
import Verif.Props.MainFolds
import Verif.Props.RandomGraph
import Verif.Props.ArrayUtils
import Verif.Props.HeapCache
import Verif.Props.ClassScore
import Verif.Props.Descent
import Verif.Props.Adaptive
import Verif.Props.Proper
import Verif.Props.History
import Verif.Props.Mixed
import Verif.Props.Nested
import Verif.Props.Sym
import Verif.Props.Rename
import Verif.Props.Population
import Verif.Props.DescentStrict
import Verif.Props.Units
import Verif.Props.Cov
import Verif.Props.FitNan
import Verif.Props.FloatSplit
import Verif.Props.Prob
import Verif.Props.Identify
import Verif.Props.Changes
import Verif.Props.ManyLatents
import Verif.Props.Truth
import Verif.Model.IntArrays
import Verif.Props.IntArrays
import Verif.Props.DescentMany
import Verif.Props.DescentDefault
import Verif.Props.Threshold
import Verif.Props.Reproducible
import Verif.Props.Asymptotic
import Verif.Props.Shapes
import Verif.Props.FitCount
import Verif.Props.PopulationCode
import Verif.Props.PopulationPrune
import Verif.Props.Apart
import Verif.Props.ApartReturn
import Verif.Props.ApartExamples
import Verif.Props.Robust
import Verif.Props.RobustClosed
import Verif.Props.RobustRun
import Verif.Props.RobustExamples
import Verif.Props.SuiteLiterals
import Verif.Props.Suite
import Verif.Spec.DSep
import Verif.Proof.DSep
import Verif.Proof.GlobalMarkov
import Verif.Props.DSep
import Verif.Props.GlobalMarkov
import Verif.Spec.Sparsest
import Verif.Proof.Faithful
import Verif.Proof.Sparsest
import Verif.Props.Faithful
import Verif.Props.FaithfulCode
import Verif.Props.GraphProb
import Verif.Proof.Mle
import Verif.Props.OneEnv
import Verif.Props.Lln
import Verif.Props.FoldRows
import Verif.Props.Consistency
import Verif.Props.ConsistencyGraph
import Verif.Props.ConsistencyExamples
import Verif.Props.Clt
import Verif.Props.EmptyFit
import Verif.Props.Gain
import Verif.Props.Inconsistent
import Verif.Props.InconsistentExamples
import Verif.Props.Weights
import Verif.Props.LastEnv
import Verif.Props.LastEnvRun
import Verif.Props.LastEnvProb
import Verif.Props.LastEnvExamples
import Verif.Props.DocLiterals
import Verif.Props.Latents
import Verif.Props.GradientsOne
import Verif.Props.FalseTargets
import Verif.Props.FalseTargetsExamples
import Verif.Props.CovClt
import Verif.Props.SuperfluousEdge
import Verif.Props.FalseEdges
import Verif.Props.FalseEdgesExamples
import Verif.Props.Ties
import Verif.Props.TiesExamples
import Verif.Props.AlmostSure
import Verif.Props.AlmostSureIid
import Verif.Props.AlmostSureExamples
import Verif.Props.Fair
import Verif.Props.FairExamples
import Verif.Props.Workflow
import Verif.Props.Text
import Verif.Props.AnySort
import Verif.Props.Concentration
import Verif.Props.Rate
import Verif.Props.Verbose
import Verif.Props.RootN
import Verif.Props.RootNExamples
import Verif.Props.Trace
import Verif.Props.FitTrace
import Verif.Props.ClassSize
import Verif.Props.BWarnings
import Verif.Props.Ges
import Verif.Props.Targets
import Verif.Props.FloatGraph
import Verif.Props.Debug
import Verif.Props.TraceMore
import Verif.Props.Rounded
import Verif.Props.FloatPdag
import Verif.Props.FloatMore
import Verif.Props.TopoAny
import Verif.Props.MetricsZero
import Verif.Props.GenArgs
import Verif.Props.OrderAny
import Verif.Props.SignedCandidates
import Verif.Props.SignedPdag
import Verif.Props.SignedModel
import Verif.Props.CyclicClass
import Verif.Props.Int64
import Verif.Props.SoundClass
import Verif.Props.SoundCpdag
import Verif.Props.Repair
import Verif.Props.MoreTargets
import Verif.Props.IntNodes
import Verif.Props.IntPaths
import Verif.Props.IntTargets
import Verif.Props.IntRules
