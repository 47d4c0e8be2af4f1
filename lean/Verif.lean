import Verif.Model.Numpy
import Verif.Model.Utils
import Verif.Model.Helpers
import Verif.Model.BinSplitting
import Verif.Model.Ale
import Verif.Model.Pdp
import Verif.Model.Shap
import Verif.Model.Partitioning
import Verif.Model.Regional
import Verif.Model.Plotting
import Verif.Model.Reports
import Verif.Model.SearchM
import Verif.Spec
import Verif.Lemmas.Accum
import Verif.Lemmas.Bins
import Verif.Props.Accumulate
import Verif.Props.Bins
import Verif.Lemmas.Binning
import Verif.Lemmas.Dp
import Verif.Props.Binning
import Verif.Props.Dp
import Verif.Props.BinningRules
import Verif.Lemmas.AleFit
import Verif.Lemmas.RealSqrt
import Verif.Lemmas.Perm
import Verif.Props.AleEffects
import Verif.Props.AleModels
import Verif.Props.AleInvariance
import Verif.Props.AleState
import Verif.Props.AleHistory
import Verif.Props.Pdp
import Verif.Props.PdpProps
import Verif.Props.Helpers
import Verif.Props.PdpHistory
import Verif.Props.PdpModels
import Verif.Props.Shap
import Verif.Lemmas.Tree
import Verif.Lemmas.Heap
import Verif.Lemmas.Search
import Verif.Props.Partition
import Verif.Props.SearchTotal
import Verif.Props.Tree
import Verif.Props.TreeData
import Verif.Props.MinPoints
import Verif.Props.Transformer
import Verif.Props.RegionalHistory
import Verif.Props.Regional
import Verif.Props.RegionalExamples
import Verif.Props.RegionalPlot
import Verif.Props.Integrate
import Verif.Props.IntegrateReal
import Verif.Props.LocalEffects
import Verif.Props.Interaction
import Verif.Props.Plot
import Verif.Props.PlotPdp
import Verif.Props.PlotShap
import Verif.Props.Reports
import Verif.Props.FeatureTypes
import Verif.Props.Heterogeneity
import Verif.Props.SearchM
import Verif.Props.ShapHistory
import Verif.Props.Monotone
import Verif.Props.Derivative
import Verif.Props.PlotLine
import Verif.Props.Accuracy
import Verif.Props.PerfectSplit
import Verif.Props.FitSucceeds
import Verif.Props.PerfectRegional
import Verif.Props.Conditioning
import Verif.Props.Bounded
import Verif.Model.RegionalFit
import Verif.Props.RegionalClasses
import Verif.Props.RegionalApi
import Verif.Props.RegionalApiTotal
import Verif.Props.RegionalApiSplits
import Verif.Props.RegionalApiExamples
import Verif.Props.Irrelevant
import Verif.Props.Replication
import Verif.Props.Units
import Verif.Props.Recode
import Verif.Props.Levels
import Verif.Props.GreedyRule
import Verif.Props.Superposition
import Verif.Props.RegionalOrder
import Verif.Props.OneByOne
import Verif.Props.Refit
import Verif.Props.Envelope
import Verif.Props.Defaults
import Verif.Props.Names
import Verif.Props.Randomness
import Verif.Model.Indices
import Verif.Props.Indices
import Verif.Props.OtherTerms
import Verif.Props.OtherTermsRegional
import Verif.Props.MethodsAgree
import Verif.Model.Extras
import Verif.Props.Extras
import Verif.Props.Consulted
import Verif.Lemmas.DpScale
import Verif.Props.OutputUnits
import Verif.Props.RegionUnits
import Verif.Props.RegionUnitsTree
import Verif.Props.RegionUnitsApi
import Verif.Props.RegionUnitsExamples
import Verif.Model.Heap
import Verif.Props.Heap
import Verif.Props.HeapObjects
import Verif.Props.HeapAle
import Verif.Props.HeapExamples
import Verif.Props.Insulation
import Verif.Props.InsulationExamples
import Verif.Props.Nearby
import Verif.Props.NearbyExamples
import Verif.Model.Calls
import Verif.Lemmas.Calls
import Verif.Props.CallsPdp
import Verif.Props.CallsAle
import Verif.Props.CallsShap
import Verif.Props.Crashes
import Verif.Props.CrashesPdp
import Verif.Props.CrashesShap
import Verif.Props.CrashesRetry
import Verif.Props.CrashesExamples
import Verif.Props.CallCounts
import Verif.Props.CallCountsAle
import Verif.Props.CallCountsExamples
import Verif.Model.RegionalCalls
import Verif.Lemmas.RegionalCalls
import Verif.Props.RegionalCallsSearch
import Verif.Props.RegionalCallsHeter
import Verif.Props.RegionalCallsClasses
import Verif.Props.RegionalCallsFit
import Verif.Props.RegionalSwallow
import Verif.Props.RegionalSwallowExamples
import Verif.Props.AnyModel
import Verif.Props.RegionalCost
import Verif.Props.RegionalCostEval
import Verif.Model.Missing
import Verif.Props.Missing
import Verif.Props.MissingPdp
import Verif.Model.NanOutput
import Verif.Props.NanOutput
import Verif.Props.NanOutputPdp
import Verif.Model.NanGradient
import Verif.Props.NanGradient
import Verif.Model.NanSearch
import Verif.Props.NanSearch
import Verif.Props.NanSearchPdp
import Verif.Props.NanSearchTree
import Verif.Model.MissingSearch
import Verif.Props.MissingSearch
import Verif.Props.MissingIgnored
import Verif.Props.MissingFilled
import Verif.Props.MissingRegional
import Verif.Model.RandomFit
import Verif.Props.RandomSearch
import Verif.Props.RandomFit
import Verif.Props.RandomTotal
import Verif.Props.RandomFitExamples
import Verif.Props.Unbiased
import Verif.Props.UnbiasedExamples
import Verif.Props.UnbiasedAle
import Verif.Props.UnbiasedAleExamples
import Verif.Props.LevelsOnAverage
import Verif.Props.SamplingError
import Verif.Props.SamplingErrorExamples
import Verif.Props.Interchangeable
import Verif.Props.Shape
import Verif.Props.ShapeRhale
import Verif.Props.ZeroHeterogeneity
import Verif.Props.Locality
import Verif.Props.Rescaled
import Verif.Props.Pooling
import Verif.Props.ConditioningScale
import Verif.Props.ConditioningScaleApi
import Verif.Props.ConditioningScaleExamples
import Verif.Props.ColumnsMoved
import Verif.Props.ColumnsMovedApi
import Verif.Props.ColumnsMovedEval
import Verif.Props.ColumnsMovedShapley
import Verif.Props.ShapAdditive
import Verif.Props.ColumnsMovedExamples
