import Verif.ArraySpec
import Verif.Band
import Verif.BandSpec
import Verif.Bandit
import Verif.BanditSpec
import Verif.CalibrationSpec
import Verif.CallTable
import Verif.Calls
import Verif.Checked
import Verif.ConsistencySpec
import Verif.DecisionSpec
import Verif.DirichletScipy
import Verif.DirichletUse
import Verif.DirichletUseSpec
import Verif.Dist
import Verif.DistMap
import Verif.Engagement
import Verif.Equality
import Verif.EqualitySpec
import Verif.Expr
import Verif.Float
import Verif.FloatSpec
import Verif.ForecastSpec
import Verif.Hyper
import Verif.HyperSpec
import Verif.Ieee
import Verif.IeeeSpec
import Verif.JointSpec
import Verif.Lemmas.Band
import Verif.Lemmas.Bandit
import Verif.Lemmas.BanditGamma
import Verif.Lemmas.BanditLaw
import Verif.Lemmas.BanditLoop
import Verif.Lemmas.BanditRun
import Verif.Lemmas.Bayes
import Verif.Lemmas.Blocks
import Verif.Lemmas.Broadcast
import Verif.Lemmas.Calibration
import Verif.Lemmas.CallRules
import Verif.Lemmas.Cdf
import Verif.Lemmas.Concentration
import Verif.Lemmas.ConcentrationJoint
import Verif.Lemmas.ConcentrationMatrix
import Verif.Lemmas.ConcentrationWishart
import Verif.Lemmas.ConcreteCases
import Verif.Lemmas.DataMeans
import Verif.Lemmas.Decision
import Verif.Lemmas.DecisionPredict
import Verif.Lemmas.Density
import Verif.Lemmas.DirMultMerge
import Verif.Lemmas.Dirichlet
import Verif.Lemmas.DirichletMerge
import Verif.Lemmas.DiscreteMeans
import Verif.Lemmas.Elementwise
import Verif.Lemmas.FloatMag
import Verif.Lemmas.FloatNear
import Verif.Lemmas.Forecast
import Verif.Lemmas.Gather
import Verif.Lemmas.Gibbs
import Verif.Lemmas.Hyper
import Verif.Lemmas.IdealSamplers
import Verif.Lemmas.Identify
import Verif.Lemmas.Ieee
import Verif.Lemmas.IeeeSize
import Verif.Lemmas.Joint
import Verif.Lemmas.JointSamples
import Verif.Lemmas.Kernel
import Verif.Lemmas.LawFamilies
import Verif.Lemmas.LawOn
import Verif.Lemmas.LogConcave
import Verif.Lemmas.Marginal
import Verif.Lemmas.Martingale
import Verif.Lemmas.MatAlg
import Verif.Lemmas.Maxima
import Verif.Lemmas.Memory
import Verif.Lemmas.MemoryModels
import Verif.Lemmas.Mvn
import Verif.Lemmas.Mvt
import Verif.Lemmas.NiwNorm
import Verif.Lemmas.NormalAlg
import Verif.Lemmas.Operators
import Verif.Lemmas.PlotRun
import Verif.Lemmas.Prediction
import Verif.Lemmas.PredictionUnique
import Verif.Lemmas.Predictive
import Verif.Lemmas.PredictiveLimit
import Verif.Lemmas.ProperKernels
import Verif.Lemmas.Quantile
import Verif.Lemmas.RegressionLimit
import Verif.Lemmas.Repeated
import Verif.Lemmas.Rounding
import Verif.Lemmas.RowsAlg
import Verif.Lemmas.SampleLaw
import Verif.Lemmas.SliceRel
import Verif.Lemmas.Sql
import Verif.Lemmas.Steps
import Verif.Lemmas.StochOrder
import Verif.Lemmas.Stopping
import Verif.Lemmas.StudentLimit
import Verif.Lemmas.Sums
import Verif.Lemmas.TwoStage
import Verif.Lemmas.VectorDraw
import Verif.Lemmas.Views
import Verif.Lemmas.VonMisesLimit
import Verif.Lemmas.Wishart
import Verif.Lemmas.WishartBlocks
import Verif.Lemmas.WishartDensity
import Verif.Lemmas.WishartMean
import Verif.Lemmas.WishartMoments
import Verif.Lemmas.WishartNorm
import Verif.LikelihoodSpec
import Verif.ListSearch
import Verif.ListSearchSpec
import Verif.MatModels
import Verif.MatScipy
import Verif.Maxima
import Verif.Memory
import Verif.MemoryDirichlet
import Verif.MemorySpec
import Verif.Models
import Verif.NdArr
import Verif.Num
import Verif.Operators
import Verif.OperatorsSpec
import Verif.OrderSpec
import Verif.Params
import Verif.Plot
import Verif.PlotRun
import Verif.PlotSpec
import Verif.PredictionSpec
import Verif.PredictiveSpec
import Verif.Props.Arithmetic
import Verif.Props.Band
import Verif.Props.Bandit
import Verif.Props.Calibration
import Verif.Props.CalibrationExponential
import Verif.Props.CalibrationIntervals
import Verif.Props.CalibrationMarginal
import Verif.Props.CalibrationVector
import Verif.Props.CallBodies
import Verif.Props.Calls
import Verif.Props.CasesArrays
import Verif.Props.CasesCalls
import Verif.Props.CasesFloat
import Verif.Props.CasesLaws
import Verif.Props.Consistency
import Verif.Props.ConsistencyDirichlet
import Verif.Props.ConsistencyKernels
import Verif.Props.ConsistencyMatrix
import Verif.Props.ConsistencyNormal
import Verif.Props.ConsistencyVonMises
import Verif.Props.ConsistencyWishart
import Verif.Props.CovarianceMean
import Verif.Props.CustomInv
import Verif.Props.Decision
import Verif.Props.DecisionPredict
import Verif.Props.DecisionPredictGuess
import Verif.Props.DecisionPredictGuessVector
import Verif.Props.DecisionPredictMean
import Verif.Props.DecisionPredictVector
import Verif.Props.DecisionPredictWrong
import Verif.Props.Dirichlet
import Verif.Props.DirichletUse
import Verif.Props.DistMeaning
import Verif.Props.Equality
import Verif.Props.Equivalent
import Verif.Props.Evidence
import Verif.Props.Exponential
import Verif.Props.Failures
import Verif.Props.FloatAbsolute
import Verif.Props.FloatError
import Verif.Props.FloatExact
import Verif.Props.FloatValid
import Verif.Props.Forecast
import Verif.Props.ForecastCategories
import Verif.Props.ForecastVector
import Verif.Props.Hyper
import Verif.Props.Hypergeometric
import Verif.Props.Identifiable
import Verif.Props.IdentifiableDiscrete
import Verif.Props.IdentifiableMatrix
import Verif.Props.Ieee
import Verif.Props.IeeeBatches
import Verif.Props.IeeeShown
import Verif.Props.Influence
import Verif.Props.InfluenceMatrix
import Verif.Props.Joint
import Verif.Props.LikelihoodPrinciple
import Verif.Props.LikelihoodProportional
import Verif.Props.ListSearch
import Verif.Props.Marginals
import Verif.Props.Maxima
import Verif.Props.Memory
import Verif.Props.MemoryDirichlet
import Verif.Props.Monotone
import Verif.Props.MonotonePredictive
import Verif.Props.MultivariateNormal
import Verif.Props.OneDim
import Verif.Props.Operators
import Verif.Props.Order
import Verif.Props.PlotCdfMore
import Verif.Props.PlotRun
import Verif.Props.Plotting
import Verif.Props.PlottingInstances
import Verif.Props.PosteriorNormal
import Verif.Props.PosteriorPredictive
import Verif.Props.PosteriorScalar
import Verif.Props.Prediction
import Verif.Props.PredictionVector
import Verif.Props.PredictionWrong
import Verif.Props.PredictiveConsistency
import Verif.Props.PredictiveGeometricPoisson
import Verif.Props.PredictiveScalar
import Verif.Props.ProperKernels
import Verif.Props.Proportional
import Verif.Props.PythonSequences
import Verif.Props.RecoveryHypergeometric
import Verif.Props.RecoveryVector
import Verif.Props.RecoveryWishart
import Verif.Props.Regression
import Verif.Props.RegressionWidth
import Verif.Props.Relabel
import Verif.Props.RelabelTwo
import Verif.Props.Repeated
import Verif.Props.RvsArray
import Verif.Props.SampleConsistency
import Verif.Props.SampleConsistencyMatrix
import Verif.Props.SampleShapes
import Verif.Props.Sampling
import Verif.Props.SamplingLaws
import Verif.Props.SamplingMixtures
import Verif.Props.SamplingWishart
import Verif.Props.Sequential
import Verif.Props.SequentialMatrix
import Verif.Props.SliceClasses
import Verif.Props.SliceCommutes
import Verif.Props.SliceObjects
import Verif.Props.Slicing
import Verif.Props.Sql
import Verif.Props.Stopping
import Verif.Props.StoppingIntervals
import Verif.Props.Symbolic
import Verif.Props.Thompson
import Verif.Props.TwoStage
import Verif.Props.TwoStageMatrix
import Verif.Props.TwoStageVector
import Verif.Props.Units
import Verif.Props.UnitsMatrix
import Verif.Props.Valid
import Verif.Props.VectorDirichlet
import Verif.Props.Vectorised
import Verif.Props.VersionGate
import Verif.Props.Views
import Verif.Props.Warnings
import Verif.Props.Wishart
import Verif.PyVal
import Verif.RelabelSpec
import Verif.Rows
import Verif.Rvs
import Verif.RvsArray
import Verif.RvsArraySpec
import Verif.RvsSpec
import Verif.SampleShapes
import Verif.SampleSpec
import Verif.Sampling
import Verif.Scipy
import Verif.Slice
import Verif.Spec
import Verif.Sql
import Verif.SqlSpec
import Verif.StoppingSpec
import Verif.SumSpec
import Verif.SymSpec
import Verif.Thompson
import Verif.ToObj
import Verif.UnitsSpec
import Verif.VectorDirichlet
import Verif.Version
import Verif.Views
import Verif.ViewsSpec
import Verif.Warnings
import Verif.WarningsSpec
