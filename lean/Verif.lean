import Verif.Model.Base
import Verif.Model.Categorical
import Verif.Model.CovName
import Verif.Model.Covars
import Verif.Model.Criteria
import Verif.Model.EmissionUtil
import Verif.Model.Err
import Verif.Model.Estimator
import Verif.Model.Estimators
import Verif.Model.FitLog
import Verif.Model.Gaussian
import Verif.Model.Gmm
import Verif.Model.GmmEstimator
import Verif.Model.Hmmc
import Verif.Model.HmmcRaw
import Verif.Model.InitLog
import Verif.Model.IntWidth
import Verif.Model.Kl
import Verif.Model.ManyColumns
import Verif.Model.Monitor
import Verif.Model.Multinomial
import Verif.Model.NdArray
import Verif.Model.Poisson
import Verif.Model.Py
import Verif.Model.StateIndex
import Verif.Model.Stationary
import Verif.Model.Train
import Verif.Model.Utils
import Verif.Model.VEstimator
import Verif.Model.VGaussEstimator
import Verif.Model.VGaussian
import Verif.Model.Variational
import Verif.Model.WideSymbols
import Verif.Num.Binary64
import Verif.Num.Double
import Verif.Num.FloatLike
import Verif.Num.Rounded
import Verif.Num.Trapped
import Verif.Num.XF
import Verif.Num.XFLemmas
import Verif.Proofs.Categorical
import Verif.Proofs.CategoricalFamily
import Verif.Proofs.Cholesky
import Verif.Proofs.Continue
import Verif.Proofs.Copies
import Verif.Proofs.Covars
import Verif.Proofs.Criteria
import Verif.Proofs.Digamma
import Verif.Proofs.Dirichlet
import Verif.Proofs.EM
import Verif.Proofs.EmissionUtil
import Verif.Proofs.Estimator
import Verif.Proofs.EstimatorComm
import Verif.Proofs.EstimatorFit
import Verif.Proofs.Evidence
import Verif.Proofs.Family
import Verif.Proofs.FitFamily
import Verif.Proofs.FitRuns
import Verif.Proofs.FitSeq
import Verif.Proofs.GaussEvidence
import Verif.Proofs.GaussEvidenceBound
import Verif.Proofs.GaussStart
import Verif.Proofs.GaussianDiag
import Verif.Proofs.GaussianFull
import Verif.Proofs.GaussianTied
import Verif.Proofs.Gmm
import Verif.Proofs.GmmEstimator
import Verif.Proofs.GmmFit
import Verif.Proofs.GmmGain
import Verif.Proofs.GmmKinds
import Verif.Proofs.GmmObjectFit
import Verif.Proofs.GmmStart
import Verif.Proofs.HmmcRaw
import Verif.Proofs.HmmcRawBack
import Verif.Proofs.HmmcRawScaling
import Verif.Proofs.HmmcRawXi
import Verif.Proofs.Inference
import Verif.Proofs.InitLog
import Verif.Proofs.IntWidth
import Verif.Proofs.Kernel
import Verif.Proofs.Kl
import Verif.Proofs.KlDiv
import Verif.Proofs.Moments
import Verif.Proofs.Mstep
import Verif.Proofs.MultinomialFamily
import Verif.Proofs.MvnLaw
import Verif.Proofs.ObjectFit
import Verif.Proofs.ObjectStart
import Verif.Proofs.ObsLaw
import Verif.Proofs.OneState
import Verif.Proofs.Paths
import Verif.Proofs.PoissonFamily
import Verif.Proofs.Reach
import Verif.Proofs.Recode
import Verif.Proofs.Relabel
import Verif.Proofs.Roundoff
import Verif.Proofs.RoundoffCounts
import Verif.Proofs.RoundoffEM
import Verif.Proofs.RoundoffForward
import Verif.Proofs.RoundoffGrid
import Verif.Proofs.RoundoffLog
import Verif.Proofs.RoundoffLogEstep
import Verif.Proofs.RoundoffLse
import Verif.Proofs.RoundoffMstep
import Verif.Proofs.RoundoffPosterior
import Verif.Proofs.RoundoffSeq
import Verif.Proofs.RoundoffTotal
import Verif.Proofs.RoundoffTotalEM
import Verif.Proofs.RoundoffXi
import Verif.Proofs.SampleLaw
import Verif.Proofs.SampleScore
import Verif.Proofs.Sampling
import Verif.Proofs.Scaling
import Verif.Proofs.Score
import Verif.Proofs.SmallStep
import Verif.Proofs.Split
import Verif.Proofs.Stationary
import Verif.Proofs.Train
import Verif.Proofs.Usable
import Verif.Proofs.VCategorical
import Verif.Proofs.VGaussStart
import Verif.Proofs.VGaussian
import Verif.Proofs.VGaussianFamily
import Verif.Proofs.VGaussianKinds
import Verif.Proofs.VObjectFit
import Verif.Proofs.Variational
import Verif.Proofs.Viterbi
import Verif.Proofs.Wishart
import Verif.Proofs.WishartLaw
import Verif.Proofs.WishartOuter
import Verif.Props.Approach
import Verif.Props.CategoricalEM
import Verif.Props.Continue
import Verif.Props.ContinueClasses
import Verif.Props.ContinueDemo
import Verif.Props.Copies
import Verif.Props.CopiesDemo
import Verif.Props.CopiesGmm
import Verif.Props.CountEM
import Verif.Props.CovName
import Verif.Props.CovNameDemo
import Verif.Props.Criteria
import Verif.Props.Critical
import Verif.Props.Decoding
import Verif.Props.Demo
import Verif.Props.Density
import Verif.Props.Evidence
import Verif.Props.Features
import Verif.Props.FitLog
import Verif.Props.FitLogEM
import Verif.Props.FloatCounts
import Verif.Props.FloatCountsDemo
import Verif.Props.GaussEvidence
import Verif.Props.GaussFit
import Verif.Props.GaussFitDemo
import Verif.Props.GaussianEM
import Verif.Props.GaussianFullEM
import Verif.Props.GmmCheck
import Verif.Props.GmmClass
import Verif.Props.GmmEM
import Verif.Props.GmmInts
import Verif.Props.GmmObjectFit
import Verif.Props.GmmObjectFitDemo
import Verif.Props.GmmObjects
import Verif.Props.GmmSample
import Verif.Props.Inference
import Verif.Props.Inference59
import Verif.Props.InitLog
import Verif.Props.InitLogDemo
import Verif.Props.Initialise
import Verif.Props.IntData
import Verif.Props.IntWidth
import Verif.Props.IntWidthDemo
import Verif.Props.IntWidthFit
import Verif.Props.IterCap
import Verif.Props.Kernels
import Verif.Props.Kl
import Verif.Props.KlDiv
import Verif.Props.Lengths
import Verif.Props.ManyColumns
import Verif.Props.ManyColumnsDemo
import Verif.Props.NegativeCounts
import Verif.Props.ObjectFit
import Verif.Props.ObjectFitCounts
import Verif.Props.ObjectFitDemo
import Verif.Props.Objects
import Verif.Props.ObjectsDemo
import Verif.Props.OneColumn
import Verif.Props.OneColumnDemo
import Verif.Props.OneState
import Verif.Props.PriorAxes
import Verif.Props.PriorAxesDemo
import Verif.Props.Recode
import Verif.Props.RecodeDemo
import Verif.Props.RecodeFull
import Verif.Props.RecodeGmm
import Verif.Props.Rejects
import Verif.Props.RejectsDemo
import Verif.Props.Relabel
import Verif.Props.Roundoff
import Verif.Props.RoundoffDemo
import Verif.Props.RoundoffEM
import Verif.Props.RoundoffLogEM
import Verif.Props.RoundoffLogEMDouble
import Verif.Props.RoundoffSum
import Verif.Props.RoundoffSumDouble
import Verif.Props.RoundoffViterbi
import Verif.Props.RoundoffViterbiDouble
import Verif.Props.SampleEmit
import Verif.Props.SampleLaw
import Verif.Props.SampleScore
import Verif.Props.SampleScoreDemo
import Verif.Props.Sampling
import Verif.Props.Seeding
import Verif.Props.SmallStep
import Verif.Props.StateIndex
import Verif.Props.StateIndexDemo
import Verif.Props.Stationary
import Verif.Props.StationaryValue
import Verif.Props.Stops
import Verif.Props.Symbols
import Verif.Props.Training
import Verif.Props.Twins
import Verif.Props.TwinsDemo
import Verif.Props.TwinsMean
import Verif.Props.Usable
import Verif.Props.Utils
import Verif.Props.VClass
import Verif.Props.VClassDemo
import Verif.Props.VClassMore
import Verif.Props.VGaussFit
import Verif.Props.VGaussFitDemo
import Verif.Props.VGaussLaw
import Verif.Props.VGaussian
import Verif.Props.VInitLog
import Verif.Props.VObjectFit
import Verif.Props.VObjectFitDemo
import Verif.Props.VRejects
import Verif.Props.Validation
import Verif.Props.Variational
import Verif.Props.WideSymbols
import Verif.Props.WideSymbolsDemo
import Verif.Spec.Broadcast
import Verif.Spec.Calls
import Verif.Spec.Categorical
import Verif.Spec.Continue
import Verif.Spec.Copies
import Verif.Spec.CovName
import Verif.Spec.Covars
import Verif.Spec.Criteria
import Verif.Spec.Data
import Verif.Spec.Decode
import Verif.Spec.Digamma
import Verif.Spec.Evidence
import Verif.Spec.FloatCounts
import Verif.Spec.GaussEvidence
import Verif.Spec.GaussFit
import Verif.Spec.Gaussian
import Verif.Spec.Gmm
import Verif.Spec.GmmFit
import Verif.Spec.GmmInts
import Verif.Spec.GmmModel
import Verif.Spec.InitLog
import Verif.Spec.IntData
import Verif.Spec.IntWidth
import Verif.Spec.Kl
import Verif.Spec.ManyColumns
import Verif.Spec.Mstep
import Verif.Spec.Multinomial
import Verif.Spec.Mvn
import Verif.Spec.ObjectFit
import Verif.Spec.Objects
import Verif.Spec.ObsLaw
import Verif.Spec.OneColumn
import Verif.Spec.Paths
import Verif.Spec.Poisson
import Verif.Spec.PriorAxes
import Verif.Spec.Recode
import Verif.Spec.Rejects
import Verif.Spec.Relabel
import Verif.Spec.Represents
import Verif.Spec.Roundoff
import Verif.Spec.RoundoffLog
import Verif.Spec.RoundoffLogEM
import Verif.Spec.RoundoffSum
import Verif.Spec.Runs
import Verif.Spec.SampleEmit
import Verif.Spec.Sampling
import Verif.Spec.Shapes
import Verif.Spec.SmallStep
import Verif.Spec.StateIndex
import Verif.Spec.Stationary
import Verif.Spec.Stops
import Verif.Spec.Symbols
import Verif.Spec.Train
import Verif.Spec.Twins
import Verif.Spec.Usable
import Verif.Spec.VCalls
import Verif.Spec.VCategorical
import Verif.Spec.VGaussFit
import Verif.Spec.VGaussLaw
import Verif.Spec.VGaussian
import Verif.Spec.VObjects
import Verif.Spec.Validation
import Verif.Spec.Variational
import Verif.Spec.WideSymbols
import Verif.Spec.Wishart
import Verif.Spec.XLog
import Verif.Tests
