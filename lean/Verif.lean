import Verif.Num.Fl
import Verif.Num.Arr
import Verif.Py
import Verif.Model.Utils
import Verif.Props.Powerlaw
import Verif.Props.Truncnorm
import Verif.Props.BetaDist
import Verif.Props.UtilsMisc
import Verif.Props.Conversions
import Verif.Props.Backend
import Verif.Props.MassSingle
import Verif.Props.MassJoint
import Verif.Props.Smoothing
import Verif.Props.SmoothedCore
import Verif.Props.Smoothed
import Verif.Props.SmoothedNorm
import Verif.Props.SmoothedHistory
import Verif.Props.Spin
import Verif.Props.Redshift
import Verif.Props.Cosmo
import Verif.Props.CosmoDensity
import Verif.Props.Resampling
import Verif.Props.GridVT
import Verif.Num.Round
import Verif.Lemmas.Round
import Verif.Model.HyperPE
import Verif.Props.Likelihood
import Verif.Props.ExtraStatistics
import Verif.Props.PosteriorSamples
import Verif.Props.RatePosterior
import Verif.Model.Interped
import Verif.Props.SplineNodes
import Verif.Props.SplineValue
import Verif.Props.SplineHistory
import Verif.Model.Experimental
import Verif.Props.Experimental
import Verif.Model.InterpPowerlaw
import Verif.Props.InterpPowerlaw
import Verif.Props.InterpPowerlawHistory
import Verif.Props.InterpPowerlawNames
import Verif.Model.Attributes
import Verif.Props.Attributes
import Verif.Lemmas.Scaling
import Verif.Props.Scaling
import Verif.Props.SpinMoments
import Verif.Props.MonteCarlo
import Verif.Props.Consistency
import Verif.Props.BackendValues
import Verif.Props.SplineNames
import Verif.Lemmas.Quadrature
import Verif.Props.Quadrature
import Verif.Props.QuadratureRatio
import Verif.Props.SmoothedLimit
import Verif.Model.Bilby
import Verif.Props.Bilby
import Verif.Props.Population
import Verif.Model.Rounded
import Verif.Lemmas.RoundError
import Verif.Props.Rounding
import Verif.Model.RoundedDensities
import Verif.Lemmas.RelError
import Verif.Props.RoundedPowerlaw
import Verif.Props.Continuity
import Verif.Props.ContinuitySmoothed
import Verif.Props.ContinuityLikelihood
import Verif.Model.Autodiff
import Verif.Lemmas.Autodiff
import Verif.Props.Gradients
import Verif.Props.GradientsMass
import Verif.Props.GradientsSmoothed
import Verif.Props.GradientsModels
import Verif.Props.GradientsRedshift
import Verif.Props.GradientsLikelihood
import Verif.Props.GradientsSelection
import Verif.Props.RedshiftNames
import Verif.Lemmas.RoundSpecial
import Verif.Props.RoundedGaussian
import Verif.Props.RoundedTruncnorm
import Verif.Props.RoundedSpecial
import Verif.Props.RoundedSpin
import Verif.Props.TruncnormUnbounded
import Verif.Props.VTInit
import Verif.Num.NArr
import Verif.Lemmas.Broadcast
import Verif.Model.ArrayDensities
import Verif.Props.Broadcast
import Verif.Props.IntegerInputs
import Verif.Model.ArrayModels
import Verif.Props.ArrayModels
import Verif.Model.Jit
import Verif.Lemmas.Staged
import Verif.Lemmas.StagedSpline
import Verif.Props.JitSpline
import Verif.Lemmas.StagedSmoothed
import Verif.Props.JitSmoothed
import Verif.Model.JitLikelihood
import Verif.Lemmas.StagedLikelihood
import Verif.Props.JitLikelihood
import Verif.Props.Units
import Verif.Props.Symmetry
import Verif.Model.SharedSmoothed
import Verif.Props.SharedSmoothed
import Verif.Model.Analysis
import Verif.Props.AnalysisHistory
import Verif.Props.AnalysisValue
import Verif.Props.AnalysisLimit
import Verif.Props.AnalysisStandard
import Verif.Model.SharedSpline
import Verif.Props.SharedSpline
import Verif.Props.PredictiveLimit
import Verif.Props.PredictiveBayes
import Verif.Model.CosmoArrays
import Verif.Props.CosmoArrays
import Verif.Props.CosmoHistory
import Verif.Props.CosmoLimit
import Verif.Props.SplineNorm
import Verif.Props.SmoothedFinite
import Verif.Model.Priors
import Verif.Props.Priors
import Verif.Props.Nested
import Verif.Props.NestedSmoothed
import Verif.Props.NestedModels
import Verif.Props.Declared
import Verif.Props.PeakLabels
import Verif.Props.SplineOffset
import Verif.Props.Catalogue
import Verif.Props.Frames
import Verif.Props.PooledInjections
import Verif.Props.GradientsTies
import Verif.Model.RoundedRedshift
import Verif.Props.RoundedGrid
import Verif.Props.RoundedRedshift
import Verif.Model.RoundedConversions
import Verif.Props.RoundedConversions
import Verif.Lemmas.RoundMono
import Verif.Model.RoundedSmoothing
import Verif.Props.RoundedSmoothing
import Verif.Props.RoundedSmoothed
import Verif.Model.RoundedPopulation
import Verif.Props.RoundedAnalysis
import Verif.Props.GridLimit
import Verif.Props.Threads
import Verif.Props.SplineThreads
import Verif.Props.BackendThreads
import Verif.Props.InterpPowerlawLimit
import Verif.Model.AutodiffSpin
import Verif.Props.GradientsSpin
import Verif.Model.AutodiffSpline
import Verif.Props.GradientsSpline
import Verif.Props.GradientsUnsmoothed
import Verif.Model.ExtraStatisticsSteps
import Verif.Props.ExtraStatisticsSteps
import Verif.Lemmas.CentralLimit
import Verif.Props.StandardError
import Verif.Props.ImpossiblePopulations
import Verif.Props.Thinning
import Verif.Props.CosmoOrder
import Verif.Props.RedshiftPeak
import Verif.Props.GaussianMoments
import Verif.Props.MixtureFraction
import Verif.Props.VonMisesMoments
import Verif.Props.UncertaintyLimit
import Verif.Props.SelectionBias
import Verif.Props.MarginalisedBias
import Verif.Props.RateBias
import Verif.Props.TrapezoidBroadcast
import Verif.Props.SampleBias
import Verif.Props.BackendLikelihood
import Verif.Tests.Conformance
import Verif.Model.JitStatistics
import Verif.Props.JitStatistics
import Verif.Props.TruePopulation
import Verif.Props.BestRate
import Verif.Props.TrueRate
import Verif.Model.GridSelection
import Verif.Props.GridLikelihood
import Verif.Model.Copying
import Verif.Props.Copying
import Verif.Props.Posterior
import Verif.Props.Relevant
import Verif.Props.PosteriorRate
import Verif.Props.EffectiveSamples
import Verif.Props.DroppedInjections
import Verif.Props.Mixtures
import Verif.Model.Predictive
import Verif.Props.PredictiveSamples
import Verif.Props.LocalRate
import Verif.Props.Ordering
import Verif.Props.Identifiable
import Verif.Model.ArrayRedshift
import Verif.Props.ArrayRedshift
import Verif.Props.Measured
import Verif.Props.GaussianErrors
import Verif.Props.RedshiftErrors
import Verif.Props.SeveralErrors
import Verif.Props.PeakErrors
import Verif.Props.SmoothedErrors
import Verif.Props.SmoothedJointErrors
import Verif.Props.TwoPeaksErrors
import Verif.Props.SmoothedTwoPeaksErrors
import Verif.Props.SmoothedAnyErrors
import Verif.Props.BrokenPeakErrors
import Verif.Props.TwoMassesErrors
import Verif.Props.CombinedErrors
import Verif.Props.BrokenRatioErrors
import Verif.Props.FullErrors
