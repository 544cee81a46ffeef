import Verif.Lemmas.AccelSearch
import Verif.Lemmas.Filters
import Verif.Lemmas.FourierAverage
import Verif.Lemmas.GpModel
import Verif.Lemmas.GtiBasic
import Verif.Lemmas.GtiBtis
import Verif.Lemmas.GtiCross
import Verif.Lemmas.GtiJoin
import Verif.Lemmas.GtiMask
import Verif.Lemmas.GtiSegments
import Verif.Lemmas.LombScargle
import Verif.Lemmas.Parseval
import Verif.Lemmas.Rebin
import Verif.Lemmas.Regions
import Verif.Lemmas.TimeSeries
import Verif.Lemmas.Timmer
import Verif.Model.AccelSearch
import Verif.Model.Analyze
import Verif.Model.BaselineAls
import Verif.Model.Basic
import Verif.Model.Bexvar
import Verif.Model.Bispectrum
import Verif.Model.Cospectra
import Verif.Model.Covariance
import Verif.Model.CrossCorr
import Verif.Model.CrossErrors
import Verif.Model.CrossLags
import Verif.Model.DeadTime
import Verif.Model.DeadTimeModel
import Verif.Model.DynColors
import Verif.Model.Dynamic
import Verif.Model.EnergyLags
import Verif.Model.EventBins
import Verif.Model.Fad
import Verif.Model.FftFit
import Verif.Model.FileNames
import Verif.Model.FillBti
import Verif.Model.Filters
import Verif.Model.Fourier
import Verif.Model.GpModel
import Verif.Model.Gti
import Verif.Model.Hist
import Verif.Model.HuePlot
import Verif.Model.InverseCdf
import Verif.Model.Io
import Verif.Model.Join
import Verif.Model.LcBaseline
import Verif.Model.LcOps
import Verif.Model.LcStart
import Verif.Model.Lightcurve
import Verif.Model.LombScargle
import Verif.Model.Missions
import Verif.Model.Modeling
import Verif.Model.Multitaper
import Verif.Model.NextProd
import Verif.Model.Ols
import Verif.Model.Phaseogram
import Verif.Model.PowerColors
import Verif.Model.PowerStats
import Verif.Model.Pulsar
import Verif.Model.RandomStates
import Verif.Model.Rebin
import Verif.Model.RebinLog
import Verif.Model.Regions
import Verif.Model.Responses
import Verif.Model.RxteTable
import Verif.Model.Sampling
import Verif.Model.Segments
import Verif.Model.Simulator
import Verif.Model.SincSquare
import Verif.Model.Sorting
import Verif.Model.SpecRebin
import Verif.Model.SpectralShapes
import Verif.Model.Spectroscopy
import Verif.Model.Spectrum
import Verif.Model.Stats
import Verif.Model.Tables
import Verif.Model.TimeSeries
import Verif.Model.TimeSplit
import Verif.Model.Timmer
import Verif.Model.UtilsMisc
import Verif.Model.UtilsStats
import Verif.Model.VarEnergy
import Verif.Model.WeightedSearch
import Verif.Model.ZSquared
import Verif.Props.AccelSearch
import Verif.Props.Analyze
import Verif.Props.BaselineAls
import Verif.Props.Bexvar
import Verif.Props.Binning
import Verif.Props.Bispectrum
import Verif.Props.ClassicalPvalue
import Verif.Props.Cospectra
import Verif.Props.Covariance
import Verif.Props.CovarianceEvents
import Verif.Props.CrossCorr
import Verif.Props.CrossErrors
import Verif.Props.CrossLags
import Verif.Props.DeadTimeModel
import Verif.Props.DeadTimeRate
import Verif.Props.Detection
import Verif.Props.DynColors
import Verif.Props.Dynamic
import Verif.Props.EnergyLags
import Verif.Props.EventBins
import Verif.Props.Fad
import Verif.Props.FftFit
import Verif.Props.FileNames
import Verif.Props.FillBti
import Verif.Props.Filters
import Verif.Props.Folding
import Verif.Props.FourierAverage
import Verif.Props.FourierCross
import Verif.Props.FourierNorm
import Verif.Props.GpModel
import Verif.Props.GtiBasic
import Verif.Props.GtiCross
import Verif.Props.GtiJoin
import Verif.Props.GtiMask
import Verif.Props.GtiMerge
import Verif.Props.GtiSegments
import Verif.Props.GtiSplit
import Verif.Props.Hist
import Verif.Props.HuePlot
import Verif.Props.InverseCdf
import Verif.Props.Io
import Verif.Props.Join
import Verif.Props.LcBaseline
import Verif.Props.LcOps
import Verif.Props.LcStart
import Verif.Props.Lightcurve
import Verif.Props.Likelihood
import Verif.Props.LombScargle
import Verif.Props.Missions
import Verif.Props.Modeling
import Verif.Props.Multitaper
import Verif.Props.NextProd
import Verif.Props.Ols
import Verif.Props.Parseval
import Verif.Props.Phaseogram
import Verif.Props.PowerColors
import Verif.Props.PowerStats
import Verif.Props.Pulsar
import Verif.Props.RandomStates
import Verif.Props.Rebin
import Verif.Props.RebinLog
import Verif.Props.Regions
import Verif.Props.Responses
import Verif.Props.Sampling
import Verif.Props.Segments
import Verif.Props.Selection
import Verif.Props.Simulator
import Verif.Props.SincSquare
import Verif.Props.Sorting
import Verif.Props.SpecRebin
import Verif.Props.SpectralShapes
import Verif.Props.Spectroscopy
import Verif.Props.Spectrum
import Verif.Props.Tables
import Verif.Props.TimeSeries
import Verif.Props.TimeSeriesItems
import Verif.Props.TimeSeriesState
import Verif.Props.TimeSplit
import Verif.Props.Timmer
import Verif.Props.Trials
import Verif.Props.UtilsMisc
import Verif.Props.UtilsStats
import Verif.Props.VarEnergy
import Verif.Props.WeightedSearch
import Verif.Props.Windows
import Verif.Props.ZSquared
import Verif.Spec.Chi2
import Verif.Spec.Correlation
import Verif.Spec.DeadTime
import Verif.Spec.Density
import Verif.Spec.Dft
import Verif.Spec.Harmonics
import Verif.Spec.Intervals
import Verif.Spec.Moments
import Verif.Spec.Overlap
import Verif.Spec.Phase
import Verif.Spec.Poisson
import Verif.Spec.Rows
import Verif.Spec.Runs
import Verif.Spec.Spectra
