import Verif.Model.Lines
import Verif.Props.Raster
import Verif.Props.Crossing
import Verif.Props.Edges
import Verif.Props.Intersect
import Verif.Props.Line2D
import Verif.Props.Stats
import Verif.Props.Uncertain
import Verif.Props.Strformat
import Verif.Props.Image
import Verif.Props.Interpolation
import Verif.Props.Gaussian
import Verif.Props.Clock
import Verif.Props.Equipment
import Verif.Props.Scpi
import Verif.Props.Autoscale
import Verif.Props.Decimal
import Verif.Props.Tek
import Verif.Props.WaveDecode
import Verif.Props.WfmDecode
import Verif.Props.MaskHits
import Verif.Props.EyeWindow
import Verif.Props.EyeMask
import Verif.Props.EyeBathtub
import Verif.Props.EyeConfig
import Verif.Props.EyeImage
import Verif.Props.Pam2Levels
import Verif.Props.Pam2Vertical
import Verif.Props.Pam2Bits
import Verif.Props.Pam2Horizontal
import Verif.Props.Pam2Clock
import Verif.Props.Pam2Measures
import Verif.Props.CdrDetrend
import Verif.Props.CdrSearch
import Verif.Props.CdrRun
import Verif.Props.CdrFft
import Verif.Props.LinesC
import Verif.Props.EyeC
import Verif.Props.Acquire
import Verif.Props.StatsExp
import Verif.Props.Pipeline
import Verif.Props.OpenEye
import Verif.Props.SquareWave
import Verif.Props.Pam2Ratios
import Verif.Model.ScopeInit
import Verif.Props.ScopeInit
import Verif.Props.CdrTone
import Verif.Model.AutoLevels
import Verif.Props.AutoLevels
import Verif.Props.Affine
import Verif.Props.AffineMeasures
import Verif.Props.TimeScale
import Verif.Props.Draw
import Verif.Props.Order
import Verif.Model.Report
import Verif.Props.Report
import Verif.Model.Float
import Verif.Props.Float
import Verif.Model.FloatStats
import Verif.Props.FloatStats
import Verif.Model.FloatEye
import Verif.Props.FloatEye
import Verif.Model.GaussianFit
import Verif.Props.GaussianFit
import Verif.Model.MaskDict
import Verif.Props.MaskDict
import Verif.Model.Again
import Verif.Props.Again
import Verif.Props.Single
import Verif.Model.Heatmap
import Verif.Props.Heatmap
import Verif.Model.Png
import Verif.Props.Png
import Verif.Props.TekText
import Verif.Props.TekTypes
import Verif.Model.FloatWait
import Verif.Props.FloatWait
import Verif.Props.Together
import Verif.Props.Invert
import Verif.Props.InvertEye
import Verif.Props.Hysteresis
import Verif.Props.Longer
import Verif.Props.MaskInside
import Verif.Props.NoisyLevels
import Verif.Props.EdgeJitter
import Verif.Model.FloatCdr
import Verif.Props.FloatCdr
import Verif.Model.FloatPam2
import Verif.Props.FloatPam2
import Verif.Props.FloatDecode
import Verif.Model.FloatAutoscale
import Verif.Props.AutoscaleReal
import Verif.Model.FloatWave
import Verif.Props.FloatWave
import Verif.Props.Keyed
import Verif.Props.KeyedBits
import Verif.Props.ReadBits
import Verif.Model.FloatFormat
import Verif.Props.FloatFormat
import Verif.Model.FloatUncertain
import Verif.Props.FloatUncertain
import Verif.Model.FloatClock
import Verif.Props.FloatClock
import Verif.Model.FloatSearch
import Verif.Props.FloatFit
import Verif.Props.FloatSearch
import Verif.Props.FloatRecover
import Verif.Props.FloatSearchExact
import Verif.Props.FloatBits
import Verif.Model.FloatBathtub
import Verif.Props.FloatBathtub
import Verif.Model.FloatMeasures
import Verif.Props.FloatMeasures
import Verif.Model.FloatHorizontal
import Verif.Props.FloatHorizontal
import Verif.Model.FloatMask
import Verif.Props.FloatMask
import Verif.Props.FloatMaskTest
import Verif.Props.ReadSearch
import Verif.Model.FloatLine2D
import Verif.Props.FloatLine2D
import Verif.Model.FloatInterpolation
import Verif.Props.FloatInterpolation
import Verif.Model.FloatGaussian
import Verif.Props.FloatGaussian
import Verif.Props.GaussianPeak
import Verif.Props.FloatGaussianPeak
import Verif.Model.FloatVecp
import Verif.Props.FloatVecp
import Verif.Props.FloatVecpMeasures
import Verif.Props.FloatPercentile
import Verif.Props.ClosureMonotone
