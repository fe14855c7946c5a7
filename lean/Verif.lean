import Verif.Lemmas.Bernstein
import Verif.Lemmas.Binary64
import Verif.Lemmas.Boot
import Verif.Lemmas.Checkpoint
import Verif.Lemmas.Clip
import Verif.Lemmas.Curve
import Verif.Lemmas.CurveReorder
import Verif.Lemmas.DecLemmas
import Verif.Lemmas.Decimalize
import Verif.Lemmas.Digits
import Verif.Lemmas.ExpError
import Verif.Lemmas.Export
import Verif.Lemmas.Flt
import Verif.Lemmas.Format
import Verif.Lemmas.Frames
import Verif.Lemmas.Ieee
import Verif.Lemmas.IeeeVec
import Verif.Lemmas.Losses
import Verif.Lemmas.NearRel
import Verif.Lemmas.PerfCurves
import Verif.Lemmas.PerfRound
import Verif.Lemmas.PerfRoundRows
import Verif.Lemmas.PermInv
import Verif.Lemmas.Print
import Verif.Lemmas.PyLemmas
import Verif.Lemmas.Quantize
import Verif.Lemmas.Reorder
import Verif.Lemmas.Round
import Verif.Lemmas.SigGrid
import Verif.Lemmas.Split
import Verif.Lemmas.Stats
import Verif.Lemmas.StudentT
import Verif.Lemmas.TLaw
import Verif.Lemmas.TwoSample
import Verif.Model.BootRound
import Verif.Model.BootUtil
import Verif.Model.Checkpoint
import Verif.Model.ClassIeee
import Verif.Model.ClassLoss
import Verif.Model.ClassTable
import Verif.Model.ClipChk
import Verif.Model.Constants
import Verif.Model.CurveBoot
import Verif.Model.CurveRound
import Verif.Model.DataSplitter
import Verif.Model.Decimal
import Verif.Model.DecimalLimits
import Verif.Model.Export
import Verif.Model.Flt
import Verif.Model.FormatStr
import Verif.Model.Frame
import Verif.Model.Ieee
import Verif.Model.LossRound
import Verif.Model.Mlpaper
import Verif.Model.MlpaperRound
import Verif.Model.PerfCurves
import Verif.Model.PerfRound
import Verif.Model.Py
import Verif.Model.RegrIeee
import Verif.Model.Regression
import Verif.Model.Round
import Verif.Model.Sciprint
import Verif.Model.Util
import Verif.Model.UtilHeap
import Verif.Props.Area
import Verif.Props.AreaIeee
import Verif.Props.AreaRound
import Verif.Props.Auc
import Verif.Props.AucDouble
import Verif.Props.AucRound
import Verif.Props.BenchAccuracy
import Verif.Props.BenchAccuracyTable
import Verif.Props.BenchCover
import Verif.Props.BenchPromise
import Verif.Props.BenchPromiseEx
import Verif.Props.BenchPromiseRegr
import Verif.Props.BenchRisk
import Verif.Props.BenchRound
import Verif.Props.Bernstein
import Verif.Props.BernsteinIeee
import Verif.Props.Boot
import Verif.Props.BootAuc
import Verif.Props.BootCases
import Verif.Props.BootLimit
import Verif.Props.BootLimitEx
import Verif.Props.BootMoments
import Verif.Props.BootRound
import Verif.Props.Brier
import Verif.Props.CheckCurve
import Verif.Props.Checkpoint
import Verif.Props.CheckpointExamples
import Verif.Props.ClassBench
import Verif.Props.ClassIeee
import Verif.Props.ClassIeeeAgree
import Verif.Props.ClassIeeeBrier
import Verif.Props.ClassNoise
import Verif.Props.ClassPred
import Verif.Props.ClassTable
import Verif.Props.ClipEB
import Verif.Props.Consistency
import Verif.Props.Coverage
import Verif.Props.CummaxHeap
import Verif.Props.CurveBoot
import Verif.Props.CurveBootDouble
import Verif.Props.CurveBootIeee
import Verif.Props.CurveBootRound
import Verif.Props.CurveBootRoundOk
import Verif.Props.CurveCases
import Verif.Props.CurveExamples
import Verif.Props.CurveIeeeTheorems
import Verif.Props.CurveLaws
import Verif.Props.CurveRoundExact
import Verif.Props.CurveRoundExamples
import Verif.Props.CurveTable
import Verif.Props.CurveTableRound
import Verif.Props.Curves
import Verif.Props.CurvesAccuracy
import Verif.Props.CurvesDouble
import Verif.Props.CurvesIeee
import Verif.Props.CurvesRound
import Verif.Props.DecimalFix
import Verif.Props.DecimalLimits
import Verif.Props.Decimalize
import Verif.Props.EndToEnd
import Verif.Props.ErrorBarRound
import Verif.Props.Exchange
import Verif.Props.Export
import Verif.Props.ExportLayout
import Verif.Props.Forbidden
import Verif.Props.FormatFloats
import Verif.Props.FormatOk
import Verif.Props.FormatPipeline
import Verif.Props.FormatStr
import Verif.Props.FullTable
import Verif.Props.Gain
import Verif.Props.HardLoss
import Verif.Props.Header
import Verif.Props.IeeeGradual
import Verif.Props.IeeeNearest
import Verif.Props.Interp
import Verif.Props.LargeSample
import Verif.Props.LargeSampleTable
import Verif.Props.LinearSplit
import Verif.Props.LogLoss
import Verif.Props.LogSumExpRound
import Verif.Props.LossAccuracy
import Verif.Props.LossAccuracyDouble
import Verif.Props.LossDouble
import Verif.Props.LossExamples
import Verif.Props.LossRange
import Verif.Props.LossRangeHard
import Verif.Props.LossRoundExact
import Verif.Props.LossTable
import Verif.Props.LossTableRound
import Verif.Props.MeanEBAccuracy
import Verif.Props.MeanRound
import Verif.Props.Noise
import Verif.Props.Normalize
import Verif.Props.OneHot
import Verif.Props.OrderedSplit
import Verif.Props.PValueAccuracy
import Verif.Props.PValueAccuracyDouble
import Verif.Props.PredRound
import Verif.Props.Print
import Verif.Props.PrintCases
import Verif.Props.PrintWide
import Verif.Props.PrintedCoverage
import Verif.Props.PrintedCoverageDouble
import Verif.Props.RandomSplit
import Verif.Props.Ranking
import Verif.Props.RankingBench
import Verif.Props.RankingEx
import Verif.Props.RankingStd
import Verif.Props.RankingTail
import Verif.Props.RankingTailStd
import Verif.Props.RegrBench
import Verif.Props.RegrBenchRound
import Verif.Props.RegrIeee
import Verif.Props.RegrIeeeAgree
import Verif.Props.RegrIeeeExamples
import Verif.Props.RegrLoss
import Verif.Props.RegrNoise
import Verif.Props.RegrNoiseRound
import Verif.Props.RegrPred
import Verif.Props.RegrRisk
import Verif.Props.RegrRound
import Verif.Props.RegrTable
import Verif.Props.RoundCases
import Verif.Props.RoundExact
import Verif.Props.RoundedCoverage
import Verif.Props.RoundedCoverageDouble
import Verif.Props.Sensitivity
import Verif.Props.Shift
import Verif.Props.ShiftCases
import Verif.Props.Spherical
import Verif.Props.SplitCases
import Verif.Props.SplitDf
import Verif.Props.StatExamples
import Verif.Props.StatsIeee
import Verif.Props.StatsRound
import Verif.Props.Step
import Verif.Props.Summary
import Verif.Props.SummaryCases
import Verif.Props.TExact
import Verif.Props.TTest
import Verif.Props.TTestAccuracy
import Verif.Props.TTestAccuracyDouble
import Verif.Props.Table
import Verif.Props.TableAccuracy
import Verif.Props.TableCoverage
import Verif.Props.TableDouble
import Verif.Props.TableEBAccuracy
import Verif.Props.TableFloats
import Verif.Props.TableGradual
import Verif.Props.TableIeee
import Verif.Props.TableIeeeCases
import Verif.Props.TableOverflow
import Verif.Props.TableOverflowCases
import Verif.Props.TableRound
import Verif.Props.Uniform
import Verif.Props.Unique
import Verif.Props.Units
import Verif.Props.WholeTable
import Verif.Props.WholeTableEx
import Verif.Props.ZeroProb
import Verif.Spec.BenchRisk
import Verif.Spec.Boot
import Verif.Spec.BootAuc
import Verif.Spec.Checkpoint
import Verif.Spec.ClassIeee
import Verif.Spec.CurveBoot
import Verif.Spec.CurveBootRound
import Verif.Spec.Curves
import Verif.Spec.DecVal
import Verif.Spec.DecimalLimits
import Verif.Spec.Double
import Verif.Spec.Exchange
import Verif.Spec.Export
import Verif.Spec.FloatAccuracy
import Verif.Spec.FloatLib
import Verif.Spec.FloatLoss
import Verif.Spec.FloatSum
import Verif.Spec.Forbidden
import Verif.Spec.Frames
import Verif.Spec.Header
import Verif.Spec.IdealBoot
import Verif.Spec.Ieee
import Verif.Spec.IeeeCurve
import Verif.Spec.IeeeLib
import Verif.Spec.IeeeTable
import Verif.Spec.Likely
import Verif.Spec.LossTable
import Verif.Spec.Losses
import Verif.Spec.Prob
import Verif.Spec.Ranking
import Verif.Spec.Reader
import Verif.Spec.Regr
import Verif.Spec.RegrIeee
import Verif.Spec.Reorder
import Verif.Spec.Resample
import Verif.Spec.Sensitivity
import Verif.Spec.Shift
import Verif.Spec.SigGrid
import Verif.Spec.Split
import Verif.Spec.Stats
import Verif.Spec.Table
import Verif.Spec.Uniform
import Verif.Spec.Units
import Verif.Spec.WholeTable
