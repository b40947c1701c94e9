import Verif.Lemmas.Bincode
import Verif.Lemmas.CommandLine
import Verif.Lemmas.CsvChars
import Verif.Lemmas.Cvt
import Verif.Lemmas.Decimal
import Verif.Lemmas.Fft
import Verif.Lemmas.Float
import Verif.Lemmas.FloatErr
import Verif.Lemmas.FloatMono
import Verif.Lemmas.FloatPat
import Verif.Lemmas.FloatVal
import Verif.Lemmas.Heap
import Verif.Lemmas.MapeZero
import Verif.Lemmas.MeanErr
import Verif.Lemmas.Milli
import Verif.Lemmas.Nearest
import Verif.Lemmas.Path
import Verif.Lemmas.Poly
import Verif.Lemmas.Round
import Verif.Lemmas.Shortest
import Verif.Lemmas.Simple
import Verif.Lemmas.SplitN
import Verif.Lemmas.Stats
import Verif.Lemmas.Stream
import Verif.Lemmas.SumErr
import Verif.Lemmas.Utf8
import Verif.Lemmas.Verbose
import Verif.Lemmas.Vsri
import Verif.Lemmas.Wavbrro
import Verif.Model.Bincode
import Verif.Model.Cli
import Verif.Model.CommandLine
import Verif.Model.Compressor
import Verif.Model.Concurrent
import Verif.Model.Csv
import Verif.Model.CsvCompressor
import Verif.Model.CsvText
import Verif.Model.Ext
import Verif.Model.Fft
import Verif.Model.Files
import Verif.Model.Float
import Verif.Model.Frame
import Verif.Model.Heap
import Verif.Model.InterpLib
import Verif.Model.Io
import Verif.Model.Main
import Verif.Model.Metric
import Verif.Model.NumText
import Verif.Model.Optimizer
import Verif.Model.Panic
import Verif.Model.Path
import Verif.Model.Poly
import Verif.Model.Programs
import Verif.Model.Simple
import Verif.Model.Stats
import Verif.Model.Stream
import Verif.Model.Utf8
import Verif.Model.Utils
import Verif.Model.Verbose
import Verif.Model.Vsri
import Verif.Model.VsriFile
import Verif.Model.Walk
import Verif.Model.Wav
import Verif.Model.WavIo
import Verif.Model.Wavbrro
import Verif.Props.Accuracy
import Verif.Props.Auto
import Verif.Props.AutoExact
import Verif.Props.AutoTighter
import Verif.Props.Away
import Verif.Props.Bits
import Verif.Props.BroFile
import Verif.Props.Builds
import Verif.Props.Cli
import Verif.Props.Codec
import Verif.Props.CommandLine
import Verif.Props.Concurrent
import Verif.Props.Constant
import Verif.Props.Count
import Verif.Props.Crash
import Verif.Props.Csv
import Verif.Props.CsvCompressor
import Verif.Props.CsvNumbers
import Verif.Props.CsvText
import Verif.Props.CsvTimes
import Verif.Props.CsvTwice
import Verif.Props.Cycles
import Verif.Props.Damage
import Verif.Props.Default
import Verif.Props.Directory
import Verif.Props.EntryPoints
import Verif.Props.Eras
import Verif.Props.Fft
import Verif.Props.FftCli
import Verif.Props.FftReport
import Verif.Props.Files
import Verif.Props.Flat
import Verif.Props.FrameSize
import Verif.Props.Golden
import Verif.Props.GoldenFile
import Verif.Props.IndexSize
import Verif.Props.Interp
import Verif.Props.InterpGolden1
import Verif.Props.InterpGolden2
import Verif.Props.InterpGolden3
import Verif.Props.IoFaults
import Verif.Props.Knots
import Verif.Props.Layout
import Verif.Props.Lossless
import Verif.Props.Median
import Verif.Props.Metric
import Verif.Props.MetricLaws
import Verif.Props.MetricZero
import Verif.Props.NonFinite
import Verif.Props.NumText
import Verif.Props.Options
import Verif.Props.Path
import Verif.Props.Plan
import Verif.Props.Poly
import Verif.Props.PolyReport
import Verif.Props.Programs
import Verif.Props.ReadWhile
import Verif.Props.Recompress
import Verif.Props.Requested
import Verif.Props.Rerun
import Verif.Props.Resume
import Verif.Props.Retry
import Verif.Props.Rounding
import Verif.Props.RoundingHuge
import Verif.Props.Sampled
import Verif.Props.Session
import Verif.Props.Simple
import Verif.Props.Sizes
import Verif.Props.SmapeRange
import Verif.Props.Spectrum
import Verif.Props.StatsMore
import Verif.Props.Stream
import Verif.Props.Tighter
import Verif.Props.Untrusted
import Verif.Props.Utils
import Verif.Props.Verbose
import Verif.Props.Vsri
import Verif.Props.VsriCut
import Verif.Props.VsriExact
import Verif.Props.VsriFile
import Verif.Props.VsriGaps
import Verif.Props.VsriLoad
import Verif.Props.VsriLookup
import Verif.Props.VsriNear
import Verif.Props.VsriNext
import Verif.Props.VsriPrev
import Verif.Props.VsriReindex
import Verif.Props.VsriRepeat
import Verif.Props.Walk
import Verif.Props.Wav
import Verif.Props.WavIo
import Verif.Props.WavMain
import Verif.Props.WavRetry
import Verif.Props.WavSession
import Verif.Props.Wavbrro
import Verif.Props.WavbrroAlign
import Verif.Props.WbroCut
import Verif.Props.WbroLayout
import Verif.Props.Whole
import Verif.Props.ZeroError
import Verif.Props.ZeroFile
import Verif.Spec.Auto
import Verif.Spec.BroFile
import Verif.Spec.Builds
import Verif.Spec.Chunked
import Verif.Spec.CommandLine
import Verif.Spec.CsvText
import Verif.Spec.Cycles
import Verif.Spec.Day
import Verif.Spec.Decimal
import Verif.Spec.Dummy
import Verif.Spec.Eras
import Verif.Spec.Fft
import Verif.Spec.Float
import Verif.Spec.Index
import Verif.Spec.IndexFile
import Verif.Spec.Interp
import Verif.Spec.Layout
import Verif.Spec.Metrics
import Verif.Spec.Path
import Verif.Spec.Programs
import Verif.Spec.Request
import Verif.Spec.Size
import Verif.Spec.Store
import Verif.Spec.Stream
import Verif.Spec.Verbose
