import Verif.Base
import Verif.Drift.Model
import Verif.Drift.Spec
import Verif.Drift.Lemmas
import Verif.Drift.Lemmas2
import Verif.Drift.Bounds
import Verif.Drift.Props
import Verif.Nd.Model
import Verif.Nd.Spec
import Verif.Nd.Odometer
import Verif.Nd.Loops
import Verif.Nd.Elementwise
import Verif.Nd.Binary
import Verif.Nd.Dense
import Verif.Nd.Shapes
import Verif.Nd.Props
import Verif.Comp.Model
import Verif.Comp.Spec
import Verif.Comp.Bfs
import Verif.Comp.Lemmas
import Verif.Comp.Props
import Verif.Comp.LocalMaxima
import Verif.Comp.MaximaProps
import Verif.Hit.Model
import Verif.Hit.Props
import Verif.Float.Rounding
import Verif.Drift.Rates
import Verif.Drift.RatesProps
import Verif.File.Model
import Verif.File.Props
import Verif.File.Text
import Verif.File.Dat
import Verif.File.DatProps
import Verif.File.DatRead
import Verif.File.Sexagesimal
import Verif.Drift.Symmetry
import Verif.Drift.BlandProps
import Verif.Drift.BlandLemmas
import Verif.Drift.Bland
import Verif.Event.Model
import Verif.Event.Lemmas
import Verif.Event.Props
import Verif.Event.MeansFloat
import Verif.Scan.Model
import Verif.Scan.Lemmas
import Verif.Scan.Props
import Verif.Scan.SliceFloat
import Verif.Cadence.Model
import Verif.Cadence.Props
import Verif.Cadence.Serial
import Verif.Misc.Fft
import Verif.Misc.FindHits
import Verif.Misc.Device
import Verif.Misc.H5Shape
import Verif.Misc.Creators
import Verif.Misc.Deferred
import Verif.Misc.Types
import Verif.Misc.Arith
import Verif.Stat.Model
import Verif.Stat.Spec
import Verif.Stat.Lemmas
import Verif.Stat.Core
import Verif.Stat.Props
import Verif.Stat.Integer
import Verif.Stat.Median
import Verif.Flag.Model
import Verif.Flag.Rolloff
import Verif.Flag.Basic
import Verif.Flag.Magnitude
import Verif.Flag.Noise
import Verif.Flag.Clip
import Verif.Flag.ScanOps
import Verif.Gpu.Sched
import Verif.Gpu.Merge
import Verif.Gpu.MergeTerm
import Verif.Gpu.Components
import Verif.Gpu.Init
import Verif.Gpu.Resolve
import Verif.Gpu.Finish
import Verif.Gpu.CompLemmas
import Verif.Gpu.CompProps
import Verif.Gpu.CompGroups
import Verif.Gpu.Prog
import Verif.Gpu.Integrate
import Verif.Gpu.IntegrateProps
import Verif.Gpu.Offsets
import Verif.Gpu.Collect
import Verif.Gpu.Maxima
import Verif.Gpu.Elementwise
import Verif.Gpu.ElementwiseProps
import Verif.Gpu.Block
import Verif.Gpu.Reduce
import Verif.Gpu.ReduceIndex
import Verif.Gpu.ReduceCore
import Verif.Gpu.ReduceLaunch
import Verif.Gpu.ReduceSem
import Verif.Gpu.ReduceProps
import Verif.Gpu.ReduceMore
import Verif.Gpu.ReduceLimits
import Verif.Gpu.Count
import Verif.Hit.Recover
import Verif.Float.Sum
import Verif.Gpu.ReduceFloat
import Verif.Gpu.ReduceFloatLimits
import Verif.Stat.Accuracy
import Verif.Gpu.Fft
import Verif.Misc.Passband
import Verif.Misc.H5Read
import Verif.Misc.H5Attr
import Verif.Misc.Own
import Verif.Misc.Move
import Verif.Misc.RawFile
import Verif.Hit.EndToEnd
import Verif.Scan.Channel
import Verif.Scan.ChannelProps
import Verif.Scan.Shared
import Verif.Misc.Dispatch
import Verif.Stat.Into
import Verif.Stat.Moment
import Verif.File.Capnp
import Verif.Hit.Gain
import Verif.Hit.Pipeline
import Verif.Hit.PipelineProps
import Verif.Misc.Firdes
import Verif.Misc.Repr
import Verif.Misc.Elements
import Verif.Flag.Outliers
import Verif.Flag.OutliersFloat
import Verif.Cadence.ToDat
import Verif.Misc.Python
import Verif.Misc.Create
import Verif.Hit.RecoverFloat
import Verif.Hit.EndToEndFloat
import Verif.Nd.Large
import Verif.Gpu.SameAsHost
import Verif.Hit.Threshold
import Verif.Event.Veto
import Verif.Scan.Metadata
import Verif.Drift.Linear
import Verif.Hit.Brighter
import Verif.Event.Frame
import Verif.Event.FrameFloat
import Verif.Gpu.Tone
import Verif.Gpu.ToneFloat
import Verif.Event.Isolated
import Verif.Event.DistFloat
import Verif.Event.IsolatedFloat
import Verif.Event.FromFile
import Verif.Hit.Single
import Verif.Hit.SingleTone
import Verif.Event.EndToEnd
import Verif.Event.EndToEndExample
import Verif.Gpu.Clip
import Verif.Gpu.ClipProps
import Verif.Hit.Equalize
import Verif.Hit.Survive
import Verif.Comp.Local
import Verif.Hit.Local
import Verif.Comp.Shift
import Verif.Hit.Shift
import Verif.Hit.SurviveFloat
import Verif.Hit.SurviveSmear
import Verif.Hit.SmearFreq
import Verif.Hit.LocalSmear
import Verif.Hit.EndToEndSmear
import Verif.Hit.Window
import Verif.Event.AmongExample
import Verif.Hit.Chain
import Verif.Event.Chain
import Verif.Event.ChainExample
import Verif.Misc.HotPixels
import Verif.Misc.ResponseTool
import Verif.Misc.HostRun
import Verif.Hit.Range
import Verif.Hit.Smear
import Verif.Hit.SmearFloat
import Verif.Gpu.Smear
import Verif.Gpu.SmearFloat
import Verif.Gpu.MaximaTone
import Verif.Gpu.Hits
