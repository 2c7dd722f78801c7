import Verif.Model.Accum
import Verif.Model.Action
import Verif.Model.Actor
import Verif.Model.ActorStats
import Verif.Model.Attrs
import Verif.Model.Bisect
import Verif.Model.Concurrent
import Verif.Model.Context
import Verif.Model.Contexts
import Verif.Model.Copying
import Verif.Model.Core
import Verif.Model.DebugOptions
import Verif.Model.Decimal
import Verif.Model.Depth
import Verif.Model.DevDebug
import Verif.Model.Dict
import Verif.Model.Elapsed
import Verif.Model.EmitConc
import Verif.Model.Emitter
import Verif.Model.Encoding
import Verif.Model.Ewma
import Verif.Model.EwmaConc
import Verif.Model.ExcMessage
import Verif.Model.ExcTemplate
import Verif.Model.Exit
import Verif.Model.Fields
import Verif.Model.Files
import Verif.Model.Float
import Verif.Model.FloatActor
import Verif.Model.FloatEwma
import Verif.Model.FloatHistogram
import Verif.Model.FloatMoment
import Verif.Model.FloatP2
import Verif.Model.FloatQuantile
import Verif.Model.FloatRates
import Verif.Model.Fork
import Verif.Model.Formatter
import Verif.Model.Frames
import Verif.Model.Getters
import Verif.Model.GettersP2
import Verif.Model.Global
import Verif.Model.Guid
import Verif.Model.Histogram
import Verif.Model.Interrupt
import Verif.Model.Iso
import Verif.Model.Json
import Verif.Model.Level
import Verif.Model.Line
import Verif.Model.Logger
import Verif.Model.MakeSink
import Verif.Model.MakeStats
import Verif.Model.MakeStream
import Verif.Model.Message
import Verif.Model.Modes
import Verif.Model.Moment
import Verif.Model.MsgRec
import Verif.Model.NormTimes
import Verif.Model.Note
import Verif.Model.Objects
import Verif.Model.P2
import Verif.Model.P2Conc
import Verif.Model.P2Sink
import Verif.Model.Parents
import Verif.Model.Prog
import Verif.Model.PyFormat
import Verif.Model.PyRepr
import Verif.Model.Quantile
import Verif.Model.Reentrant
import Verif.Model.Reprs
import Verif.Model.ResConc
import Verif.Model.SelfRepr
import Verif.Model.Sensible
import Verif.Model.Shared
import Verif.Model.Signal
import Verif.Model.SinkConc
import Verif.Model.SinkRepr
import Verif.Model.Sinks
import Verif.Model.Stack
import Verif.Model.Step
import Verif.Model.SyncConc
import Verif.Model.Target
import Verif.Model.Template
import Verif.Model.Utf8
import Verif.Model.Weak
import Verif.Model.Wrap
import Verif.Model.WrapAll
import Verif.Spec.Actions
import Verif.Spec.Actor
import Verif.Spec.Columns
import Verif.Spec.Contexts
import Verif.Spec.Created
import Verif.Spec.Decimal
import Verif.Spec.Defaults
import Verif.Spec.Delivery
import Verif.Spec.Depth
import Verif.Spec.Ends
import Verif.Spec.Entry
import Verif.Spec.Env
import Verif.Spec.Fields
import Verif.Spec.Files
import Verif.Spec.Grammar
import Verif.Spec.Iso
import Verif.Spec.Json
import Verif.Spec.Level
import Verif.Spec.Lifecycle
import Verif.Spec.Modes
import Verif.Spec.Objects
import Verif.Spec.Outbox
import Verif.Spec.Programs
import Verif.Spec.Publications
import Verif.Spec.PyLiteral
import Verif.Spec.Registry
import Verif.Spec.SameCalls
import Verif.Spec.Samples
import Verif.Spec.Script
import Verif.Spec.Shown
import Verif.Spec.Stack
import Verif.Spec.Story
import Verif.Spec.Template
import Verif.Spec.Utf8
import Verif.Spec.WrapDepth
import Verif.Spec.Wrapping
import Verif.Lemmas.ActSpec
import Verif.Lemmas.Actor
import Verif.Lemmas.ActorOne
import Verif.Lemmas.Apart
import Verif.Lemmas.AsyncPub
import Verif.Lemmas.Basic
import Verif.Lemmas.Bisect
import Verif.Lemmas.Block
import Verif.Lemmas.Calls
import Verif.Lemmas.Config
import Verif.Lemmas.Contexts
import Verif.Lemmas.CoreInv
import Verif.Lemmas.CoreStep
import Verif.Lemmas.CtxFlush
import Verif.Lemmas.DelInv
import Verif.Lemmas.Delivery
import Verif.Lemmas.Dict
import Verif.Lemmas.EndPub
import Verif.Lemmas.ExcTrace
import Verif.Lemmas.Fixed
import Verif.Lemmas.Full
import Verif.Lemmas.GotPub
import Verif.Lemmas.Grow
import Verif.Lemmas.Level
import Verif.Lemmas.Life
import Verif.Lemmas.Modes
import Verif.Lemmas.ModesDisable
import Verif.Lemmas.Objects
import Verif.Lemmas.Outbox
import Verif.Lemmas.Parts
import Verif.Lemmas.Queue
import Verif.Lemmas.Quiet
import Verif.Lemmas.RecStep
import Verif.Lemmas.Received
import Verif.Lemmas.Registry
import Verif.Lemmas.SameBut
import Verif.Lemmas.Script
import Verif.Lemmas.SinkParts
import Verif.Lemmas.Sinks
import Verif.Lemmas.Stack
import Verif.Lemmas.StackShape
import Verif.Lemmas.StackSim
import Verif.Lemmas.StackStep
import Verif.Lemmas.SyncMode
import Verif.Lemmas.WrapAll
import Verif.Props.Absent
import Verif.Props.Accum
import Verif.Props.AccumAlways
import Verif.Props.AccumExact
import Verif.Props.Action
import Verif.Props.Actor
import Verif.Props.ActorExact
import Verif.Props.ActorMany
import Verif.Props.ActorStats
import Verif.Props.ActorStatsSeq
import Verif.Props.Async
import Verif.Props.Attrs
import Verif.Props.BadNotes
import Verif.Props.Begin
import Verif.Props.Columns
import Verif.Props.ConcBlocks
import Verif.Props.ConcFlush
import Verif.Props.ConcSeq
import Verif.Props.Concurrent
import Verif.Props.Context
import Verif.Props.Contexts
import Verif.Props.Copying
import Verif.Props.CopyingExact
import Verif.Props.CopyingSeq
import Verif.Props.Created
import Verif.Props.DebugOptions
import Verif.Props.Decimal
import Verif.Props.DecimalExact
import Verif.Props.Defaults
import Verif.Props.Depth
import Verif.Props.DevDebug
import Verif.Props.DevExact
import Verif.Props.DurationExact
import Verif.Props.Elapsed
import Verif.Props.EmitConc
import Verif.Props.EmitExact
import Verif.Props.Emitter
import Verif.Props.Encoding
import Verif.Props.Ends
import Verif.Props.Entry
import Verif.Props.Ewma
import Verif.Props.EwmaConc
import Verif.Props.EwmaConcSeq
import Verif.Props.EwmaFormula
import Verif.Props.EwmaRepr
import Verif.Props.Exact
import Verif.Props.ExcExact
import Verif.Props.ExcMessage
import Verif.Props.ExcTemplate
import Verif.Props.Exit
import Verif.Props.ExitDelivers
import Verif.Props.Fields
import Verif.Props.FieldsShow
import Verif.Props.Files
import Verif.Props.FilesExact
import Verif.Props.Float
import Verif.Props.FloatActor
import Verif.Props.FloatEwma
import Verif.Props.FloatHistogram
import Verif.Props.FloatMean
import Verif.Props.FloatMoment
import Verif.Props.FloatP2
import Verif.Props.FloatQuantile
import Verif.Props.FloatQuantileNear
import Verif.Props.FloatRates
import Verif.Props.FloatVariance
import Verif.Props.Fork
import Verif.Props.Formatter
import Verif.Props.Frames
import Verif.Props.FramesExact
import Verif.Props.Getters
import Verif.Props.GettersP2
import Verif.Props.Global
import Verif.Props.GlobalSeq
import Verif.Props.Grammar
import Verif.Props.Guid
import Verif.Props.HistExact
import Verif.Props.Histogram
import Verif.Props.HistogramCells
import Verif.Props.Interrupt
import Verif.Props.InterruptExact
import Verif.Props.InterruptSeq
import Verif.Props.Iso
import Verif.Props.IsoExact
import Verif.Props.IsoText
import Verif.Props.Json
import Verif.Props.JsonExact
import Verif.Props.Level
import Verif.Props.LogFile
import Verif.Props.Lossy
import Verif.Props.MakeSink
import Verif.Props.MakeStats
import Verif.Props.MakeStream
import Verif.Props.MakeStreamExact
import Verif.Props.Message
import Verif.Props.Modes
import Verif.Props.ModesSeq
import Verif.Props.Moment
import Verif.Props.MomentShape
import Verif.Props.MsgRec
import Verif.Props.NoWait
import Verif.Props.NormTimes
import Verif.Props.Note
import Verif.Props.Objects
import Verif.Props.Outbox
import Verif.Props.P2
import Verif.Props.P2Conc
import Verif.Props.P2ConcSeq
import Verif.Props.P2Paper
import Verif.Props.P2Sink
import Verif.Props.Parents
import Verif.Props.ParentsSeq
import Verif.Props.PyRepr
import Verif.Props.Quantile
import Verif.Props.RaiseExact
import Verif.Props.Rates
import Verif.Props.RatesExact
import Verif.Props.Reads
import Verif.Props.ReadsCapped
import Verif.Props.Reentrant
import Verif.Props.Registry
import Verif.Props.Reprs
import Verif.Props.ResConc
import Verif.Props.ResConcSeq
import Verif.Props.SameCalls
import Verif.Props.Script
import Verif.Props.SelfRepr
import Verif.Props.Sensible
import Verif.Props.Shared
import Verif.Props.SharedLast
import Verif.Props.SharedNames
import Verif.Props.SharedSeq
import Verif.Props.Shown
import Verif.Props.Signal
import Verif.Props.SinkConc
import Verif.Props.SinkConcSeq
import Verif.Props.SinkRepr
import Verif.Props.SinkTables
import Verif.Props.SinkValues
import Verif.Props.Sinks
import Verif.Props.SmallExact
import Verif.Props.SplitExact
import Verif.Props.Stack
import Verif.Props.StatusExact
import Verif.Props.Story
import Verif.Props.StorySyntactic
import Verif.Props.Sync
import Verif.Props.SyncAdd
import Verif.Props.SyncConc
import Verif.Props.SyncSeq
import Verif.Props.Target
import Verif.Props.Template
import Verif.Props.TemplateExact
import Verif.Props.Totals
import Verif.Props.Units
import Verif.Props.Utf8
import Verif.Props.Weak
import Verif.Props.WeakExact
import Verif.Props.WeakSeq
import Verif.Props.WithBlock
import Verif.Props.Wrap
import Verif.Props.WrapAll
import Verif.Props.WrapAllNames
import Verif.Props.WrapAllOff
import Verif.Props.WrapDepth
