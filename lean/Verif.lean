import Verif.Policy.Props
import Verif.Engine.Props
import Verif.Engine.PoolProps
import Verif.Engine.SwapProps
import Verif.Monitor.Props
import Verif.Config.Props
import Verif.Config.Exporter
import Verif.Config.ExporterProps
import Verif.FlatRecord.Examples
import Verif.Falco.Examples
import Verif.Falco.LexerProps
import Verif.Falco.ParserProps
import Verif.Sigma.Examples
import Verif.Otel.Examples
import Verif.Flattener.FilterProps
import Verif.Cache.Props
import Verif.Processor.Props
import Verif.Flattener.Props
import Verif.Exporter.Props
import Verif.Exporter.Elastic
import Verif.Json.Examples
import Verif.Ecs.Identity
import Verif.Pipeline.ConfigProps
import Verif.Pipeline.CacheProps
import Verif.Pipeline.DriverProps
import Verif.Pipeline.EndToEnd
import Verif.Falco.Words
import Verif.Falco.Layout
import Verif.Falco.CondText
import Verif.Falco.Policy
import Verif.Falco.PolicyProps
import Verif.Falco.EndToEnd
import Verif.Flattener.Stream
import Verif.Falco.StreamAlerts
import Verif.Whole.Program
import Verif.Whole.Props
import Verif.Whole.Corollaries
import Verif.Whole.Example
import Verif.Pipeline.Process
import Verif.Pipeline.Main
import Verif.Whole.FileRun
import Verif.Whole.Crash
import Verif.Pipeline.Stop
import Verif.Falco.Vocabulary
import Verif.Ecs.Text
import Verif.Ecs.TextProps
import Verif.Ecs.TextDoc
import Verif.Whole.Dedup
import Verif.Whole.Ecs
import Verif.Falco.Mentions
import Verif.Otel.Policy
import Verif.Pipeline.Moment
import Verif.Whole.Otel
import Verif.Whole.OtelRuns
import Verif.Whole.Bypass
import Verif.Sigma.Glob
import Verif.Sigma.Alerts
import Verif.Whole.Sigma
import Verif.Processor.Returns
import Verif.Whole.Sane
import Verif.Pipeline.Wired
import Verif.Whole.Boot
import Verif.Whole.BootProps
import Verif.Whole.BootRuns
import Verif.Whole.Directory
import Verif.Falco.StringRule
import Verif.Pipeline.Health
import Verif.Pipeline.Typing
import Verif.Whole.Typing
import Verif.Whole.Marks
import Verif.Whole.OtelBoot
import Verif.Monitor.Live
import Verif.Monitor.LiveInv
import Verif.Monitor.LiveProps
import Verif.Monitor.LiveExamples
import Verif.Monitor.Joint
import Verif.Monitor.JointExamples
import Verif.Pipeline.ConfFile
import Verif.Engine.Warnings
import Verif.Whole.SigmaDirectory
import Verif.Pipeline.Reload
import Verif.Pipeline.ReloadExamples
import Verif.Whole.Reload
import Verif.Whole.ReloadExamples
import Verif.Exporter.Syslog
import Verif.Whole.Messages
import Verif.Whole.Tree
import Verif.Whole.Shipped
import Verif.Exporter.FileFailures
import Verif.Exporter.ElasticFailures
import Verif.Whole.Failures
import Verif.Whole.SigmaReload
import Verif.Whole.OtelReload
import Verif.Engine.Bench
import Verif.FlatRecord.SymPath
import Verif.FlatRecord.Paths
import Verif.Shared.Scratch
import Verif.Shared.ScratchProps
import Verif.Shared.Tags
import Verif.Otel.Series
import Verif.Whole.OtelSeries
import Verif.Whole.OtelRow
import Verif.Whole.OtelBranches
import Verif.Plugins.Examples
import Verif.Pipeline.Avro
import Verif.Pipeline.Socket
import Verif.Whole.SocketRun
import Verif.Pipeline.TraceDir
import Verif.Whole.TraceRun
import Verif.Base.Order
import Verif.FlatRecord.FieldList
import Verif.Exporter.NameSet
import Verif.Otel.ReadBack
import Verif.Ecs.Witness
import Verif.Pipeline.Adopt
import Verif.Monitor.Edit
import Verif.Whole.ReloadEffect
import Verif.Whole.SigmaEffect
import Verif.Whole.OtelEffect
import Verif.Whole.OtelWitness
import Verif.Falco.Witness
import Verif.Whole.Witness
import Verif.Whole.EcsReload
import Verif.Whole.OutReload
import Verif.Whole.OutReloadExamples
import Verif.Whole.SigmaOut
import Verif.Shared.Gather
import Verif.Shared.GatherProps
import Verif.Shared.Noting
import Verif.Shared.NotingProps
import Verif.Shared.NotingTurns
import Verif.Whole.OtelRowMoment
import Verif.Whole.Moments
import Verif.Whole.Restart
import Verif.Pipeline.ReloadMoment
import Verif.Whole.ReloadMoments
import Verif.Whole.ReloadMomentsConf
import Verif.Whole.ReloadMomentExamples
import Verif.Whole.OtelReloadMoment
import Verif.Exporter.Partly
import Verif.Whole.OtelFailures
import Verif.Whole.OtelRowFailures
import Verif.Whole.Restarts
import Verif.Exporter.LogFile
