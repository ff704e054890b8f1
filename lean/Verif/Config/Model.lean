import Verif.Base.Decimal
/-
Model of configuration parsing.
Sources: /repo/core/policyengine/engine/config.go, /repo/core/policyengine/policyengine.go:76-117,
/repo/core/flattener/config.go, /repo/core/exporter/commons/{config,fileconfig,syslogconfig,elasticconfig,kafkaconfig}.go,
/repo/core/exporter/exporter.go:68-102
-/
namespace Verif.Config
open Verif.Decimal

/-- Values in a `map[string]interface{}` configuration: a string, a string-keyed map (only its keys
matter here), or something else. -/
inductive CVal where
  | str (s : Str)
  | map (keys : List Str)
  | other
deriving DecidableEq, Repr

/-- `map[string]interface{}`. -/
abbrev Conf := Str → Option CVal

/-- `v, ok := conf[key].(string)`. -/
def Conf.str? (c : Conf) (key : String) : Option Str :=
  match c key.toList with
  | some (.str s) => some s
  | _ => none

/-! #### policy engine: engine/config.go -/

/-- engine/config.go:115-121 -/
inductive Mode where | enrich | alert
deriving DecidableEq, Repr
/-- engine/config.go:138-144 -/
inductive MonitorType where | none | loc
deriving DecidableEq, Repr
/-- engine/config.go:161-167 -/
inductive Language where | falco | sigma
deriving DecidableEq, Repr

/-- `parseModeConfig` (engine/config.go:127-135). -/
def parseMode (s : Str) : Mode :=
  if "enrich".toList = s then .enrich else if "alert".toList = s then .alert else .enrich
/-- `parseMonitorType` (engine/config.go:150-158). -/
def parseMonitor (s : Str) : MonitorType :=
  if "none".toList = s then .none else if "local".toList = s then .loc else .none
/-- `parseLanguage` (engine/config.go:173-181). -/
def parseLanguage (s : Str) : Language :=
  if "falco".toList = s then .falco else if "sigma".toList = s then .sigma else .falco

/-- `Config` (engine/config.go:47-61). Interval in seconds. -/
structure EngineConfig where
  policiesPath : Str := []
  configPath : Str := []
  language : Language := .falco
  mode : Mode := .alert
  version : Str := []
  jsonSchemaVersion : Str := []
  buildNumber : Str := []
  monitor : MonitorType := .none
  monitorInterval : Int := 30
  concurrency : Int := 5
  actionDir : Str := "../resources/actions".toList
  benchRulesetSize : Int := -1
  benchRuleIndex : Int := -1
deriving DecidableEq, Repr

/-- `if v, ok := conf[k].(string); ok { c.f = g(v) }`: the new value of the field, `old` if the key
is absent or not a string. -/
def setOr {α : Type} (v : Option Str) (g : Str → α) (old : α) : α :=
  match v with
  | some s => g s
  | none => old

/-- `CreateConfig` (engine/config.go:64-112): the config and whether the *last* numeric attribute
parsed without error (`err` is overwritten by each `Atoi`). The statements of the Go function each
assign one field; they are in source order here. -/
def createEngineConfig (conf : Conf) : EngineConfig × Bool :=
  let c : EngineConfig := {}
  let c := { c with policiesPath := setOr (conf.str? "policies") id c.policiesPath }
  let c := { c with configPath := setOr (conf.str? "config") id c.configPath }
  let c := { c with language := setOr (conf.str? "language") parseLanguage c.language }
  let c := { c with mode := setOr (conf.str? "mode") parseMode c.mode }
  let c := { c with version := setOr (conf.str? "version") id c.version }
  let c := { c with jsonSchemaVersion := setOr (conf.str? "jsonschemaversion") id c.jsonSchemaVersion }
  let c := { c with buildNumber := setOr (conf.str? "buildnumber") id c.buildNumber }
  let c := { c with monitor := setOr (conf.str? "monitor") parseMonitor c.monitor }
  let c := { c with monitorInterval := setOr (conf.str? "monitor.interval") (fun v => if (parseInt v).2 then (parseInt v).1 else c.monitorInterval) c.monitorInterval }
  let e := setOr (conf.str? "monitor.interval") (fun v => (parseInt v).2) true
  let c := { c with concurrency := setOr (conf.str? "concurrency") (fun v => (parseInt v).1) c.concurrency }
  let e := setOr (conf.str? "concurrency") (fun v => (parseInt v).2) e
  let c := { c with actionDir := setOr (conf.str? "actiondir") id c.actionDir }
  let c := { c with benchRulesetSize := setOr (conf.str? "bench.rulesetsize") (fun v => (parseInt v).1) c.benchRulesetSize }
  let e := setOr (conf.str? "bench.rulesetsize") (fun v => (parseInt v).2) e
  let c := { c with benchRuleIndex := setOr (conf.str? "bench.ruleindex") (fun v => (parseInt v).1) c.benchRuleIndex }
  let e := setOr (conf.str? "bench.ruleindex") (fun v => (parseInt v).2) e
  (c, e)

/-- What `PolicyEngine.Init` (policyengine.go:76-117) leaves behind: an error, the bypass (no
interpreter), or a running interpreter with that many workers, with or without a monitor. -/
inductive InitResult where
  | error
  | bypass
  | running (workers : Int) (monitored : Bool)
  | panics
deriving DecidableEq, Repr

/-- `PolicyEngine.Init` (policyengine.go:76-117). `compiles`: whether building an interpreter from
the policy directory succeeds (with a monitor the interpreter is pushed on the channel first and taken
from it, policyengine.go:101-109). A negative worker count makes `make(chan R, n)` panic
(interpreter.go:99). -/
def engineInit (conf : Conf) (compiles : Bool) : InitResult :=
  let c := (createEngineConfig conf).1
  if c.policiesPath = [] then
    match c.mode with
    | .enrich => .bypass
    | .alert => .error
  else if compiles then
    if c.concurrency < 0 then .panics else .running c.concurrency (c.monitor == .loc)
  else .error

/-! #### flattener: core/flattener/config.go -/

/-- `Config` (flattener/config.go:35-38): filter on/off and age in seconds. -/
structure FlattenerConfig where
  filterOn : Bool := false
  maxAge : Int := 86400
deriving DecidableEq, Repr

/-- `parseOnOffType` (flattener/config.go:74-82). -/
def parseOnOff (s : Str) : Bool :=
  if "off".toList = s then false else if "on".toList = s then true else false

/-- `CreateConfig` (flattener/config.go:41-55). -/
def createFlattenerConfig (conf : Conf) : FlattenerConfig × Bool :=
  let c : FlattenerConfig := {}
  let c := { c with filterOn := setOr (conf.str? "filter.enabled") parseOnOff c.filterOn }
  let c := { c with maxAge := setOr (conf.str? "filter.maxage") (fun v => if (parseInt v).2 then (parseInt v).1 else c.maxAge) c.maxAge }
  (c, setOr (conf.str? "filter.maxage") (fun v => (parseInt v).2) true)

/-! #### exporter: core/exporter/commons -/

/-- commons/config.go:134-144 -/
inductive Transport where | terminal | file | syslog | es | kafka | null
deriving DecidableEq, Repr
/-- commons/config.go:170-177 -/
inductive Format where | json | ecs | otel
deriving DecidableEq, Repr
/-- commons/config.go:196-203 -/
inductive Proto where | tcp | tls | udp
deriving DecidableEq, Repr

/-- `parseTransportConfig` (commons/config.go:150-167). -/
def parseTransport (s : Str) : Transport :=
  if "file".toList = s then .file else if "syslog".toList = s then .syslog else if "es".toList = s then .es
  else if "kafka".toList = s then .kafka else if "null".toList = s then .null else .terminal
/-- `parseFormatConfig` (commons/config.go:183-193). -/
def parseFormat (s : Str) : Format :=
  if s = "json".toList then .json else if s = "ecs".toList then .ecs else if s = "otel".toList then .otel else .json
/-- `parseProtoConfig` (commons/config.go:209-219). -/
def parseProto (s : Str) : Proto :=
  if s = "tcp".toList then .tcp else if s = "tls".toList then .tls else if s = "udp".toList then .udp else .tcp

/-- The parts of the exporter `Config` (commons/config.go:45-62) covered by the model. Vault secrets
and the Elastic attributes other than the numeric ones are left out; the vault is assumed disabled. -/
structure ExporterConfig where
  transport : Transport := .terminal
  format : Format := .json
  eventBuffer : Int := 0
  path : Str := "./export.out".toList
  proto : Proto := .tcp
  tag : Str := "sysflow".toList
  host : Str := "localhost".toList
  port : Int := 514
  kafkaTopic : Str := []
deriving DecidableEq, Repr

/-- `CreateSyslogConfig` (commons/syslogconfig.go:46-73): settings and "err == nil". -/
def createSyslog (conf : Conf) (c : ExporterConfig) : ExporterConfig × Bool :=
  let c := { c with proto := setOr (conf.str? "syslog.proto") parseProto c.proto }
  let c := { c with tag := setOr (conf.str? "syslog.tag") id c.tag }
  let c := { c with host := setOr (conf.str? "syslog.host") id c.host }
  let c := { c with port := setOr (conf.str? "syslog.port") (fun v => (parseInt v).1) c.port }
  (c, setOr (conf.str? "syslog.port") (fun v => (parseInt v).2) true)

/-- `CreateKafkaConfig` (commons/kafkaconfig.go:44-72): settings and "err == nil". -/
def createKafka (conf : Conf) (c : ExporterConfig) : ExporterConfig × Bool :=
  let c' := { c with kafkaTopic := setOr (conf.str? "kafka.topic") id c.kafkaTopic }
  match conf "kafka.config".toList with
  | some (.map keys) =>
    if "bootstrap.servers".toList ∈ keys then (c', (conf.str? "kafka.topic").isSome) else (c, false)
  | _ => (c, false)

/-- The numeric checks of `CreateElasticConfig` (commons/elasticconfig.go:84-95). The
`flushTimeout` duration is assumed absent or valid. -/
def createElastic (conf : Conf) : Bool :=
  setOr (conf.str? "es.bulk.numWorkers") (fun v => (parseInt v).2) true &&
  setOr (conf.str? "es.bulk.flushBuffer") (fun v => (parseInt v).2) true

/-- `CreateConfig` (commons/config.go:65-131) with the vault disabled: `none` on error. -/
def createExporterConfig (conf : Conf) : Option ExporterConfig :=
  let c : ExporterConfig := {}
  let c := { c with transport := setOr (conf.str? "export") parseTransport c.transport }
  let c := { c with format := setOr (conf.str? "format") parseFormat c.format }
  let c := { c with eventBuffer := setOr (conf.str? "buffer") (fun v => (parseInt v).1) c.eventBuffer }
  if setOr (conf.str? "buffer") (fun v => (parseInt v).2) true = false then none
  else
    let c := { c with path := setOr (conf.str? "file.path") id c.path }
    if (createSyslog conf c).2 = false then none
    else if createElastic conf = false then none
    else if (createKafka conf (createSyslog conf c).1).2 = false then none
    else some (createKafka conf (createSyslog conf c).1).1

/-- Encoders and transports registered in the flat-record build (registryflatrecord.go). -/
def registeredFlat (c : ExporterConfig) : Bool :=
  (c.format == .json || c.format == .ecs) && (c.transport != .kafka)

/-- Encoders and transports registered in the OTel build (registryotel.go). -/
def registeredOtel (c : ExporterConfig) : Bool :=
  c.format == .otel && (c.transport == .terminal || c.transport == .file || c.transport == .kafka || c.transport == .null)

/-- `Exporter.Init` (exporter.go:68-102) up to the transport's own `Init`: the configuration if the
encoder and transport exist. -/
def exporterInit (otel : Bool) (conf : Conf) : Option ExporterConfig :=
  match createExporterConfig conf with
  | none => none
  | some c => if (if otel then registeredOtel c else registeredFlat c) then some c else none

end Verif.Config
