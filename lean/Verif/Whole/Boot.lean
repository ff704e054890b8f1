import Verif.Pipeline.Wired
import Verif.Config.ExporterProps
import Verif.Whole.Bypass
import Verif.Whole.FileRun
/-
C92: from the pipeline configuration to the running program.
Sources: /repo/driver/pipeline/pipeline.go:84-201, /repo/driver/pipeline/plugincache.go:66-77, 196-239, /repo/core/processor/reader.go:40-78, /repo/core/processor/processor.go:66-84,
/repo/core/processor/handlercache.go:60-114, /repo/core/flattener/flattener.go:32-84, /repo/core/policyengine/policyengine.go:40-117, /repo/core/exporter/exporter.go:62-102
-/
namespace Verif.Whole
open Verif.Decimal (Str)
open Verif.Exporter (Bytes)
open Verif.FlatRecord
open Verif.Policy
open Verif.Falco
open Verif.Processor (Rec HCall)
open Verif.Flattener (FLib)
open Verif.Pipeline
open Verif.Pipeline.Process
open Verif.Pipeline.Drain (Net Comp sync engine exporter chain)
open Verif.Config (XConf XVal XConfig ConfEnv EngineConfig createConfigX createEngineConfig createFlattenerConfig engineInit)

variable {P : Type}

/-! ### Model -/

/-- The factories of the program: of processors, of channels, of the handler and of drivers. -/
inductive Factory where
  | reader | processor | engine | exporter
  | sysflowChan | ctxChan | flatChan | eventChan | otelChan
  | flattener
  | fileDriver | streamDriver | otelFileDriver | otelKafkaDriver
deriving DecidableEq, Repr

/-- The registrations of the plugin cache (plugincache.go:68-77): reader.go:66-72, processor.go:65-71, policyengine.go:69-72, exporter.go:63-65, sysflow/filedriver.go, sysflow/streamingdriver.go,
otel/filedriver.go, otel/kafkadriver.go. -/
def pluginRegs : List (Reg Factory) :=
  [.proc "sysflowreader".toList .reader, .chan "sysflowchan".toList .sysflowChan,
   .proc "sysflowprocessor".toList .processor, .chan "ctxchan".toList .ctxChan,
   .proc "policyengine".toList .engine, .chan "eventchan".toList .eventChan,
   .proc "exporter".toList .exporter,
   .driver "file".toList .fileDriver, .driver "socket".toList .streamDriver,
   .driver "otelfile".toList .otelFileDriver, .driver "otelkafka".toList .otelKafkaDriver, .chan "otelchan".toList .otelChan]

def bootRegs : Regs Factory := Regs.addAll {} pluginRegs

/-- The registrations of the handler cache (handlercache.go:67-71, flattener.go:57-64). -/
def handlerRegs : List (Reg Factory) := [.handler "flattener".toList .flattener, .chan "flattenerchan".toList .flatChan]

/-- A stage's attributes as the plugins see them. -/
def toXVal : Val → XVal
  | .str s => .str s
  | .arr vs => .list vs
  | .map es => .map es
  | .other => .other

def xconf (c : Pipeline.Conf) : XConf := fun k => (c.get k).map toXVal

/-- `time.Duration(n) * time.Second` (engine/config.go:90, flattener/config.go:52): 64-bit arithmetic in nanoseconds. -/
def seconds (n : Int) : Int := (n * 1000000000).bmod (2 ^ 64)

/-- Everything outside the configuration: libraries; what building policies from the configured directory yields (`none`: an error) and what the policy monitor builds later; actions; whether
the export file can be opened, the syslog daemon reached or the Elastic client made, and what writing to it or sending to the other destinations does; secrets; dynamically loaded plugins; clocks. -/
structure World (P : Type) where
  F : FLib
  E : Ecs.ELib
  ecs : XConfig → Ecs.Conf
  str : Str → Option Nat
  texts : P → List Str
  code : P → List (Rule Record) × List (Filter Record)
  policyAt : EngineConfig → Option P
  pending : List P
  builtIn : Engine.ActionMap Record
  user : Engine.ActionMap Record
  sipAlias : Bool
  opens : Str → Bool
  connects : XConfig → Bool := fun _ => true
  writes : Nat → Option Nat
  sends : Nat → Bool
  secrets : ConfEnv
  load : Str → Option (List (Reg Factory))
  loadHandler : Str → Str → Option (Factory × List (Reg Factory))
  fuel : Nat
  clock : Nat → Nat → Int
  start : Int

/-- The library functions that the ECS encoder shares with the rest. -/
abbrev World.L (W : World P) : Lib := W.E.toLib

/-- The policy engine's configuration. -/
def engineConf (c : Pipeline.Conf) : EngineConfig := (createEngineConfig (Config.toConf (xconf c))).1

/-- Does the exporter's `Init` succeed with this configuration (exporter.go:82-101; registryflatrecord.go): encoder and transport exist, and the transport's `Init` succeeds
(file.go:43-48, syslog.go:47-64, elastic.go:60-80; those of the terminal and the null transport always do)? -/
def World.exports (W : World P) (x : XConfig) : Bool :=
  (x.format == .json || x.format == .ecs) && x.transport != .kafka && (x.transport != .file || W.opens x.path) && ((x.transport != .syslog && x.transport != .es) || W.connects x)

/-- `GetProcessor` and `Init` of the program's plugins: processor.go:75-84 with handlercache.go:54-72 (the handler cache is made once; that it has been made is seen from its registration),
flattener.go:67-75 (never fails); policyengine.go:76-117; exporter.go:68-102. The other factories are not of processors. -/
def World.env (W : World P) : Env Factory where
  getProc := Regs.getProcessor W.load
  init f c r :=
    match f with
    | .reader | .processor =>
      let r1 := if (r.handlers.get "flattener".toList).isSome then r else r.addAll handlerRegs
      match Regs.getHandler W.loadHandler r1 c with
      | (r2, .ok _) => .ok r2
      | (_, .err) => .err
      | (_, .panic) => .panic
    | .engine =>
      match engineInit (Config.toConf (xconf c)) (W.policyAt (engineConf c)).isSome with
      | .error => .err
      | .panics => .panic
      | _ => .ok r
    | .exporter =>
      match createConfigX W.secrets (xconf c) with
      | some x => if W.exports x then .ok r else .err
      | none => .err
    | _ => .ok r

/-- The JSON encoder with the configured schema version (json.go:65-75). -/
def World.json (W : World P) (x : XConfig) : Msg → Option Exporter.Datum
  | .alert r => (Json.encode ⟨W.L, Utf8.bytes x.jsonSchemaVersion, W.sipAlias⟩ r).map Exporter.Datum.bytes
  | _ => none

/-- The ECS encoder (ecs.go:94-103). -/
def World.ecsDoc (W : World P) (x : XConfig) : Msg → Option Ecs.Rec
  | .alert r => Ecs.encode (W.ecs x) W.E r
  | _ => none

/-- What the encoder hands to the transport; to the Elastic transport. -/
def World.encode (W : World P) (x : XConfig) (m : Msg) : Option Exporter.Datum :=
  match x.format with
  | .ecs => (W.ecsDoc x m).map (fun d => .obj (Ecs.recText d))
  | _ => W.json x m
def World.encodeE (W : World P) (x : XConfig) (m : Msg) : Option Exporter.EDatum :=
  match x.format with
  | .ecs => (W.ecsDoc x m).map (fun d => .ecs (Utf8.bytes d.id) (some (Ecs.recText d)))
  | _ => (W.json x m).map (fun _ => .other)

/-- The exporter with its configuration (exporter.go:82-101, 111-160). (Kafka is not a transport of this build.) -/
def World.exporterComp (W : World P) (x : XConfig) : Comp Msg :=
  match x.transport with
  | .file => exporter (Exporter.allOrNone (W.encode x)) (Exporter.fileTransport W.writes) x.eventBuffer Exporter.newFile W.start
  | .terminal => exporter (Exporter.allOrNone (W.encode x)) Exporter.terminal x.eventBuffer [] W.start
  | .null => exporter (Exporter.allOrNone (W.encode x)) Exporter.null x.eventBuffer () W.start
  | .syslog => exporter (Exporter.allOrNone (W.encode x)) (Exporter.syslog W.sends) x.eventBuffer ([], 0) W.start
  | .es => exporter (Exporter.allOrNone (W.encodeE x)) (Exporter.elastic W.sends) x.eventBuffer ⟨[], 0⟩ W.start
  | .kafka => exporter (Exporter.allOrNone (W.encode x)) (Exporter.kafka W.sends) x.eventBuffer ([], 0) W.start

/-- What a worker makes of a record (policyengine.go:146-149, policyengine_flatrecord.go:28-36, engine/interpreter.go:155-184). -/
def World.proc (W : World P) (enrich : Bool) (p : P) : Msg → Option Msg
  | .flat fr => (Engine.outs ((flatInterp W.L enrich (W.code p).1 (W.code p).2 W.builtIn W.user true).work (newRecord fr)).2).head?.map Msg.alert
  | _ => none

/-- A started stage (pipeline.go:199-200, 291-294), from its attributes, with the channels it was given: the reader with the flattener (reader.go:80-172, flattener.go:67-75), the policy engine
with or without policies (policyengine.go:76-160), the exporter. The other processor, not used with this driver, is left out. -/
def World.comp (W : World P) (c : Pipeline.Conf) (st : Stage Factory) : Comp Msg :=
  match st.proc with
  | .reader =>
    let fc := (createFlattenerConfig (Config.toConf (xconf c))).1
    sync (readerStep W.F W.fuel W.clock) ⟨some .init, Flattener.init fc.filterOn (seconds fc.maxAge) 1, 0⟩ (st.outs.getD []).length
  | .engine =>
    let ec := engineConf c
    match ec.policiesPath, W.policyAt ec with
    | [], _ => sync bypassStep () (st.outs.getD []).length
    | _ :: _, some p => engine ⟨W.proc (ec.mode == .enrich), (st.outs.getD []).length, ec.concurrency.toNat, ec.monitor == .loc, seconds ec.monitorInterval⟩ p W.start W.pending
    | _ :: _, none => Drain.idle Msg
  | .exporter =>
    match createConfigX W.secrets (xconf c) with
    | some x => W.exporterComp x
    | none => Drain.idle Msg
  | _ => Drain.idle Msg

/-- Capacity of the channels (config.go:56). -/
def chanSize : Nat := 100000

/-- Would starting the stage crash on the type of a channel? Input: the type assertions at reader.go:86, policyengine.go:124, exporter.go:116; outputs: flattener.go:84, policyengine.go:216; more or
fewer than one input makes `Process` return at once without `wg.Done` (reader.go:82-85, policyengine.go:120-123, exporter.go:112-115). -/
def Typed (st : Stage Factory) : Prop :=
  match st.proc with
  | .reader => st.ins.map (·.made) = [.sysflowChan] ∧ ∀ d ∈ st.outs.getD [], d.made = .flatChan
  | .engine => st.ins.map (·.made) = [.flatChan] ∧ ∀ d ∈ st.outs.getD [], d.made = .eventChan
  | .exporter => st.ins.map (·.made) = [.eventChan]
  | _ => False

end Verif.Whole
