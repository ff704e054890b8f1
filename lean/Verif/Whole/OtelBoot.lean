import Verif.Whole.Typing
import Verif.Whole.OtelRuns
/-
C98: from the pipeline configuration to the running program, in the build for OpenTelemetry logs.
Sources: /repo/driver/pipeline/pipeline.go:84-201, /repo/core/policyengine/policyengine.go:40-160, /repo/core/policyengine/policyengine_otel.go:26-36, /repo/core/policyengine/source/common/types_otel.go:33-40,
/repo/core/exporter/exporter.go:68-102, /repo/core/exporter/registryotel.go:32-43, /repo/core/exporter/transports/kafka.go:47-53, /repo/driver/otel/kafkadriver.go:60-93, /repo/resources/pipelines/pipeline.otel.json
-/
namespace Verif.OtelRun
open Verif.Decimal (Str)
open Verif.Exporter (Bytes)
open Verif.Policy
open Verif.Otel
open Verif.Falco (Decl GPolicy ltokens StrRule Cyclic MentionsE sites asRule siteCond)
open Verif.Pipeline
open Verif.Pipeline.Process
open Verif.Pipeline.Drain (Net Comp sync engine exporter chain driven Exec Waited emitted)
open Verif.Config (XConf XVal XConfig ConfEnv EngineConfig createConfigX createEngineConfig createFlattenerConfig engineInit)
open Verif.Whole (Factory bootRegs fullRegs handlerRegs xconf engineConf seconds chanSize getChan_new getChan_old loadStage_io loadStage_i loadStages_cons)

variable {P : Type}

/-! ### Model -/

/-- Everything outside the configuration, in the build for OpenTelemetry logs: as `Verif.Whole.World`; `producer`: does `kafka.NewProducer` succeed with this configuration? -/
structure World (P : Type) where
  L : Otel.Lib
  json : ResourceLogs → Option Bytes
  proto : ResourceLogs → Option Bytes
  str : Str → Option Nat
  texts : P → List Str
  code : P → List (Rule ResourceLogs) × List (Filter ResourceLogs)
  order : List Str → List Str
  policyAt : EngineConfig → Option P
  pending : List P
  builtIn : Engine.ActionMap ResourceLogs
  user : Engine.ActionMap ResourceLogs
  opens : Str → Bool
  producer : Config.KafkaC → Bool
  writes : Nat → Option Nat
  sends : Nat → Bool
  secrets : ConfEnv
  load : Str → Option (List (Reg Factory))
  loadHandler : Str → Str → Option (Factory × List (Reg Factory))
  start : Int

/-- Does the exporter's `Init` succeed with this configuration (exporter.go:82-101, registryotel.go:32-43): encoder and transport exist in this build, and the transport's `Init` succeeds (file.go, kafka.go:47-53)? -/
def World.exports (W : World P) (x : XConfig) : Bool :=
  x.format == .otel && (x.transport == .terminal || x.transport == .file || x.transport == .kafka || x.transport == .null) &&
    (x.transport != .file || W.opens x.path) && (x.transport != .kafka || W.producer x.kafka)

/-- `GetProcessor` and `Init` of the program's plugins: as in `Verif.Whole.World.env`, but for the exporter. -/
def World.env (W : World P) : Env Factory where
  getProc := Regs.getProcessor W.load
  init f c r :=
    match f with
    | .reader | .processor =>
      let r1 := if (r.handlers.get "flattener".toList).isSome then r else r.addAll handlerRegs
      match Regs.getHandler W.loadHandler r1 c with
      | (r2, .ok _) => .ok r2
      | (_, .err) => .err
      | (_, .panic) => .panic
    | .engine =>
      match engineInit (Config.toConf (xconf c)) (W.policyAt (engineConf c)).isSome with
      | .error => .err
      | .panics => .panic
      | _ => .ok r
    | .exporter =>
      match createConfigX W.secrets (xconf c) with
      | some x => if W.exports x then .ok r else .err
      | none => .err
    | _ => .ok r

/-- `encode` (otel.go:65-82). -/
def World.encode (W : World P) (x : XConfig) (rl : ResourceLogs) : Option Bytes :=
  match x.kafka.encoding with
  | .json => W.json rl
  | .proto => W.proto rl

/-- The exporter with its configuration (exporter.go:82-101, 111-160). (Syslog and Elastic are not transports of this build.) -/
def World.exporterComp (W : World P) (x : XConfig) : Comp ResourceLogs :=
  let C := Exporter.perRecord (fun rl => (W.encode x rl).map Exporter.Datum.bytes)
  match x.transport with
  | .file => exporter C (Exporter.fileTransport W.writes) x.eventBuffer Exporter.newFile W.start
  | .terminal => exporter C Exporter.terminal x.eventBuffer [] W.start
  | .null => exporter C Exporter.null x.eventBuffer () W.start
  | .kafka => exporter C (Exporter.kafka W.sends) x.eventBuffer ([], 0) W.start
  | _ => Drain.idle ResourceLogs

/-- What a worker makes of a record (policyengine.go:146-149, policyengine_otel.go:33-36, engine/interpreter.go:155-184). -/
def World.proc (W : World P) (enrich : Bool) (p : P) (rl : ResourceLogs) : Option ResourceLogs :=
  (Engine.outs ((otelInterp W.order enrich (W.code p).1 (W.code p).2 W.builtIn W.user true).work rl).2).head?

/-- A started stage (pipeline.go:199-200, 291-294), from its attributes, with the channels it was given: the policy engine with or without policies (policyengine.go:76-160), the exporter. The SysFlow stages
are left out. -/
def World.comp (W : World P) (c : Pipeline.Conf) (st : Stage Factory) : Comp ResourceLogs :=
  match st.proc with
  | .engine =>
    let ec := engineConf c
    match ec.policiesPath, W.policyAt ec with
    | [], _ => sync bypassStep () (st.outs.getD []).length
    | _ :: _, some p => engine ⟨W.proc (ec.mode == .enrich), (st.outs.getD []).length, ec.concurrency.toNat, ec.monitor == .loc, seconds ec.monitorInterval⟩ p W.start W.pending
    | _ :: _, none => Drain.idle ResourceLogs
  | .exporter =>
    match createConfigX W.secrets (xconf c) with
    | some x => W.exporterComp x
    | none => Drain.idle ResourceLogs
  | _ => Drain.idle ResourceLogs

/-- A channel of records: in this build both types have the same element type (types_otel.go:35-40, policyengine.go:55-57, kafkadriver.go:49-52). -/
def Carries (d : Chan Factory) : Prop := d.made = .otelChan ∨ d.made = .eventChan

/-- Starting the stage does not crash on the type of a channel, and the stage works (policyengine.go:119-124, 216-218, exporter.go:111-116). -/
def Typed (st : Stage Factory) : Prop :=
  match st.proc with
  | .engine => (∃ d, st.ins = [d] ∧ Carries d) ∧ ∀ d ∈ st.outs.getD [], Carries d
  | .exporter => ∃ d, st.ins = [d] ∧ Carries d
  | _ => False

/-! ### Specification -/

/-- A configuration of two stages, policy engine and exporter, connected by channels named `a`, `b`. -/
structure Usual (c1 c2 : Pipeline.Conf) (a b : Str) : Prop where
  engine : strAt c1 "processor".toList = some "policyengine".toList
  exporter : strAt c2 "processor".toList = some "exporter".toList
  in1 : ∃ s, declared c1 "in".toList = [some s] ∧ fields s = [a, "otelchan".toList]
  out1 : ∃ s, declared c1 "out".toList = [some s] ∧ fields s = [b, "eventchan".toList]
  in2 : ∃ s t, declared c2 "in".toList = [some s] ∧ fields s = [b, t]
  out2 : c2.get "out".toList = none
  ab : a ≠ b

/-- The program that such a configuration with policies describes. -/
def World.setup (W : World P) (c1 : Pipeline.Conf) (x : XConfig) (p : P) : Setup P where
  L := W.L
  json := W.json
  proto := W.proto
  str := W.str
  texts := W.texts
  code := W.code
  order := W.order
  enrich := (engineConf c1).mode == .enrich
  builtIn := W.builtIn
  user := W.user
  workers := (engineConf c1).concurrency.toNat
  monitor := (engineConf c1).monitor == .loc
  interval := seconds (engineConf c1).monitorInterval
  buffer := x.eventBuffer
  encoding := x.kafka.encoding
  cap := 100000
  policies := p
  pending := W.pending
  start := W.start

/-- What makes the initialisation of the policy engine and of the exporter succeed, with policies `p` and exporter configuration `x`. -/
structure World.Ready (W : World P) (c1 c2 : Pipeline.Conf) (x : XConfig) (p : P) : Prop where
  path : (engineConf c1).policiesPath ≠ []
  built : W.policyAt (engineConf c1) = some p
  workers : 0 ≤ (engineConf c1).concurrency
  conf : createConfigX W.secrets (xconf c2) = some x
  dest : W.exports x = true

/-- The same for enrich mode without policies. -/
structure World.ReadyBypass (W : World P) (c1 c2 : Pipeline.Conf) (x : XConfig) : Prop where
  path : (engineConf c1).policiesPath = []
  mode : (engineConf c1).mode = .enrich
  conf : createConfigX W.secrets (xconf c2) = some x
  dest : W.exports x = true

/-- Policies that parse and compile without cyclic definitions and do not read what the processor writes, actions that leave records alone, at least one worker. -/
structure World.Ok (W : World P) (c1 : Pipeline.Conf) (dss : P → List (List Decl)) : Prop where
  str : StrRule W.str
  texts : ∀ p, List.Forall₂ (fun s ds => GPolicy (ltokens W.str s) ds) (W.texts p) (dss p)
  acyclic : ∀ p, ∀ x ∈ sites (dss p), ∀ e, siteCond x = some e → ¬ Cyclic x.2 e
  foreign : ∀ p, ∀ x ∈ (sites (dss p)).filterMap asRule, ∀ k, MentionsE x.2 k x.1.cond → Foreign k
  code : ∀ p, ∃ n, Falco.compile (otelOps W.L) n ((W.texts p).map (Falco.fileOf W.str)) = some (some (W.code p))
  actions : ∀ a f, (W.builtIn a = some f ∨ W.user a = some f) → ∀ r, (f r).1 = r
  order : ∀ l, (W.order l).Perm l
  workers : 0 < (engineConf c1).concurrency

/-! ### Proofs -/

theorem boot_engine (W : World P) : W.env.getProc bootRegs "policyengine".toList = (bootRegs, .ok .engine) := by
  have h : bootRegs.procs.get "policyengine".toList = some .engine := by decide +kernel
  unfold World.env
  dsimp only
  unfold Regs.getProcessor
  rw [h]

theorem boot_exporter (W : World P) : W.env.getProc bootRegs "exporter".toList = (bootRegs, .ok .exporter) := by
  have h : bootRegs.procs.get "exporter".toList = some .exporter := by decide +kernel
  unfold World.env
  dsimp only
  unfold Regs.getProcessor
  rw [h]

def otelStages : List (Stage Factory) := [⟨.engine, [⟨0, .otelChan⟩], some [⟨1, .eventChan⟩]⟩, ⟨.exporter, [⟨1, .eventChan⟩], none⟩]

def chans1 (a b : Str) : Chans Factory := ⟨AMap.set (AMap.set [] a ⟨0, .otelChan⟩) b ⟨1, .eventChan⟩, 2⟩

def afterEngine (a b : Str) : Load Factory :=
  { regs := bootRegs, chans := chans1 a b, stages := [⟨.engine, [⟨0, .otelChan⟩], some [⟨1, .eventChan⟩]⟩], channels := [⟨0, .otelChan⟩, ⟨1, .eventChan⟩] }

theorem usual_first (W : World P) {c1 c2 : Pipeline.Conf} {a b : Str} (u : Usual c1 c2 a b) (he : W.env.init .engine c1 bootRegs = .ok bootRegs) :
    loadStage W.env { regs := bootRegs } c1 = .done (afterEngine a b) := by
  obtain ⟨s1, hi1, f1⟩ := u.in1
  obtain ⟨s2, ho1, f2⟩ := u.out1
  have k1 : bootRegs.chans.get "otelchan".toList = some .otelChan := by decide +kernel
  have k2 : bootRegs.chans.get "eventchan".toList = some .eventChan := by decide +kernel
  have g1 := getChan_new bootRegs ({} : Chans Factory) s1 a _ _ f1 rfl k1
  have g2 := getChan_new bootRegs ⟨AMap.set [] a ⟨0, .otelChan⟩, 1⟩ s2 b _ _ f2 (by rw [AMap.get_set, if_neg u.ab]; rfl) k2
  exact loadStage_io W.env { regs := bootRegs } c1 _ _ _ _ _ _ _ _ _ _ u.engine (boot_engine W) he hi1 ho1 g1 g2

theorem usual_loads (W : World P) {c1 c2 : Pipeline.Conf} {a b : Str} (u : Usual c1 c2 a b) (he : W.env.init .engine c1 bootRegs = .ok bootRegs)
    (hx : W.env.init .exporter c2 bootRegs = .ok bootRegs) :
    ∃ l, loadStages W.env { regs := bootRegs } [c1, c2] = .done l ∧ l.stages = otelStages ∧ rootChannel l = some ⟨0, .otelChan⟩ ∧ l.chans = chans1 a b ∧ l.regs = bootRegs := by
  obtain ⟨s2, t2, hi2, f2⟩ := u.in2
  have g2 := getChan_old bootRegs (chans1 a b) s2 b t2 ⟨1, .eventChan⟩ f2 (by unfold chans1; rw [AMap.get_set, if_pos rfl])
  have L2 := loadStage_i W.env (afterEngine a b) c2 _ _ _ _ _ _ _ u.exporter (boot_exporter W) hx hi2 u.out2 g2
  exact ⟨_, (loadStages_cons (usual_first W u he)).trans ((loadStages_cons L2).trans rfl), rfl, rfl, rfl, rfl⟩

theorem init_engine (W : World P) {c1 c2 : Pipeline.Conf} {x : XConfig} {p : P} (h : W.Ready c1 c2 x p) (r : Regs Factory) : W.env.init .engine c1 r = .ok r := by
  have e : engineInit (Config.toConf (xconf c1)) (W.policyAt (engineConf c1)).isSome = .running (engineConf c1).concurrency ((engineConf c1).monitor == .loc) := by
    rw [h.built]
    unfold engineInit
    change (if (engineConf c1).policiesPath = [] then _ else if true = true then (if (engineConf c1).concurrency < 0 then _ else _) else _) = _
    rw [if_neg h.path, if_pos rfl, if_neg (Int.not_lt.2 h.workers)]
    rfl
  unfold World.env
  dsimp only
  rw [e]

theorem init_engine_bypass (W : World P) {c1 c2 : Pipeline.Conf} {x : XConfig} (h : W.ReadyBypass c1 c2 x) (r : Regs Factory) : W.env.init .engine c1 r = .ok r := by
  have e : engineInit (Config.toConf (xconf c1)) (W.policyAt (engineConf c1)).isSome = .bypass := by
    unfold engineInit
    change (if (engineConf c1).policiesPath = [] then (match (engineConf c1).mode with | .enrich => _ | .alert => _) else _) = _
    rw [if_pos h.path, h.mode]
  unfold World.env
  dsimp only
  rw [e]

theorem init_exporter (W : World P) {c2 : Pipeline.Conf} {x : XConfig} (h : createConfigX W.secrets (xconf c2) = some x) (hx : W.exports x = true) (r : Regs Factory) :
    W.env.init .exporter c2 r = .ok r := by
  unfold World.env
  dsimp only
  rw [h]
  dsimp only
  rw [if_pos hx]

theorem usual_typed {l : Load Factory} (h2 : l.stages = otelStages) : ∀ st ∈ l.stages, Typed st := by
  rw [h2]
  intro st hst
  rcases List.mem_cons.1 hst with rfl | hst
  · exact ⟨⟨_, rfl, .inl rfl⟩, fun e he => by rw [List.mem_singleton.1 he]; exact .inr rfl⟩
  · rw [List.mem_singleton.1 hst]; exact ⟨_, rfl, .inr rfl⟩

theorem usual_chain (W : World P) (c1 c2 : Pipeline.Conf) (l : Load Factory) (h : l.stages = otelStages) (cap : Nat) :
    netOf W.comp [c1, c2] l cap = chain [W.comp c1 ⟨.engine, [⟨0, .otelChan⟩], some [⟨1, .eventChan⟩]⟩, W.comp c2 ⟨.exporter, [⟨1, .eventChan⟩], none⟩] cap := by
  have hr0 : readerOf l ⟨1, .eventChan⟩ = some 1 := by unfold readerOf; rw [h]; rfl
  have hn : l.stages.length = 2 := by rw [h]; rfl
  have hc : (fun (i : Nat) => (([c1, c2].zip l.stages)[i]?.map (fun p => W.comp p.1 p.2)).getD (Drain.idle ResourceLogs)) =
      fun (i : Nat) => [W.comp c1 ⟨.engine, [⟨0, .otelChan⟩], some [⟨1, .eventChan⟩]⟩, W.comp c2 ⟨.exporter, [⟨1, .eventChan⟩], none⟩].getD i (Drain.idle ResourceLogs) := by
    funext i
    rw [h]
    match i with
    | 0 => rfl
    | 1 => rfl
    | i + 2 => rfl
  have ht : (fun (i k : Nat) => ((l.stages[i]?.bind (fun st => (st.outs.getD [])[k]?)).bind (readerOf l)).getD (i + 1)) = fun (i _ : Nat) => i + 1 := by
    funext i k
    rw [h]
    match i, k with
    | 0, 0 => change (readerOf l ⟨1, .eventChan⟩).getD 1 = 1; rw [hr0]; rfl
    | 1, _ => rfl
    | 0, k + 1 => rfl
    | i + 2, _ => rfl
  unfold netOf chain
  rw [hc, ht, hn]
  rfl

/-- **C98** Policies. A usual configuration whose stages can be initialised is loaded, no stage is started with a channel of the wrong type, an OpenTelemetry driver is given the policy engine's input channel, and
the network started is the chain of the policy engine and the exporter, each with the settings of the configuration. -/
theorem otel_boots (W : World P) {c1 c2 : Pipeline.Conf} {a b : Str} (u : Usual c1 c2 a b) {x : XConfig} {p : P} (h : W.Ready c1 c2 x p) :
    ∃ l, loadStages W.env { regs := bootRegs } [c1, c2] = .done l ∧ (∀ st ∈ l.stages, Typed st) ∧
      (∃ d, Whole.otelDriverChannel l = .ok d ∧ l.stages.head?.map (·.ins) = some [d]) ∧
      netOf W.comp [c1, c2] l chanSize = chain [engine (W.setup c1 x p).cfg p W.start W.pending, W.exporterComp x] chanSize := by
  obtain ⟨l, h1, h2, h3, -, -⟩ := usual_loads W u (init_engine W h _) (init_exporter W h.conf h.dest _)
  refine ⟨l, h1, usual_typed h2, ⟨⟨0, .otelChan⟩, by unfold Whole.otelDriverChannel; rw [h3]; rfl, by rw [h2]; rfl⟩, ?_⟩
  rw [usual_chain W c1 c2 l h2]
  have e1 : W.comp c1 ⟨.engine, [⟨0, .otelChan⟩], some [⟨1, .eventChan⟩]⟩ = engine (W.setup c1 x p).cfg p W.start W.pending := by
    unfold World.comp
    dsimp only
    rw [h.built]
    cases hp : (engineConf c1).policiesPath with
    | nil => exact absurd hp h.path
    | cons _ _ => rfl
  have e2 : W.comp c2 ⟨.exporter, [⟨1, .eventChan⟩], none⟩ = W.exporterComp x := by
    unfold World.comp
    dsimp only
    rw [h.conf]
  rw [e1, e2]

/-- With Kafka as destination, accepting messages, this is the program of C85; with a file that can be written, too. -/
theorem otel_kafka_net (W : World P) (c1 : Pipeline.Conf) {x : XConfig} {p : P} (ht : x.transport = .kafka) (hw : ∀ k, W.sends k = true) :
    chain [engine (W.setup c1 x p).cfg p W.start W.pending, W.exporterComp x] chanSize = (W.setup c1 x p).kafkaNet := by
  have hw : W.sends = fun _ => true := funext hw
  have e : W.exporterComp x = exporter (Exporter.perRecord (W.setup c1 x p).enc) (Exporter.kafka (fun _ => true)) x.eventBuffer ([], 0) W.start := by
    unfold World.exporterComp
    dsimp only
    rw [ht, hw]
    rfl
  rw [e]
  rfl

theorem otel_file_net (W : World P) (c1 : Pipeline.Conf) {x : XConfig} {p : P} (ht : x.transport = .file) (hw : ∀ k, W.writes k = none) :
    chain [engine (W.setup c1 x p).cfg p W.start W.pending, W.exporterComp x] chanSize = (W.setup c1 x p).fileNet := by
  have hw : W.writes = fun _ => none := funext hw
  have e : W.exporterComp x = exporter (Exporter.perRecord (W.setup c1 x p).enc) (Exporter.fileTransport (fun _ => none)) x.eventBuffer Exporter.newFile W.start := by
    unfold World.exporterComp
    dsimp only
    rw [ht, hw]
    rfl
  rw [e]
  rfl

theorem setup_ok (W : World P) {c1 : Pipeline.Conf} {dss : P → List (List Decl)} (ok : W.Ok c1 dss) (x : XConfig) (p : P) : (W.setup c1 x p).Ok dss := by
  refine ⟨ok.str, ok.texts, ok.acyclic, ok.foreign, ok.code, ok.actions, ok.order, ?_, ?_⟩
  · change 0 < (engineConf c1).concurrency.toNat
    have := ok.workers
    omega
  · change 0 < 100000
    decide

/-- The global items do not touch what makes a configuration usual. -/
theorem usual_manifest (m : Manifest) (env : List Str) {c1 c2 : Pipeline.Conf} {a b : Str} (u : Usual c1 c2 a b) :
    ∃ c1' c2', setManifest m env [c1, c2] = [c1', c2'] ∧ Usual c1' c2' a b ∧
      ∀ k, k ∉ ["version".toList, "jsonschemaversion".toList, "ecsversion".toList, "buildnumber".toList, "cluster.id".toList] → c1'.get k = c1.get k ∧ c2'.get k = c2.get k := by
  obtain ⟨hl, c1', h1, -, g1⟩ := global_items m env [c1, c2] 0 c1 rfl
  obtain ⟨-, c2', h2, -, g2⟩ := global_items m env [c1, c2] 1 c2 rfl
  rw [Whole.globals_keys] at g1 g2
  have hall : setManifest m env [c1, c2] = [c1', c2'] := by
    generalize setManifest m env [c1, c2] = r at hl h1 h2
    match r, hl with
    | [x, y], _ => cases h1; cases h2; rfl
  have e1 : ∀ k, k ∉ ["version".toList, "jsonschemaversion".toList, "ecsversion".toList, "buildnumber".toList, "cluster.id".toList] → c1'.get k = c1.get k := fun k hk => g1 k fun _ => hk
  have e2 : ∀ k, k ∉ ["version".toList, "jsonschemaversion".toList, "ecsversion".toList, "buildnumber".toList, "cluster.id".toList] → c2'.get k = c2.get k := fun k hk => g2 k fun _ => hk
  refine ⟨c1', c2', hall, ?_, fun k hk => ⟨e1 k hk, e2 k hk⟩⟩
  constructor
  · unfold strAt; rw [e1 _ (by decide)]; exact u.engine
  · unfold strAt; rw [e2 _ (by decide)]; exact u.exporter
  · unfold declared; rw [e1 _ (by decide)]; exact u.in1
  · unfold declared; rw [e1 _ (by decide)]; exact u.out1
  · unfold declared; rw [e2 _ (by decide)]; exact u.in2
  · rw [e2 _ (by decide)]; exact u.out2
  · exact u.ab

/-! ## C98 -/

/-- **C98** From pipeline.json to Kafka: a usual configuration exporting to Kafka is loaded, its driver is given the policy engine's input, and on the network it starts every run of the Kafka driver, whatever
messages it reads and whatever the schedule, can end only with an error; at every moment the messages produced are the first of a sequence complete for some of the records read, from the first one on; and they are
complete for all of them once every stage has returned. -/
theorem boot_otel_kafka (W : World P) {m : Manifest} {env : List Str} {cs : List Pipeline.Conf} {c1 c2 : Pipeline.Conf} {a b : Str} (hm : setManifest m env cs = [c1, c2]) (u : Usual c1 c2 a b)
    {x : XConfig} {p : P} (h : W.Ready c1 c2 x p) (ht : x.transport = .kafka) (hw : ∀ k, W.sends k = true) {dss : P → List (List Decl)} (ok : W.Ok c1 dss) :
    ∃ l, loadStages W.env { regs := bootRegs } (setManifest m env cs) = .done l ∧ (∃ d, Whole.otelDriverChannel l = .ok d ∧ l.stages.head?.map (·.ins) = some [d]) ∧
      netOf W.comp (setManifest m env cs) l chanSize = (W.setup c1 x p).kafkaNet ∧
      ∀ ms : List (KMsg ResourceLogs), (∀ rl ∈ kafkaRecords ms, Given rl) →
      ∀ (tr : List (Drain.Obs ResourceLogs)) (s : PSt ResourceLogs (W.setup c1 x p).kafkaNet), PExec id (W.setup c1 x p).kafkaNet (kafkaDriver ms) tr s →
        (∀ e, s.status = some e → e = true) ∧
        (∃ rls all, rls <+: kafkaRecords ms ∧ (s.status ≠ none → rls = kafkaRecords ms) ∧ CompleteFor (W.setup c1 x p) dss rls all ∧ (W.setup c1 x p).messages s.net <+: all) ∧
        (Waited s.net → CompleteFor (W.setup c1 x p) dss (kafkaRecords ms) ((W.setup c1 x p).messages s.net)) := by
  obtain ⟨l, h1, -, h3, h4⟩ := otel_boots W u h
  rw [hm]
  refine ⟨l, h1, h3, h4.trans (otel_kafka_net W c1 ht hw), ?_⟩
  intro ms hg tr s hx
  exact otel_kafka_run (W.setup c1 x p) dss (setup_ok W ok x p) ms hg hx

/-- **C98** From pipeline.json to a log file: a usual configuration exporting to a file, in an encoding without newlines, is loaded, and on the network it starts every run of the OTel file driver over one file
returns without an error and with a log whose lines are complete for the records of the file, or, if a stop was requested, for those from the first one up to some point. -/
theorem boot_otel_file (W : World P) {m : Manifest} {env : List Str} {cs : List Pipeline.Conf} {c1 c2 : Pipeline.Conf} {a b : Str} (hm : setManifest m env cs = [c1, c2]) (u : Usual c1 c2 a b)
    {x : XConfig} {p : P} (h : W.Ready c1 c2 x p) (ht : x.transport = .file) (hw : ∀ k, W.writes k = none) {dss : P → List (List Decl)} (ok : W.Ok c1 dss)
    (hline : ∀ rl t, W.encode x rl = some t → Exporter.newline ∉ t) :
    ∃ l, loadStages W.env { regs := bootRegs } (setManifest m env cs) = .done l ∧ (∃ d, Whole.otelDriverChannel l = .ok d ∧ l.stages.head?.map (·.ins) = some [d]) ∧
      netOf W.comp (setManifest m env cs) l chanSize = (W.setup c1 x p).fileNet ∧
      ∀ {J : Type} (dec : J → ResourceLogs → ResourceLogs) (zero : ResourceLogs) (run : Nat → Bool) (js : List J), (∀ j ∈ js, Given (dec j zero)) →
      ∀ (tr : List (Drain.Obs ResourceLogs)) (s : PSt ResourceLogs (W.setup c1 x p).fileNet), PExec id (W.setup c1 x p).fileNet (oneFile dec zero run js) tr s → ∀ e, s.status = some e →
        e = false ∧ ∃ rls, rls <+: js.map (fun j => dec j zero) ∧ ((∀ k, run k = true) → rls = js.map (fun j => dec j zero)) ∧
          CompleteFor (W.setup c1 x p) dss rls (Exporter.linesOf [] ((W.setup c1 x p).log s.net)) := by
  obtain ⟨l, h1, -, h3, h4⟩ := otel_boots W u h
  rw [hm]
  refine ⟨l, h1, h3, h4.trans (otel_file_net W c1 ht hw), ?_⟩
  intro J dec zero run js hg tr s hx e he
  exact otel_file_run (W.setup c1 x p) dss (setup_ok W ok x p) hline dec zero run js hg hx he

/-- **C98** Enrich mode without policies: the network loaded is the one of C86, whose messages are the encodings of the records, unchanged and in order. -/
theorem otel_boots_bypass (W : World P) {c1 c2 : Pipeline.Conf} {a b : Str} (u : Usual c1 c2 a b) {x : XConfig} (h : W.ReadyBypass c1 c2 x) (p : P) (ht : x.transport = .kafka) (hw : ∀ k, W.sends k = true) :
    ∃ l, loadStages W.env { regs := bootRegs } [c1, c2] = .done l ∧ (∀ st ∈ l.stages, Typed st) ∧ (∃ d, Whole.otelDriverChannel l = .ok d ∧ l.stages.head?.map (·.ins) = some [d]) ∧
      netOf W.comp [c1, c2] l chanSize = (W.setup c1 x p).bypassWith (Exporter.kafka (fun _ => true)) ([], 0) ∧
      ∀ (tr : List (Drain.Obs ResourceLogs)) (s : Drain.St ((W.setup c1 x p).bypassWith (Exporter.kafka (fun _ => true)) ([], 0))),
        Exec ((W.setup c1 x p).bypassWith (Exporter.kafka (fun _ => true)) ([], 0)) tr s → Waited s → (W.setup c1 x p).bypassMessages s = (driven tr).filterMap (W.encode x) := by
  obtain ⟨l, h1, h2, h3, -, -⟩ := usual_loads W u (init_engine_bypass W h _) (init_exporter W h.conf h.dest _)
  refine ⟨l, h1, usual_typed h2, ⟨⟨0, .otelChan⟩, by unfold Whole.otelDriverChannel; rw [h3]; rfl, by rw [h2]; rfl⟩, ?_, ?_⟩
  · rw [usual_chain W c1 c2 l h2]
    have e1 : W.comp c1 ⟨.engine, [⟨0, .otelChan⟩], some [⟨1, .eventChan⟩]⟩ = sync bypassStep () 1 := by
      unfold World.comp
      dsimp only
      rw [h.path]
      rfl
    have hw : W.sends = fun _ => true := funext hw
    have e2 : W.comp c2 ⟨.exporter, [⟨1, .eventChan⟩], none⟩ = exporter (Exporter.perRecord (W.setup c1 x p).enc) (Exporter.kafka (fun _ => true)) x.eventBuffer ([], 0) W.start := by
      unfold World.comp
      dsimp only
      rw [h.conf]
      dsimp only
      unfold World.exporterComp
      dsimp only
      rw [ht, hw]
      rfl
    rw [e1, e2]
    rfl
  · intro tr s he hd
    exact bypass_program_otel (W.setup c1 x p) (by change 0 < 100000; decide) tr s he hd

/-! ### Configurations that cannot be loaded -/

theorem unexportable_never_loads (W : World P) {c1 c2 : Pipeline.Conf} {a b : Str} (u : Usual c1 c2 a b) (hx : ∀ x, createConfigX W.secrets (xconf c2) = some x → W.exports x = false) (l : Load Factory) :
    loadStages W.env { regs := bootRegs } [c1, c2] ≠ .done l := by
  have hx : ∀ r, W.env.init .exporter c2 r = .err := by
    intro r
    unfold World.env
    dsimp only
    cases hc : createConfigX W.secrets (xconf c2) with
    | none => rfl
    | some x =>
      dsimp only
      rw [hx x hc]
      rfl
  have hinit : ∀ r, W.env.init .engine c1 r = .ok r ∨ W.env.init .engine c1 r = .err ∨ W.env.init .engine c1 r = .panic := by
    intro r
    unfold World.env
    dsimp only
    split
    · exact .inr (.inl rfl)
    · exact .inr (.inr rfl)
    · exact .inl rfl
  rcases hinit bootRegs with he | he | he
  · rw [loadStages_cons (usual_first W u he)]
    unfold loadStages loadStage
    rw [show strAt c2 kProc = _ from u.exporter]
    dsimp only
    rw [show W.env.getProc (afterEngine a b).regs _ = _ from boot_exporter W]
    dsimp only
    rw [hx]
    intro h; cases h
  all_goals
    unfold loadStages loadStage
    rw [show strAt c1 kProc = _ from u.engine]
    dsimp only
    rw [boot_engine W]
    dsimp only
    rw [he]
    intro h; cases h

/-- **C98** In this build, an exporter without `"format": "otel"`, in particular one that leaves the format out, or one that exports to syslog or Elastic, or one without Kafka settings (even if it exports to a file), is
never started. -/
theorem otel_needs_format (W : World P) {c1 c2 : Pipeline.Conf} {a b : Str} (u : Usual c1 c2 a b)
    (h : strAt c2 "format".toList ≠ some "otel".toList ∨ strAt c2 "export".toList = some "syslog".toList ∨ strAt c2 "export".toList = some "es".toList ∨ c2.get "kafka.config".toList = none) (l : Load Factory) :
    loadStages W.env { regs := bootRegs } [c1, c2] ≠ .done l := by
  refine unexportable_never_loads W u ?_ l
  intro x hx
  have hc := Config.exporter_config_is _ _ _ hx
  have hs : ∀ k : String, (xconf c2).str? k = strAt c2 k.toList := by
    intro k
    unfold XConf.str? xconf strAt
    cases c2.get k.toList with
    | none => rfl
    | some v => cases v <;> rfl
  unfold World.exports
  rcases h with h | h | h | h
  · have : x.format ≠ .otel := fun e => h ((hs "format").symm.trans (hc.otel.1 e))
    have : (x.format == Config.Format.otel) = false := by
      cases hf : x.format <;> first | rfl | exact absurd hf this
    rw [this]; rfl
  · have : x.transport = .syslog := hc.syslog.2 ((hs "export").trans h)
    rw [this, Bool.and_assoc, Bool.and_assoc]
    exact Bool.and_false _
  · have : x.transport = .es := hc.es.2 ((hs "export").trans h)
    rw [this, Bool.and_assoc, Bool.and_assoc]
    exact Bool.and_false _
  · exfalso
    have : createConfigX W.secrets (xconf c2) = none := by
      apply Whole.needs_kafka
      rintro ⟨es, h1, -⟩
      unfold xconf at h1
      rw [h] at h1
      cases h1
    rw [this] at hx
    cases hx

/-! ### The shipped configuration -/

/-- /repo/resources/pipelines/pipeline.otel.json. -/
def shippedOtel : List Pipeline.Conf :=
  [[(kProc, .str "policyengine".toList), (kIn, .str "otel otelchan".toList), (kOut, .str "evt eventchan".toList), ("language".toList, .str "falco".toList), ("policies".toList, .str "/filter.yaml".toList),
    ("config".toList, .str []), ("mode".toList, .str "alert".toList)],
   [(kProc, .str "exporter".toList), (kIn, .str "evt eventchan".toList), ("format".toList, .str "otel".toList), ("export".toList, .str "kafka".toList),
    ("kafka.config".toList, .map [("bootstrap.servers".toList, .str "kafka1:29092".toList)]), ("kafka.topic".toList, .str "downstream".toList), ("kafka.encoding".toList, .str "proto".toList)]]

theorem shipped_usual : ∃ c1 c2, shippedOtel = [c1, c2] ∧ Usual c1 c2 "otel".toList "evt".toList :=
  ⟨_, _, rfl, by decide +kernel, by decide +kernel, ⟨_, rfl, by decide +kernel⟩, ⟨_, rfl, by decide +kernel⟩, ⟨_, "eventchan".toList, rfl, by decide +kernel⟩, by decide +kernel, by decide⟩

theorem conf_str (c : Pipeline.Conf) (k : String) : (xconf c).str? k = strAt c k.toList := by
  unfold XConf.str? xconf strAt
  cases c.get k.toList with
  | none => rfl
  | some v => cases v <;> rfl

/-- **C98** The configuration shipped as pipeline.otel.json, in any environment and with any build: Protocol Buffers to the Kafka topic `downstream`, no batching; alert mode, five workers and no monitor; it is loaded if the
policies at `/filter.yaml` compile and the Kafka client accepts the settings, and only then. -/
theorem shipped_otel_boots (W : World P) (m : Manifest) (env : List Str) :
    ∃ c1 c2 x, setManifest m env shippedOtel = [c1, c2] ∧ Usual c1 c2 "otel".toList "evt".toList ∧ createConfigX W.secrets (xconf c2) = some x ∧
      x.format = .otel ∧ x.transport = .kafka ∧ x.kafka.encoding = .proto ∧ x.kafka.topic = "downstream".toList ∧ x.eventBuffer = 0 ∧
      (engineConf c1).policiesPath = "/filter.yaml".toList ∧ (engineConf c1).language = .falco ∧ (engineConf c1).mode = .alert ∧ (engineConf c1).concurrency = 5 ∧ (engineConf c1).monitor = .none ∧
      ((∃ l, loadStages W.env { regs := bootRegs } (setManifest m env shippedOtel) = .done l) ↔ (∃ p, W.policyAt (engineConf c1) = some p) ∧ W.producer x.kafka = true) ∧
      ∀ p, W.policyAt (engineConf c1) = some p → W.producer x.kafka = true → W.Ready c1 c2 x p := by
  obtain ⟨c1, c2, e, u⟩ := shipped_usual
  obtain ⟨c1', c2', e', u', hg⟩ := usual_manifest m env u
  have e0 : setManifest m env shippedOtel = [c1', c2'] := by rw [e, e']
  obtain ⟨k1, k2⟩ := List.cons.inj e
  obtain ⟨k2, -⟩ := List.cons.inj k2
  have g1 : ∀ k : String, k.toList ∉ ["version".toList, "jsonschemaversion".toList, "ecsversion".toList, "buildnumber".toList, "cluster.id".toList] →
      (Config.toConf (xconf c1')).str? k = strAt shippedOtel[0] k.toList := by
    intro k hk
    rw [Config.toConf_str, conf_str]
    unfold strAt
    rw [(hg _ hk).1]
    change (match c1.get k.toList with | some (.str s) => some s | _ => none) = _
    rw [← k1]
    rfl
  have g2 : ∀ k : String, k.toList ∉ ["version".toList, "jsonschemaversion".toList, "ecsversion".toList, "buildnumber".toList, "cluster.id".toList] →
      (xconf c2').str? k = strAt shippedOtel[1] k.toList := by
    intro k hk
    rw [conf_str]
    unfold strAt
    rw [(hg _ hk).2]
    change (match c2.get k.toList with | some (.str s) => some s | _ => none) = _
    rw [← k2]
    rfl
  have none2 : ∀ k : String, k.toList ∉ ["version".toList, "jsonschemaversion".toList, "ecsversion".toList, "buildnumber".toList, "cluster.id".toList] →
      strAt shippedOtel[1] k.toList = none → (xconf c2').str? k = none := fun k h1 h2 => (g2 k h1).trans h2
  have hnum : ∀ k : String, (xconf c2').str? k = none → Config.NumberOK (xconf c2') k := by
    intro k hk v hv
    rw [hk] at hv; cases hv
  have vault : ¬ Config.VaultOn (xconf c2') := by
    unfold Config.VaultOn
    rw [none2 _ (by decide) (by decide +kernel)]
    intro h; cases h
  have kconf : (xconf c2') "kafka.config".toList = some (.map [("bootstrap.servers".toList, .str "kafka1:29092".toList)]) := by
    unfold xconf
    rw [(hg _ (by decide)).2, ← k2]
    decide +kernel
  have acc : Config.ConfAccepted W.secrets (xconf c2') := by
    refine ⟨fun h => absurd h vault, hnum _ (none2 _ (by decide) (by decide +kernel)), hnum _ (none2 _ (by decide) (by decide +kernel)), fun _ h => absurd h vault, fun _ h => absurd h vault,
      hnum _ (none2 _ (by decide) (by decide +kernel)), hnum _ (none2 _ (by decide) (by decide +kernel)), ?_, ⟨_, kconf, by decide +kernel⟩, ⟨"downstream".toList, (g2 _ (by decide)).trans (by decide +kernel)⟩⟩
    intro v hv
    rw [none2 _ (by decide) (by decide +kernel)] at hv
    cases hv
  obtain ⟨x, hx⟩ := Option.isSome_iff_exists.1 ((Config.exporter_accepts_iff W.secrets (xconf c2')).2 acc)
  have hc := Config.exporter_config_is _ _ _ hx
  have hf : x.format = .otel := hc.otel.2 ((g2 _ (by decide)).trans (by decide +kernel))
  have ht : x.transport = .kafka := hc.kafka.2 ((g2 _ (by decide)).trans (by decide +kernel))
  have hk : x.kafka.encoding = .proto := by
    cases hk : x.kafka.encoding with
    | proto => rfl
    | json =>
      have := (g2 "kafka.encoding" (by decide)).symm.trans (hc.enc.1 hk)
      revert this
      decide +kernel
  have hto : x.kafka.topic = "downstream".toList := by
    have := hc.topic.symm.trans (g2 "kafka.topic" (by decide))
    rw [show strAt shippedOtel[1] "kafka.topic".toList = some "downstream".toList by decide +kernel] at this
    exact Option.some.inj this
  have hb : x.eventBuffer = 0 := hc.buffer.1 (none2 _ (by decide) (by decide +kernel))
  have p1 : (engineConf c1').policiesPath = "/filter.yaml".toList := by
    change Config.setOr ((Config.toConf (xconf c1')).str? "policies") id [] = _
    rw [g1 _ (by decide)]; decide +kernel
  have p2 : (engineConf c1').language = .falco := by
    change Config.setOr ((Config.toConf (xconf c1')).str? "language") Config.parseLanguage .falco = _
    rw [g1 _ (by decide)]; decide +kernel
  have p3 : (engineConf c1').mode = .alert := by
    change Config.setOr ((Config.toConf (xconf c1')).str? "mode") Config.parseMode .alert = _
    rw [g1 _ (by decide)]; decide +kernel
  have p4 : (engineConf c1').concurrency = 5 := by
    change Config.setOr ((Config.toConf (xconf c1')).str? "concurrency") (fun v => (Decimal.parseInt v).1) 5 = _
    rw [g1 _ (by decide)]; decide +kernel
  have p5 : (engineConf c1').monitor = .none := by
    change Config.setOr ((Config.toConf (xconf c1')).str? "monitor") Config.parseMonitor .none = _
    rw [g1 _ (by decide)]; decide +kernel
  have hexp : W.exports x = W.producer x.kafka := by
    unfold World.exports
    rw [hf, ht]
    rfl
  have ready : ∀ p, W.policyAt (engineConf c1') = some p → W.producer x.kafka = true → W.Ready c1' c2' x p := by
    intro p hp hpr
    exact ⟨by rw [p1]; decide, hp, by rw [p4]; decide, hx, hexp.trans hpr⟩
  refine ⟨c1', c2', x, e0, u', hx, hf, ht, hk, hto, hb, p1, p2, p3, p4, p5, ?_, ready⟩
  rw [e0]
  constructor
  · rintro ⟨l, hl⟩
    refine ⟨?_, ?_⟩
    · cases hp : W.policyAt (engineConf c1') with
      | some p => exact ⟨p, rfl⟩
      | none =>
        exfalso
        have he : W.env.init .engine c1' bootRegs = .err := by
          have e : engineInit (Config.toConf (xconf c1')) (W.policyAt (engineConf c1')).isSome = .error := by
            rw [hp]
            unfold engineInit
            change (if (engineConf c1').policiesPath = [] then _ else if false = true then _ else _) = _
            rw [if_neg (by rw [p1]; decide), if_neg (by decide)]
          unfold World.env
          dsimp only
          rw [e]
        unfold loadStages loadStage at hl
        rw [show strAt c1' kProc = _ from u'.engine] at hl
        dsimp only at hl
        rw [boot_engine W] at hl
        dsimp only at hl
        rw [he] at hl
        cases hl
    · cases hpr : W.producer x.kafka with
      | true => rfl
      | false =>
        exfalso
        refine unexportable_never_loads W u' ?_ l hl
        intro x' hx'
        rw [hx] at hx'
        cases hx'
        rw [hexp, hpr]
  · rintro ⟨⟨p, hp⟩, hpr⟩
    obtain ⟨l, h1, -⟩ := otel_boots W u' (ready p hp hpr)
    exact ⟨l, h1⟩

/-! ### Example -/

def otelWorld (code : List (Rule ResourceLogs) × List (Filter ResourceLogs)) : World Unit where
  L := Otel.demoLib
  json := (demoRun 1 code).json
  proto := (demoRun 1 code).proto
  str := Falco.simpleStr
  texts := fun _ => [hostText]
  code := fun _ => code
  order := id
  policyAt := fun c => if c.policiesPath = "/filter.yaml".toList then some () else none
  pending := []
  builtIn := fun _ => none
  user := fun _ => none
  opens := fun _ => true
  producer := fun _ => true
  writes := fun _ => none
  sends := fun _ => true
  secrets := ⟨fun _ => none, fun _ => none⟩
  load := fun _ => none
  loadHandler := fun _ _ => none
  start := 0

/-- The hypotheses of `boot_otel_kafka` are met by the shipped configuration, in any environment; the network it starts has a run that takes in a record to which a rule applies and ends with complete messages. -/
example (m : Manifest) (env : List Str) : ∃ code c1 c2 x l tr, setManifest m env shippedOtel = [c1, c2] ∧ loadStages (otelWorld code).env { regs := bootRegs } [c1, c2] = .done l ∧
    netOf (otelWorld code).comp [c1, c2] l chanSize = ((otelWorld code).setup c1 x ()).kafkaNet ∧ ∃ s : Drain.St ((otelWorld code).setup c1 x ()).kafkaNet,
    Exec ((otelWorld code).setup c1 x ()).kafkaNet tr s ∧ Waited s ∧ driven tr = [demoLogs] ∧
    CompleteFor ((otelWorld code).setup c1 x ()) (fun _ => [[.rule hostRule]]) [demoLogs] (((otelWorld code).setup c1 x ()).messages s) := by
  obtain ⟨code, ok⟩ := demoRun_ok 1 (by decide)
  obtain ⟨c1, c2, x, e, u, -, -, ht, -, -, -, p1, -, -, p4, -, -, ready⟩ := shipped_otel_boots (otelWorld code) m env
  have hp : (otelWorld code).policyAt (engineConf c1) = some () := by
    change (if (engineConf c1).policiesPath = "/filter.yaml".toList then some () else none) = _
    rw [if_pos p1]
  have hr := ready () hp rfl
  have hok : (otelWorld code).Ok c1 (fun _ => [[.rule hostRule]]) := ⟨ok.str, ok.texts, ok.acyclic, ok.foreign, ok.code, ok.actions, ok.order, by rw [p4]; decide⟩
  obtain ⟨l, h1, -, h3, -⟩ := boot_otel_kafka (otelWorld code) e u hr ht (fun _ => rfl) hok
  rw [e] at h1 h3
  have ok' := setup_ok (otelWorld code) hok x ()
  obtain ⟨hT, hC⟩ := netWith_ok ((otelWorld code).setup c1 x ()) (Exporter.kafka (fun _ => true)) ([], 0) ok'.workers ok'.cap
  obtain ⟨tr, s, he, hw, hd⟩ := Drain.complete_run_exists hT hC [demoLogs] (show 1 ≤ 100000 by decide)
  have := whole_program_otel ((otelWorld code).setup c1 x ()) _ ok' tr s he hw (by rw [hd]; intro rl hrl; rw [List.mem_singleton.1 hrl]; exact ⟨demo_whole, demo_fresh⟩)
  rw [hd] at this
  exact ⟨code, c1, c2, x, l, tr, e, h1, h3, s, he, hw, hd, this⟩

/-- An engine with given further attributes and an exporter with a given format and destination. -/
def otelConfs (more : Pipeline.Conf) (format dest : Str) : Pipeline.Conf × Pipeline.Conf :=
  ([(kProc, .str "policyengine".toList), (kIn, .str "o otelchan".toList), (kOut, .str "e eventchan".toList)] ++ more,
   [(kProc, .str "exporter".toList), (kIn, .str "e x".toList), ("format".toList, .str format), ("export".toList, .str dest),
    ("kafka.config".toList, .map [("bootstrap.servers".toList, .str "h".toList)]), ("kafka.topic".toList, .str "t".toList), ("kafka.encoding".toList, .str "json".toList)])

theorem otelConfs_usual (more : Pipeline.Conf) (format dest : Str) : Usual (otelConfs more format dest).1 (otelConfs more format dest).2 "o".toList "e".toList :=
  ⟨rfl, rfl, ⟨_, rfl, by decide +kernel⟩, ⟨_, rfl, by decide +kernel⟩, ⟨_, "x".toList, rfl, by decide +kernel⟩, rfl, by decide⟩

/-- The hypotheses of `otel_boots_bypass`. -/
example (code : List (Rule ResourceLogs) × List (Filter ResourceLogs)) :
    ∃ x, (otelWorld code).ReadyBypass (otelConfs [("mode".toList, .str "enrich".toList)] "otel".toList "kafka".toList).1 (otelConfs [] "otel".toList "kafka".toList).2 x ∧ x.transport = .kafka := by
  have : (createConfigX ⟨fun _ => none, fun _ => none⟩ (xconf (otelConfs [] "otel".toList "kafka".toList).2)).map (fun x => (x.format, x.transport)) = some (.otel, .kafka) := by decide +kernel
  obtain ⟨x, hx, hs⟩ := Option.map_eq_some_iff.1 this
  simp only [Prod.mk.injEq] at hs
  refine ⟨x, ⟨by decide +kernel, by decide +kernel, hx, ?_⟩, hs.2⟩
  unfold World.exports
  rw [hs.1, hs.2]
  rfl

/-- The hypotheses of `boot_otel_file`, and a run to the end over a file of two records. -/
example (m : Manifest) (env : List Str) : ∃ code c1 c2 x tr, setManifest m env [(otelConfs [("policies".toList, .str "/filter.yaml".toList)] "otel".toList "file".toList).1,
      (otelConfs [] "otel".toList "file".toList).2] = [c1, c2] ∧ (∃ l, loadStages (otelWorld code).env { regs := bootRegs } [c1, c2] = .done l) ∧
    ∃ s : PSt ResourceLogs ((otelWorld code).setup c1 x ()).fileNet,
    PExec id ((otelWorld code).setup c1 x ()).fileNet (oneFile (fun j _ => j) demoLogs (fun _ => true) [demoLogs, demoLogs]) tr s ∧ s.status = some false ∧
    CompleteFor ((otelWorld code).setup c1 x ()) (fun _ => [[.rule hostRule]]) [demoLogs, demoLogs] (Exporter.linesOf [] (((otelWorld code).setup c1 x ()).log s.net)) := by
  obtain ⟨code, ok⟩ := demoRun_ok 1 (by decide)
  obtain ⟨c1, c2, e, u, hg⟩ := usual_manifest m env (otelConfs_usual [("policies".toList, .str "/filter.yaml".toList)] "otel".toList "file".toList)
  have s1 : ∀ k : String, k.toList ∉ ["version".toList, "jsonschemaversion".toList, "ecsversion".toList, "buildnumber".toList, "cluster.id".toList] →
      (Config.toConf (xconf c1)).str? k = strAt (otelConfs [("policies".toList, .str "/filter.yaml".toList)] "otel".toList "file".toList).1 k.toList := by
    intro k hk
    rw [Config.toConf_str, conf_str]
    unfold strAt
    rw [(hg _ hk).1]
  have s2 : ∀ k : String, k.toList ∉ ["version".toList, "jsonschemaversion".toList, "ecsversion".toList, "buildnumber".toList, "cluster.id".toList] →
      (xconf c2).str? k = strAt (otelConfs [] "otel".toList "file".toList).2 k.toList := by
    intro k hk
    rw [conf_str]
    unfold strAt
    rw [(hg _ hk).2]
    rfl
  have p1 : (engineConf c1).policiesPath = "/filter.yaml".toList := by
    change Config.setOr ((Config.toConf (xconf c1)).str? "policies") id [] = _
    rw [s1 _ (by decide)]; decide +kernel
  have p4 : (engineConf c1).concurrency = 5 := by
    change Config.setOr ((Config.toConf (xconf c1)).str? "concurrency") (fun v => (Decimal.parseInt v).1) 5 = _
    rw [s1 _ (by decide)]; decide +kernel
  have off : ∀ k : String, k.toList ∉ ["version".toList, "jsonschemaversion".toList, "ecsversion".toList, "buildnumber".toList, "cluster.id".toList] →
      strAt (otelConfs [] "otel".toList "file".toList).2 k.toList = none → (xconf c2).str? k = none := fun k h1 h2 => (s2 k h1).trans h2
  have hnum : ∀ k : String, (xconf c2).str? k = none → Config.NumberOK (xconf c2) k := by
    intro k hk v hv
    rw [hk] at hv; cases hv
  have vault : ¬ Config.VaultOn (xconf c2) := by
    unfold Config.VaultOn
    rw [off _ (by decide) (by decide +kernel)]
    intro h; cases h
  have acc : Config.ConfAccepted (otelWorld code).secrets (xconf c2) := by
    refine ⟨fun h => absurd h vault, hnum _ (off _ (by decide) (by decide +kernel)), hnum _ (off _ (by decide) (by decide +kernel)), fun _ h => absurd h vault, fun _ h => absurd h vault,
      hnum _ (off _ (by decide) (by decide +kernel)), hnum _ (off _ (by decide) (by decide +kernel)), ?_, ⟨[("bootstrap.servers".toList, .str "h".toList)], ?_, by decide +kernel⟩,
      ⟨"t".toList, (s2 _ (by decide)).trans (by decide +kernel)⟩⟩
    · intro v hv
      rw [off _ (by decide) (by decide +kernel)] at hv
      cases hv
    · unfold xconf
      rw [(hg _ (by decide)).2]
      decide +kernel
  obtain ⟨x, hx⟩ := Option.isSome_iff_exists.1 ((Config.exporter_accepts_iff (otelWorld code).secrets (xconf c2)).2 acc)
  have hc := Config.exporter_config_is _ _ _ hx
  have hf : x.format = .otel := hc.otel.2 ((s2 _ (by decide)).trans (by decide +kernel))
  have ht : x.transport = .file := hc.file.2 ((s2 _ (by decide)).trans (by decide +kernel))
  have henc : x.kafka.encoding = .json := hc.enc.2 ((s2 _ (by decide)).trans (by decide +kernel))
  have hr : (otelWorld code).Ready c1 c2 x () := by
    refine ⟨by rw [p1]; decide, ?_, by rw [p4]; decide, hx, ?_⟩
    · change (if (engineConf c1).policiesPath = "/filter.yaml".toList then some () else none) = _
      rw [if_pos p1]
    · unfold World.exports
      rw [hf, ht]
      rfl
  have hok : (otelWorld code).Ok c1 (fun _ => [[.rule hostRule]]) := ⟨ok.str, ok.texts, ok.acyclic, ok.foreign, ok.code, ok.actions, ok.order, by rw [p4]; decide⟩
  have hline : ∀ rl t, (otelWorld code).encode x rl = some t → Exporter.newline ∉ t := by
    intro rl t h
    unfold World.encode at h
    rw [henc] at h
    exact demo_line 1 code rl t h
  obtain ⟨l, h1, -, -, h4⟩ := boot_otel_file (otelWorld code) e u hr ht (fun _ => rfl) hok hline
  rw [e] at h1
  have ok' := setup_ok (otelWorld code) hok x ()
  obtain ⟨hT, hC⟩ := netWith_ok ((otelWorld code).setup c1 x ()) (Exporter.fileTransport (fun _ => none)) Exporter.newFile ok'.workers ok'.cap
  obtain ⟨body, ho, _⟩ := one_file (fun (j _ : ResourceLogs) => j) demoLogs (fun _ => true) [demoLogs, demoLogs]
  obtain ⟨tr, s, hx, he⟩ := complete_run hT hC ho id
  obtain ⟨-, rls, -, h5, h6⟩ := h4 (fun (j _ : ResourceLogs) => j) demoLogs (fun _ => true) [demoLogs, demoLogs]
    (by intro j hj; have : j = demoLogs := by simpa using hj
        subst this; exact ⟨demo_whole, demo_fresh⟩) tr s hx _ he
  have := h5 (fun _ => rfl)
  subst this
  exact ⟨code, c1, c2, x, tr, e, ⟨l, h1⟩, s, hx, he, h6⟩

/-- The hypotheses of `otel_needs_format`. -/
example : strAt (otelConfs [] "json".toList "file".toList).2 "format".toList ≠ some "otel".toList := by decide +kernel

end Verif.OtelRun
