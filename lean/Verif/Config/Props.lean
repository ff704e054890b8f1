import Verif.Config.Model
import Verif.Engine.PoolProps
/-! C50 (configuration parsing) and the start-up and bypass part of C12. -/
namespace Verif.Config
open Verif.Decimal

/-- The empty configuration. -/
def emptyConf : Conf := fun _ => none

/-- Configuration from an association list (for examples). -/
def ofList (l : List (String × CVal)) : Conf := fun k => (l.find? (fun e => e.1.toList = k)).map (·.2)

theorem parseMode_alert (v : Str) : parseMode v = .alert ↔ v = "alert".toList := by
  unfold parseMode
  split
  · rename_i h; subst h; decide
  · split
    · rename_i h; simp [← h]
    · rename_i h; simp; exact fun e => h e.symm

theorem parseLanguage_sigma (v : Str) : parseLanguage v = .sigma ↔ v = "sigma".toList := by
  unfold parseLanguage
  split
  · rename_i h; subst h; decide
  · split
    · rename_i h; simp [← h]
    · rename_i h; simp; exact fun e => h e.symm

theorem parseMonitor_loc (v : Str) : parseMonitor v = .loc ↔ v = "local".toList := by
  unfold parseMonitor
  split
  · rename_i h; subst h; decide
  · split
    · rename_i h; simp [← h]
    · rename_i h; simp; exact fun e => h e.symm

/-- **C50** Every setting of the policy engine is determined by its own key alone: the value given
there if it is a string, else the documented default. -/
theorem engine_config_fields (conf : Conf) :
    let c := (createEngineConfig conf).1
    c.policiesPath = (conf.str? "policies").getD [] ∧
    c.configPath = (conf.str? "config").getD [] ∧
    c.version = (conf.str? "version").getD [] ∧
    c.jsonSchemaVersion = (conf.str? "jsonschemaversion").getD [] ∧
    c.buildNumber = (conf.str? "buildnumber").getD [] ∧
    c.actionDir = (conf.str? "actiondir").getD "../resources/actions".toList ∧
    (c.language = .sigma ↔ conf.str? "language" = some "sigma".toList) ∧
    (c.mode = .alert ↔ conf.str? "mode" = none ∨ conf.str? "mode" = some "alert".toList) ∧
    (c.monitor = .loc ↔ conf.str? "monitor" = some "local".toList) ∧
    (conf.str? "monitor.interval" = none → c.monitorInterval = 30) ∧
    (∀ v, conf.str? "monitor.interval" = some v → c.monitorInterval = if (parseInt v).2 then (parseInt v).1 else 30) ∧
    (conf.str? "concurrency" = none → c.concurrency = 5) ∧
    (∀ v, conf.str? "concurrency" = some v → c.concurrency = (parseInt v).1) ∧
    (conf.str? "bench.rulesetsize" = none → c.benchRulesetSize = -1) ∧
    (∀ v, conf.str? "bench.rulesetsize" = some v → c.benchRulesetSize = (parseInt v).1) ∧
    (conf.str? "bench.ruleindex" = none → c.benchRuleIndex = -1) ∧
    (∀ v, conf.str? "bench.ruleindex" = some v → c.benchRuleIndex = (parseInt v).1) := by
  have s : ∀ {α : Type} (o : Option α) (d : α), o.getD d = (match o with | some x => x | none => d) := by
    intro α o d; cases o <;> rfl
  simp only [createEngineConfig, setOr, s]
  refine ⟨?_, ?_, ?_, ?_, ?_, ?_, ?_, ?_, ?_, ?_, ?_, ?_, ?_, ?_, ?_, ?_, ?_⟩
  · cases conf.str? "policies" <;> rfl
  · cases conf.str? "config" <;> rfl
  · cases conf.str? "version" <;> rfl
  · cases conf.str? "jsonschemaversion" <;> rfl
  · cases conf.str? "buildnumber" <;> rfl
  · cases conf.str? "actiondir" <;> rfl
  · cases conf.str? "language" <;> simp [parseLanguage_sigma]
  · cases conf.str? "mode" <;> simp [parseMode_alert]
  · cases conf.str? "monitor" <;> simp [parseMonitor_loc]
  all_goals (intros; simp_all)

/-- **C50** Well-formed decimal values of the numeric attributes are honoured. -/
theorem engine_config_numbers (conf : Conf) (n : Int) (hn : minInt64 ≤ n ∧ n ≤ maxInt64) :
    (conf.str? "concurrency" = some (formatInt n) → (createEngineConfig conf).1.concurrency = n) ∧
    (conf.str? "monitor.interval" = some (formatInt n) → (createEngineConfig conf).1.monitorInterval = n) := by
  have hf := engine_config_fields conf
  have hp := parseInt_formatInt n hn.1 hn.2
  refine ⟨fun h => ?_, fun h => ?_⟩
  · rw [hf.2.2.2.2.2.2.2.2.2.2.2.2.1 _ h, hp]
  · rw [hf.2.2.2.2.2.2.2.2.2.2.1 _ h, hp]; rfl

/-- **C50** Text that is not a decimal integer: the interval keeps its default but the concurrency
becomes 0 (`Atoi` returns 0 and the result is stored without checking the error, config.go:99-101). -/
theorem engine_config_bad_numbers (conf : Conf) (v : Str) (hv : parseSigned v = none) :
    (conf.str? "concurrency" = some v → (createEngineConfig conf).1.concurrency = 0) ∧
    (conf.str? "monitor.interval" = some v → (createEngineConfig conf).1.monitorInterval = 30) := by
  have hf := engine_config_fields conf
  have hp : parseInt v = (0, false) := by simp [parseInt, hv]
  refine ⟨fun h => ?_, fun h => ?_⟩
  · rw [hf.2.2.2.2.2.2.2.2.2.2.2.2.1 _ h, hp]
  · rw [hf.2.2.2.2.2.2.2.2.2.2.1 _ h, hp]; rfl

/-- **C12, C50** Outcome of `PolicyEngine.Init`: an error exactly when policies are required and
missing or do not compile; the bypass exactly in enrich mode without policies; otherwise the configured
number of workers. -/
theorem engine_init_outcome (conf : Conf) (compiles : Bool) :
    let alert := conf.str? "mode" = none ∨ conf.str? "mode" = some "alert".toList
    let noPolicies := conf.str? "policies" = none ∨ conf.str? "policies" = some []
    let c := (createEngineConfig conf).1
    (engineInit conf compiles = .bypass ↔ ¬ alert ∧ noPolicies) ∧
    (engineInit conf compiles = .error ↔ (alert ∧ noPolicies) ∨ (¬ noPolicies ∧ compiles = false)) ∧
    (engineInit conf compiles = .panics ↔ ¬ noPolicies ∧ compiles = true ∧ c.concurrency < 0) ∧
    (∀ n m, engineInit conf compiles = .running n m ↔
      ¬ noPolicies ∧ compiles = true ∧ 0 ≤ c.concurrency ∧ n = c.concurrency ∧ m = (conf.str? "monitor" == some "local".toList)) := by
  intro alert noPolicies c
  obtain ⟨h1, -, -, -, -, -, -, h8, h9, -⟩ := engine_config_fields conf
  have hp : (createEngineConfig conf).1.policiesPath = [] ↔ noPolicies := by
    rw [h1]; cases h : conf.str? "policies" <;> simp [noPolicies, h]
  have hmon : ((createEngineConfig conf).1.monitor == .loc) = (conf.str? "monitor" == some "local".toList) := by
    rw [Bool.eq_iff_iff]; simp only [beq_iff_eq]; exact h9
  have hmode : ¬ alert → (createEngineConfig conf).1.mode = .enrich := by
    intro h; cases hm : (createEngineConfig conf).1.mode
    · rfl
    · exact absurd (h8.1 hm) h
  simp only [engineInit, hmon]
  by_cases hnp : noPolicies
  · rw [if_pos (hp.2 hnp)]
    by_cases ha : alert
    · rw [h8.2 ha]; simp [ha, hnp]
    · rw [hmode ha]; simp [ha, hnp]
  · rw [if_neg (fun h => hnp (hp.1 h))]
    cases compiles
    · simp [hnp]
    · simp only [hnp, if_true]
      by_cases hc : (createEngineConfig conf).1.concurrency < 0
      · rw [if_pos hc]
        have : ¬ 0 ≤ c.concurrency := by show ¬ 0 ≤ (createEngineConfig conf).1.concurrency; omega
        simp [hc, this, c]
      · rw [if_neg hc]
        have : 0 ≤ c.concurrency := by show 0 ≤ (createEngineConfig conf).1.concurrency; omega
        simp [this, hc, c, eq_comm]

/-- `bypassPolicyEngine` for each received record while there is no interpreter
(policyengine.go:136-140, 207-211): the record is handed to `out`, which sends it to every output
channel `0..nOut-1` in turn. Trace of (channel, record) sends. -/
def bypassTrace {R : Type} (nOut : Nat) (input : List R) : List (Nat × R) :=
  input.flatMap (fun r => (List.range nOut).map (fun k => (k, r)))

/-- **C12** In the bypass every output channel receives exactly the input records, unchanged and in
order. -/
theorem bypass_forwards_everything {R : Type} (nOut : Nat) (input : List R) (k : Nat) (hk : k < nOut) :
    ((bypassTrace nOut input).filter (fun e => e.1 == k)).map (·.2) = input := by
  have one : ∀ (n : Nat) (r : R), (((List.range n).map (fun k => (k, r))).filter (fun e => e.1 == k)).map (·.2)
      = if k < n then [r] else [] := by
    intro n r
    induction n with
    | zero => simp
    | succ n ih =>
      rw [List.range_succ, List.map_append, List.filter_append, List.map_append, ih]
      by_cases h1 : k < n
      · have : ¬ n = k := by omega
        simp [h1, this]; omega
      · by_cases h2 : n = k
        · simp [h2]
        · have : ¬ k < n + 1 := by omega
          simp [h1, h2, this]
  induction input with
  | nil => rfl
  | cons r rs ih =>
    show (((List.range nOut).map (fun k => (k, r)) ++ bypassTrace nOut rs).filter _).map _ = _
    rw [List.filter_append, List.map_append, one, ih]
    simp [hk]

/-- **C50** Flattener settings: filter off unless the text is exactly `on`; one day unless a decimal
number of seconds is given. -/
theorem flattener_config_fields (conf : Conf) :
    let c := (createFlattenerConfig conf).1
    (c.filterOn = true ↔ conf.str? "filter.enabled" = some "on".toList) ∧
    (conf.str? "filter.maxage" = none → c.maxAge = 86400) ∧
    (∀ v, conf.str? "filter.maxage" = some v → c.maxAge = if (parseInt v).2 then (parseInt v).1 else 86400) := by
  simp only [createFlattenerConfig, setOr]
  refine ⟨?_, ?_, ?_⟩
  · cases conf.str? "filter.enabled" with
    | none => simp
    | some v =>
      simp only [parseOnOff, Option.some.injEq]
      split
      · rename_i h; subst h; decide
      · split
        · rename_i h; simp [← h]
        · rename_i h; simp; exact fun e => h e.symm
  all_goals (intros; simp_all)

/-- What an exporter configuration must contain. -/
def ExporterConfOK (conf : Conf) : Prop :=
  (∀ v, conf.str? "buffer" = some v → (parseInt v).2 = true) ∧
  (∀ v, conf.str? "syslog.port" = some v → (parseInt v).2 = true) ∧
  (∀ v, conf.str? "es.bulk.numWorkers" = some v → (parseInt v).2 = true) ∧
  (∀ v, conf.str? "es.bulk.flushBuffer" = some v → (parseInt v).2 = true) ∧
  (∃ keys, conf "kafka.config".toList = some (.map keys) ∧ "bootstrap.servers".toList ∈ keys) ∧
  (∃ t, conf.str? "kafka.topic" = some t)

theorem setOr_ok (o : Option Str) : setOr o (fun v => (parseInt v).2) true = true ↔ ∀ v, o = some v → (parseInt v).2 = true := by
  cases o <;> simp [setOr]

theorem createKafka_ok (conf : Conf) (c : ExporterConfig) : (createKafka conf c).2 = true ↔
    (∃ keys, conf "kafka.config".toList = some (.map keys) ∧ "bootstrap.servers".toList ∈ keys) ∧
    (∃ t, conf.str? "kafka.topic" = some t) := by
  unfold createKafka
  generalize "bootstrap.servers".toList = bs
  generalize conf.str? "kafka.topic" = tp
  generalize conf "kafka.config".toList = kc
  cases kc with
  | none => simp
  | some v =>
    cases v with
    | map keys =>
      by_cases hm : bs ∈ keys
      · simp only [hm, if_true, Option.isSome_iff_exists]
        constructor
        · exact fun h => ⟨⟨keys, rfl, hm⟩, h⟩
        · exact fun h => h.2
      · simp only [hm, if_false]
        constructor
        · simp
        · rintro ⟨⟨k, e, hk⟩, -⟩
          simp only [Option.some.injEq, CVal.map.injEq] at e
          subst e; exact absurd hk hm
    | _ => simp

theorem createExporter_isSome (conf : Conf) : (createExporterConfig conf).isSome = true ↔
    setOr (conf.str? "buffer") (fun v => (parseInt v).2) true = true ∧
    setOr (conf.str? "syslog.port") (fun v => (parseInt v).2) true = true ∧
    createElastic conf = true ∧ (createKafka conf {}).2 = true := by
  have e1 : ∀ c, (createSyslog conf c).2 = setOr (conf.str? "syslog.port") (fun v => (parseInt v).2) true := by
    intro c; unfold createSyslog; rfl
  have e2 : ∀ c, (createKafka conf c).2 = (createKafka conf {}).2 := by
    intro c; rw [Bool.eq_iff_iff, createKafka_ok, createKafka_ok]
  unfold createExporterConfig
  generalize setOr (conf.str? "syslog.port") (fun v => (parseInt v).2) true = b2 at *
  generalize (createKafka conf {}).2 = b5 at *
  generalize setOr (conf.str? "buffer") (fun v => (parseInt v).2) true = b1 at *
  generalize createElastic conf = b3 at *
  dsimp only
  rw [e2, e1]
  cases b1 <;> cases b2 <;> cases b3 <;> cases b5 <;> simp

/-- **C50** The exporter's configuration is accepted exactly when its numeric attributes are decimal
integers and a Kafka section is present — whatever the transport (config.go:126-129). -/
theorem exporter_config_accepts_iff (conf : Conf) :
    (createExporterConfig conf).isSome = true ↔ ExporterConfOK conf := by
  rw [createExporter_isSome, setOr_ok, setOr_ok, createKafka_ok, createElastic, Bool.and_eq_true, setOr_ok, setOr_ok]
  unfold ExporterConfOK
  simp only [and_assoc]

/-- **C50** When the exporter's configuration is accepted, each setting is determined by its own key. -/
theorem exporter_config_fields (conf : Conf) (c : ExporterConfig) (h : createExporterConfig conf = some c) :
    c.transport = ((conf.str? "export").map parseTransport).getD .terminal ∧
    c.format = ((conf.str? "format").map parseFormat).getD .json ∧
    c.eventBuffer = ((conf.str? "buffer").map (fun v => (parseInt v).1)).getD 0 ∧
    c.path = (conf.str? "file.path").getD "./export.out".toList ∧
    c.proto = ((conf.str? "syslog.proto").map parseProto).getD .tcp ∧
    c.tag = (conf.str? "syslog.tag").getD "sysflow".toList ∧
    c.host = (conf.str? "syslog.host").getD "localhost".toList ∧
    c.port = ((conf.str? "syslog.port").map (fun v => (parseInt v).1)).getD 514 ∧
    (conf.str? "kafka.topic" = some c.kafkaTopic) := by
  have hok := (exporter_config_accepts_iff conf).1 (by rw [h]; rfl)
  obtain ⟨-, -, -, -, ⟨keys, hk, hb⟩, ⟨t, ht⟩⟩ := hok
  have hs : ∀ {α : Type} (o : Option Str) (g : Str → α) (d : α), setOr o g d = (o.map g).getD d := by
    intro α o g d; cases o <;> rfl
  unfold createExporterConfig at h
  simp only [createKafka, hk, hb, if_true, createSyslog] at h
  split at h
  · exact absurd h (by simp)
  split at h
  · exact absurd h (by simp)
  split at h
  · exact absurd h (by simp)
  split at h
  · exact absurd h (by simp)
  simp only [Option.some.injEq] at h
  subst h
  simp [hs, ht]

/-- The texts that select each transport; any other text selects the terminal. -/
theorem transport_names (s : Str) :
    (parseTransport s = .file ↔ s = "file".toList) ∧ (parseTransport s = .syslog ↔ s = "syslog".toList) ∧
    (parseTransport s = .es ↔ s = "es".toList) ∧ (parseTransport s = .kafka ↔ s = "kafka".toList) ∧
    (parseTransport s = .null ↔ s = "null".toList) := by
  unfold parseTransport
  split
  · rename_i h; subst h; decide
  split
  · rename_i h; subst h; decide
  split
  · rename_i h; subst h; decide
  split
  · rename_i h; subst h; decide
  split
  · rename_i h; subst h; decide
  rename_i h1 h2 h3 h4 h5
  refine ⟨?_, ?_, ?_, ?_, ?_⟩ <;> simp only [reduceCtorEq, false_iff] <;> intro e <;> subst e <;> contradiction

/-- **C50** `Exporter.Init` gives an encoder and transport exactly for the accepted configurations
whose format and transport exist in the build. -/
theorem exporter_init_iff (conf : Conf) :
    ((exporterInit false conf).isSome = true ↔
      ExporterConfOK conf ∧ (conf.str? "format" ≠ some "otel".toList) ∧ (conf.str? "export" ≠ some "kafka".toList)) := by
  have hfo : ∀ s, parseFormat s = .otel ↔ s = "otel".toList := by
    intro s; unfold parseFormat
    split
    · rename_i h; subst h; decide
    split
    · rename_i h; subst h; decide
    split
    · rename_i h; subst h; decide
    · rename_i h; simp only [reduceCtorEq, false_iff]; exact h
  have hacc := exporter_config_accepts_iff conf
  unfold exporterInit
  cases h : createExporterConfig conf with
  | none => rw [h] at hacc; simp at hacc; simp [hacc]
  | some c =>
    rw [h] at hacc
    have hok : ExporterConfOK conf := hacc.1 rfl
    obtain ⟨h1, h2, -⟩ := exporter_config_fields conf c h
    have a1 : c.transport = .kafka ↔ conf.str? "export" = some "kafka".toList := by
      rw [h1]; cases conf.str? "export" with
      | none => simp
      | some v => simp [(transport_names v).2.2.2.1]
    have a2 : c.format = .otel ↔ conf.str? "format" = some "otel".toList := by
      rw [h2]; cases conf.str? "format" with
      | none => simp
      | some v => simp [hfo]
    simp only [hok, true_and, ne_eq, ← a1, ← a2]
    cases hc1 : c.transport <;> cases hc2 : c.format <;> simp [registeredFlat, hc1, hc2]

/-- **C50** The OTel build starts with exactly the usable configurations whose format is `otel` and whose destination is the terminal (also by default), a log file, Kafka or nothing. -/
theorem exporter_init_otel_iff (conf : Conf) :
    ((exporterInit true conf).isSome = true ↔
      ExporterConfOK conf ∧ conf.str? "format" = some "otel".toList ∧ conf.str? "export" ≠ some "syslog".toList ∧ conf.str? "export" ≠ some "es".toList) := by
  have hfo : ∀ s, parseFormat s = .otel ↔ s = "otel".toList := by
    intro s; unfold parseFormat
    split
    · rename_i h; subst h; decide
    split
    · rename_i h; subst h; decide
    split
    · rename_i h; subst h; decide
    · rename_i h; simp only [reduceCtorEq, false_iff]; exact h
  have hacc := exporter_config_accepts_iff conf
  unfold exporterInit
  cases h : createExporterConfig conf with
  | none => rw [h] at hacc; simp at hacc; simp [hacc]
  | some c =>
    rw [h] at hacc
    have hok : ExporterConfOK conf := hacc.1 rfl
    obtain ⟨h1, h2, -⟩ := exporter_config_fields conf c h
    have a1 : c.transport = .syslog ↔ conf.str? "export" = some "syslog".toList := by
      rw [h1]; cases conf.str? "export" with
      | none => simp
      | some v => simp [(transport_names v).2.1]
    have a3 : c.transport = .es ↔ conf.str? "export" = some "es".toList := by
      rw [h1]; cases conf.str? "export" with
      | none => simp
      | some v => simp [(transport_names v).2.2.1]
    have a2 : c.format = .otel ↔ conf.str? "format" = some "otel".toList := by
      rw [h2]; cases conf.str? "format" with
      | none => simp
      | some v => simp [hfo]
    simp only [hok, true_and, ne_eq, ← a1, ← a2, ← a3]
    cases hc1 : c.transport <;> cases hc2 : c.format <;> simp [registeredOtel, hc1, hc2]

/-! ### non-vacuity -/

example : (exporterInit true (ofList [("format", .str "otel".toList), ("kafka.config", .map ["bootstrap.servers".toList]), ("kafka.topic", .str "t".toList)])).isSome = true := by decide

/-- A realistic exporter configuration for the terminal is rejected (it lacks the Kafka section). -/
theorem terminal_without_kafka_rejected :
    exporterInit false (ofList [("export", .str "terminal".toList), ("format", .str "json".toList)]) = none := by decide

example : exporterInit false (ofList [("export", .str "file".toList), ("format", .str "ecs".toList), ("buffer", .str "100".toList),
    ("kafka.config", .map ["bootstrap.servers".toList]), ("kafka.topic", .str "t".toList)])
    = some { transport := .file, format := .ecs, eventBuffer := 100, kafkaTopic := "t".toList } := by decide

example : engineInit (ofList [("mode", .str "enrich".toList)]) true = .bypass := by decide
example : engineInit emptyConf true = .error := by decide
example : engineInit (ofList [("policies", .str "/p".toList), ("concurrency", .str "x".toList)]) true = .running 0 false := by decide
example : engineInit (ofList [("policies", .str "/p".toList), ("monitor", .str "local".toList)]) true = .running 5 true := by decide
example : parseSigned "five".toList = none := by decide
example : bypassTrace 2 [7, 8] = [(0, 7), (1, 7), (0, 8), (1, 8)] := by decide

end Verif.Config
