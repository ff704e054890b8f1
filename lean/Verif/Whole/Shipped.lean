import Verif.Whole.BootRuns
/-
C92: the shipped configurations for SysFlow input.
Sources: /repo/resources/pipelines/*.json
-/
namespace Verif.Whole
open Verif.Decimal (Str)
open Verif.Pipeline

variable {P : Type}

/-- /repo/resources/pipelines/pipeline.distribution.json. -/
def shippedDistribution : List Pipeline.Conf :=
  [[(kProc, .str "sysflowreader".toList), ("handler".toList, .str "flattener".toList), (kIn, .str "sysflow sysflowchan".toList), (kOut, .str "flat flattenerchan".toList)],
   [(kProc, .str "policyengine".toList), (kIn, .str "flat flattenerchan".toList), (kOut, .str "evt eventchan".toList),
    ("policies".toList, .str "/usr/local/sysflow/resources/policies".toList), ("mode".toList, .str "alert".toList)],
   [(kProc, .str "exporter".toList), (kIn, .str "evt eventchan".toList), ("export".toList, .str "syslog".toList), ("format".toList, .str "json".toList),
    ("syslog.proto".toList, .str "tcp".toList), ("syslog.tag".toList, .str "sysflow".toList), ("syslog.host".toList, .str "localhost".toList),
    ("syslog.port".toList, .str "514".toList)]]

/-- /repo/resources/pipelines/pipeline.elk.json. -/
def shippedElk : List Pipeline.Conf :=
  [[(kProc, .str "sysflowreader".toList), ("handler".toList, .str "flattener".toList), (kIn, .str "sysflow sysflowchan".toList), (kOut, .str "flat flattenerchan".toList)],
   [(kProc, .str "policyengine".toList), (kIn, .str "flat flattenerchan".toList), (kOut, .str "evt eventchan".toList),
    ("policies".toList, .str "../resources/policies/distribution/filter.yaml".toList), ("mode".toList, .str "alert".toList)],
   [(kProc, .str "exporter".toList), (kIn, .str "evt eventchan".toList), ("export".toList, .str "es".toList), ("format".toList, .str "ecs".toList),
    ("es.addresses".toList, .str "https://localhost:9200".toList), ("es.index".toList, .str "my-index".toList), ("es.username".toList, .str "elastic".toList),
    ("es.password".toList, .str "changeme".toList), ("es.bulk.numWorkers".toList, .str "1".toList), ("es.bulk.flushBuffer".toList, .str "5000000".toList),
    ("es.bulk.flushTimeout".toList, .str "30s".toList), ("buffer".toList, .str "1000".toList)]]

/-- /repo/resources/pipelines/pipeline.findings.json. -/
def shippedFindings : List Pipeline.Conf :=
  [[(kProc, .str "sysflowreader".toList), ("handler".toList, .str "flattener".toList), (kIn, .str "sysflow sysflowchan".toList), (kOut, .str "flat flattenerchan".toList)],
   [(kProc, .str "policyengine".toList), (kIn, .str "flat flattenerchan".toList), (kOut, .str "evt eventchan".toList),
    ("policies".toList, .str "../resources/policies/distribution/filter.yaml".toList), ("mode".toList, .str "alert".toList)],
   [(kProc, .str "exporter".toList), (kIn, .str "evt eventchan".toList), ("export".toList, .str "es".toList), ("format".toList, .str "ecs".toList),
    ("findings.apikey".toList, .str "findings API key (do not set it if reading from secret vault)".toList),
    ("findings.url".toList, .str "findings API URL (default: https://us-south.secadvisor.cloud.ibm.com/findings".toList),
    ("findings.accountid".toList, .str "findings API account ID".toList), ("findings.provider".toList, .str "findings API provider".toList),
    ("findings.sqlqueryurl".toList, .str "SQL Query URL (default: https://us.sql-query.cloud.ibm.com/sqlquery)".toList),
    ("findings.sqlquerycrn".toList, .str "SQL Query instance crn".toList), ("findings.region".toList, .str "findings API region".toList),
    ("findings.s3region".toList, .str "S3 region".toList), ("findings.s3bucket".toList, .str "S3 bucket".toList),
    ("findings.path".toList, .str "findings events path (default: /mnt/occurrences)".toList),
    ("findings.pool.capacity".toList, .str "findings event pool capacity (default: 250)".toList),
    ("findings.pool.maxage".toList, .str "findings event pool age limit in minutes (default: 1440)".toList),
    ("vault.secrets".toList, .str "true|false (set to true if using vaults)".toList)]]

/-- /repo/resources/pipelines/pipeline.template.json. -/
def shippedTemplate : List Pipeline.Conf :=
  [[(kProc, .str "sysflowreader".toList), ("handler".toList, .str "flattener".toList), (kIn, .str "sysflow sysflowchan".toList), (kOut, .str "flat flattenerchan".toList),
    ("filter.enabled".toList, .str "on|off (default: off)".toList), ("filter.maxage".toList, .str "time decay in minutes (default: 24H)".toList)],
   [(kProc, .str "policyengine".toList), (kIn, .str "flat flattenerchan".toList), (kOut, .str "evt eventchan".toList),
    ("policies".toList, .str "file|dir path (default: /usr/local/sf-processor/conf/)".toList), ("mode".toList, .str "alert|enrich (default: enrich)".toList),
    ("monitor".toList, .str "none|local (default: none)".toList), ("monitor.interval".toList, .str "policy monitoring interval (default is 30 seconds)".toList),
    ("concurrency".toList, .str "number of engine threads (default is 5)".toList), ("actiondir".toList, .str "dir path to action .so files".toList)],
   [(kProc, .str "exporter".toList), (kIn, .str "evt eventchan".toList), ("export".toList, .str "terminal|file|syslog|es|findings|null (default: terminal)".toList),
    ("format".toList, .str "json|ecs|occurrence".toList), ("buffer".toList, .str "event aggregation buffer (default: 0)".toList),
    ("vault.secrets".toList, .str "true|false".toList), ("vault.path".toList, .str "/run/secrets (default)".toList),
    ("file.path".toList, .str "output file path (default: ./export.out)".toList), ("syslog.proto".toList, .str "rsyslog protocol tcp|udp|tcp+tls (default: tcp)".toList),
    ("syslog.tag".toList, .str "rsyslog tag (default: sysflow)".toList), ("syslog.source".toList, .str "rsyslog source hostname (default: hostname)".toList),
    ("syslog.host".toList, .str "rsyslog host (default: localhost)".toList), ("syslog.port".toList, .str "ryslog port (default: 514)".toList),
    ("es.addresses".toList, .str "ip1,ip2,... (comma-separated list)".toList), ("es.index".toList, .str "elastic index (default: sysflow)".toList),
    ("es.username".toList, .str "elastic username (do not set it if reading from secret vault)".toList),
    ("es.password".toList, .str "elastic password (do not set it if reading from secret vault)".toList),
    ("es.bulk.numWorkers".toList, .str "number of bulk exporter workers (default: 0)".toList),
    ("es.bulk.flushBuffer".toList, .str "bulk exporter buffer size (default: 5000000)".toList),
    ("es.bulk.flushTimeout".toList, .str "bulk exporter flush timeout in seconds (default: 30)".toList),
    ("findings.apikey".toList, .str "findings API key (do not set it if reading from secret vault)".toList),
    ("findings.url".toList, .str "findings API URL (default: https://us-south.secadvisor.cloud.ibm.com/findings".toList),
    ("findings.accountid".toList, .str "findings API account ID".toList), ("findings.provider".toList, .str "findings API provider".toList),
    ("findings.note".toList, .str "findings API node ID".toList),
    ("findings.sqlqueryurl".toList, .str "SQL Query URL (default: https://us.sql-query.cloud.ibm.com/sqlquery)".toList),
    ("findings.sqlquerycrn".toList, .str "SQL Query instance crn".toList), ("findings.region".toList, .str "findings API region".toList),
    ("findings.path".toList, .str "findings events path (default: /mnt/occurrences)".toList),
    ("findings.pool.capacity".toList, .str "findings event pool capacity (default: 250)".toList),
    ("findings.pool.maxage".toList, .str "findings event pool age limit in minutes (default: 1440)".toList)]]

/-- /repo/resources/pipelines/pipeline.terminal.json. -/
def shippedTerminal : List Pipeline.Conf :=
  [[(kProc, .str "sysflowreader".toList), ("handler".toList, .str "flattener".toList), (kIn, .str "sysflow sysflowchan".toList), (kOut, .str "flat flattenerchan".toList)],
   [(kProc, .str "policyengine".toList), (kIn, .str "flat flattenerchan".toList), (kOut, .str "evt eventchan".toList),
    ("policies".toList, .str "/etc/sysflow/policies/distribution/filter.yaml".toList), ("mode".toList, .str "alert".toList)],
   [(kProc, .str "exporter".toList), (kIn, .str "evt eventchan".toList), ("export".toList, .str "terminal".toList), ("format".toList, .str "json".toList)]]

/-- The stages of a usual configuration without a Kafka section. -/
def NoKafka (cs : List Pipeline.Conf) : Prop := ∃ c1 c2 c3 a b d, cs = [c1, c2, c3] ∧ Usual c1 c2 c3 a b d ∧ c3.get "kafka.config".toList = none

/-- The configurations shipped for SysFlow input: all in /repo/resources/pipelines but pipeline.otel.json. -/
def shippedSysflow : List (List Pipeline.Conf) := [shippedLocal, shippedDistribution, shippedElk, shippedFindings, shippedTemplate, shippedTerminal]

theorem shipped_usual : ∀ cs ∈ shippedSysflow, NoKafka cs := by
  intro cs hcs
  unfold shippedSysflow at hcs
  simp only [List.mem_cons, List.not_mem_nil, or_false] at hcs
  rcases hcs with rfl | rfl | rfl | rfl | rfl | rfl
  all_goals
    exact ⟨_, _, _, "sysflow".toList, "flat".toList, "evt".toList, rfl, ⟨by decide +kernel, by decide +kernel, by decide +kernel, by decide +kernel, ⟨_, rfl, by decide +kernel⟩, ⟨_, rfl, by decide +kernel⟩,
      ⟨_, "flattenerchan".toList, rfl, by decide +kernel⟩, ⟨_, rfl, by decide +kernel⟩, ⟨_, "eventchan".toList, rfl, by decide +kernel⟩, by decide +kernel, by decide, by decide, by decide⟩, by decide +kernel⟩

/-- **C92** None of the configurations shipped for SysFlow input is ever loaded: not in any build or environment, with whatever policies. -/
theorem shipped_never_load (W : World P) (m : Manifest) (env : List Str) : ∀ cs ∈ shippedSysflow, ∀ l : Load Factory, loadStages W.env { regs := bootRegs } (setManifest m env cs) ≠ .done l := by
  intro cs hcs l
  obtain ⟨c1, c2, c3, a, b, d, e, u, hk⟩ := shipped_usual cs hcs
  obtain ⟨c1', c2', c3', e', u', hg⟩ := usual_manifest m env u
  rw [e, e']
  refine no_kafka_never_loads W u' ?_ l
  rintro ⟨es, h1, -⟩
  unfold xconf at h1
  rw [(hg "kafka.config".toList (by decide)).2.2, hk] at h1
  cases h1

end Verif.Whole
