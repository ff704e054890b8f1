import Verif.Whole.BootProps
import Verif.Whole.Sane
import Verif.Pipeline.ConfigProps
/-
C92: from pipeline.json, environment and build to a complete log; and configurations that cannot be loaded.
-/
namespace Verif.Whole
open Verif.Decimal (Str)
open Verif.Exporter (Bytes)
open Verif.FlatRecord
open Verif.Policy
open Verif.Falco
open Verif.Processor (Rec HCall OlderParents)
open Verif.Flattener (FLib)
open Verif.Pipeline
open Verif.Pipeline.Process
open Verif.Config (XConf XVal XConfig ConfEnv EngineConfig createConfigX createEngineConfig createFlattenerConfig engineInit)

variable {P : Type}

/-! ### Specification -/

/-- The world the program finds and the configuration it is given, in order: policies `dss` that parse and compile without cyclic definitions, actions that leave telemetry and rules alone, at least
one worker, no duplicate filter, plain names in the SysFlow library, and a build whose JSON schema version is a number. -/
structure World.Ok (W : World P) (m : Manifest) (c1 c2 : Pipeline.Conf) (dss : P → List (List Decl)) : Prop where
  str : StrRule W.str
  parse : ∀ p, List.Forall₂ (fun s ds => GPolicy (ltokens W.str s) ds) (W.texts p) (dss p)
  acyclic : ∀ p, ∀ x ∈ sites (dss p), ∀ e, siteCond x = some e → ¬ Cyclic x.2 e
  compiled : ∀ p, ∃ n, compile (flatOps W.L getMappers) n ((W.texts p).map (fileOf W.str)) = some (some (W.code p))
  benign : Benign W.builtIn W.user
  workers : 0 < (engineConf c2).concurrency
  dedup : (createFlattenerConfig (Config.toConf (xconf c1))).1.filterOn = false
  lib : Json.Spec.LibOk W.L
  version : Json.Spec.VersionOk (Utf8.bytes m.jsonSchema)

/-! ### Proofs -/

theorem schema_version {env : ConfEnv} {conf : XConf} {x : XConfig} (h : createConfigX env conf = some x) :
    x.jsonSchemaVersion = Config.setOr (conf.str? "jsonschemaversion") id [] := by
  unfold createConfigX at h
  split at h
  · cases h
  · dsimp only at h
    split at h
    · cases h
    · split at h
      · cases h
      · split at h
        · cases h
        · split at h
          · cases h
          · cases h; rfl

theorem globals_keys (m : Manifest) (env : List Str) :
    (globals m env).map (·.1) = ["version".toList, "jsonschemaversion".toList, "ecsversion".toList, "buildnumber".toList, "cluster.id".toList] := rfl

/-- The global items do not touch what makes a configuration usual. -/
theorem usual_manifest (m : Manifest) (env : List Str) {c1 c2 c3 : Pipeline.Conf} {a b d : Str} (u : Usual c1 c2 c3 a b d) :
    ∃ c1' c2' c3', setManifest m env [c1, c2, c3] = [c1', c2', c3'] ∧ Usual c1' c2' c3' a b d ∧
      ∀ k, k ∉ ["version".toList, "jsonschemaversion".toList, "ecsversion".toList, "buildnumber".toList, "cluster.id".toList] →
        c1'.get k = c1.get k ∧ c2'.get k = c2.get k ∧ c3'.get k = c3.get k := by
  obtain ⟨hl, c1', h1, -, g1⟩ := global_items m env [c1, c2, c3] 0 c1 rfl
  obtain ⟨-, c2', h2, -, g2⟩ := global_items m env [c1, c2, c3] 1 c2 rfl
  obtain ⟨-, c3', h3, -, g3⟩ := global_items m env [c1, c2, c3] 2 c3 rfl
  rw [globals_keys] at g1 g2 g3
  have hall : setManifest m env [c1, c2, c3] = [c1', c2', c3'] := by
    generalize setManifest m env [c1, c2, c3] = r at hl h1 h2 h3
    match r, hl with
    | [x, y, z], _ => cases h1; cases h2; cases h3; rfl
  have e1 : ∀ k, k ∉ ["version".toList, "jsonschemaversion".toList, "ecsversion".toList, "buildnumber".toList, "cluster.id".toList] → c1'.get k = c1.get k := fun k hk => g1 k fun _ => hk
  have e2 : ∀ k, k ∉ ["version".toList, "jsonschemaversion".toList, "ecsversion".toList, "buildnumber".toList, "cluster.id".toList] → c2'.get k = c2.get k := fun k hk => g2 k fun _ => hk
  have e3 : ∀ k, k ∉ ["version".toList, "jsonschemaversion".toList, "ecsversion".toList, "buildnumber".toList, "cluster.id".toList] → c3'.get k = c3.get k := fun k hk => g3 k fun _ => hk
  refine ⟨c1', c2', c3', hall, ?_, fun k hk => ⟨e1 k hk, e2 k hk, e3 k hk⟩⟩
  constructor
  · unfold strAt; rw [e1 _ (by decide)]; exact u.reader
  · unfold strAt; rw [e1 _ (by decide)]; exact u.handler
  · unfold strAt; rw [e2 _ (by decide)]; exact u.engine
  · unfold strAt; rw [e3 _ (by decide)]; exact u.exporter
  · unfold declared; rw [e1 _ (by decide)]; exact u.in1
  · unfold declared; rw [e1 _ (by decide)]; exact u.out1
  · unfold declared; rw [e2 _ (by decide)]; exact u.in2
  · unfold declared; rw [e2 _ (by decide)]; exact u.out2
  · unfold declared; rw [e3 _ (by decide)]; exact u.in3
  · rw [e3 _ (by decide)]; exact u.out3
  · exact u.ab
  · exact u.bd
  · exact u.ad

/-- The schema version in force is the build's, whatever pipeline.json and the environment say. -/
theorem build_version (W : World P) {m : Manifest} {env : List Str} {cs : List Pipeline.Conf} {c1 c2 c3 : Pipeline.Conf} {a b d : Str} (hm : setManifest m env cs = [c1, c2, c3])
    (u : Usual c1 c2 c3 a b d) {x : XConfig} (h : createConfigX W.secrets (xconf c3) = some x) : x.jsonSchemaVersion = m.jsonSchema := by
  have hlen : cs.length = 3 := by
    have := congrArg List.length hm
    simpa [setManifest, addGlobal] using this
  have h2 : cs[2]? = some (cs[2]'(by omega)) := List.getElem?_eq_getElem _
  obtain ⟨-, c', hc', hin, hout⟩ := global_items m env cs 2 _ h2
  rw [hm] at hc'
  have hc' : c3 = c' := Option.some.inj hc'
  subst hc'
  have hproc : (cs[2].get kProc).isSome = true := by
    have hne : c3.get kProc = cs[2].get kProc := by
      apply hout
      intro _
      rw [globals_keys]
      decide
    rw [← hne]
    have := u.exporter
    unfold strAt at this
    have e : c3.get "processor".toList = c3.get kProc := rfl
    rw [e] at this
    cases hc : c3.get kProc with
    | none => rw [hc] at this; cases this
    | some _ => rfl
  have hv := hin hproc ("jsonschemaversion".toList, m.jsonSchema) (by unfold globals; exact List.mem_cons_of_mem _ List.mem_cons_self)
  rw [schema_version h]
  have : (xconf c3).str? "jsonschemaversion" = some m.jsonSchema := by
    unfold XConf.str? xconf
    rw [hv]
    rfl
  rw [this]
  rfl

theorem setup_ok (W : World P) {m : Manifest} {c1 c2 : Pipeline.Conf} {dss : P → List (List Decl)} (ok : W.Ok m c1 c2 dss) {x : XConfig} (hx : x.jsonSchemaVersion = m.jsonSchema) (p : P) :
    (W.setup c1 c2 x p).Ok dss := by
  refine ⟨⟨⟨ok.str, ok.parse, ok.acyclic, ok.compiled, ok.benign, ?_, ?_⟩, ok.lib, ?_⟩, ok.dedup⟩
  · change 0 < (engineConf c2).concurrency.toNat
    have := ok.workers
    omega
  · change 0 < 100000
    decide
  · change Json.Spec.VersionOk (Utf8.bytes x.jsonSchemaVersion)
    rw [hx]
    exact ok.version

/-- **C92** From pipeline.json (`cs`, after the environment's overrides), the build and the environment to the log: a usual configuration with JSON export to a file is loaded, and the network it starts
is one on which every run of the file driver, over files that can be opened with records whose process parents are older, whatever the schedule, ends without an error and with a complete log. -/
theorem boot_file_run (W : World P) {m : Manifest} {env : List Str} {cs : List Pipeline.Conf} {c1 c2 c3 : Pipeline.Conf} {a b d : Str} (hm : setManifest m env cs = [c1, c2, c3])
    (u : Usual c1 c2 c3 a b d) {x : XConfig} {p : P} (h : W.Ready c2 c3 x p) (hf : x.format = .json) (ht : x.transport = .file) (hw : ∀ k, W.writes k = none)
    {dss : P → List (List Decl)} (ok : W.Ok m c1 c2 dss) :
    ∃ l, loadStages W.env { regs := bootRegs } (setManifest m env cs) = .done l ∧ netOf W.comp (setManifest m env cs) l chanSize = (W.setup c1 c2 x p).net ∧
      ∀ fs : List (FileData Rec), (∀ f ∈ fs, f ≠ .noOpen) → OlderParents (recordsIn fs) → (recordsIn fs).length ≤ W.fuel →
      ∀ (tr : List (Drain.Obs Msg)) (s : PSt Rec (W.setup c1 c2 x p).net), PExec Msg.sf (W.setup c1 c2 x p).net (fileDriver (fun _ => true) (some fs)) tr s → ∀ e, s.status = some e →
        e = false ∧ LogComplete (W.setup c1 c2 x p) dss (recordsIn fs) ((W.setup c1 c2 x p).log s.net) := by
  obtain ⟨l, h1, -, -, h4⟩ := usual_boots W u h
  have hok := setup_ok W ok (build_version W hm u h.conf) p
  rw [hm]
  refine ⟨l, h1, h4.trans (usual_file_json W c1 c2 hf ht hw), ?_⟩
  intro fs hopen hold hfuel tr s hx e he
  exact sane_file_run (W.setup c1 c2 x p) dss hok fs hopen hold hfuel hx he

/-! ### Configurations that cannot be loaded -/

theorem needs_kafka {env : ConfEnv} {conf : XConf} (hk : ¬ Config.BrokersGiven conf) : createConfigX env conf = none := by
  have : Config.createKafkaX conf = none := by
    cases hc : Config.createKafkaX conf with
    | none => rfl
    | some k => exact absurd ((Config.createKafkaX_some conf).1 (by rw [hc]; rfl)).1 hk
  unfold createConfigX
  cases Config.createVault env conf with
  | none => rfl
  | some v =>
    dsimp only
    split
    · rfl
    · split
      · rfl
      · split
        · rfl
        · rw [this]

/-- A usual configuration is never loaded if its exporter cannot be initialised. -/
theorem exporter_never_loads (W : World P) {c1 c2 c3 : Pipeline.Conf} {a b d : Str} (u : Usual c1 c2 c3 a b d) (hx : ∀ r, W.env.init .exporter c3 r = .err) (l : Load Factory) :
    loadStages W.env { regs := bootRegs } [c1, c2, c3] ≠ .done l := by
  have hinit : ∀ r, W.env.init .engine c2 r = .ok r ∨ W.env.init .engine c2 r = .err ∨ W.env.init .engine c2 r = .panic := by
    intro r
    unfold World.env
    dsimp only
    split
    · exact .inr (.inl rfl)
    · exact .inr (.inr rfl)
    · exact .inl rfl
  rw [loadStages_cons (usual_first W u)]
  rcases hinit fullRegs with he | he | he
  · rw [loadStages_cons (usual_second W u he)]
    unfold loadStages loadStage
    rw [show strAt c3 kProc = _ from u.exporter]
    dsimp only
    rw [show W.env.getProc (afterEngine a b d).regs _ = _ from full_exporter W]
    dsimp only
    rw [hx]
    intro h; cases h
  all_goals
    unfold loadStages loadStage
    rw [show strAt c2 kProc = _ from u.engine]
    dsimp only
    rw [show W.env.getProc (afterReader a b).regs _ = _ from full_engine W]
    dsimp only
    rw [he]
    intro h; cases h

/-- **C92** A usual configuration is never loaded if its exporter stage does not name Kafka brokers, whatever its transport. -/
theorem no_kafka_never_loads (W : World P) {c1 c2 c3 : Pipeline.Conf} {a b d : Str} (u : Usual c1 c2 c3 a b d) (hk : ¬ Config.BrokersGiven (xconf c3)) (l : Load Factory) :
    loadStages W.env { regs := bootRegs } [c1, c2, c3] ≠ .done l := by
  refine exporter_never_loads W u (fun r => ?_) l
  unfold World.env
  dsimp only
  rw [needs_kafka hk]

/-- /repo/resources/pipelines/pipeline.local.json. -/
def shippedLocal : List Pipeline.Conf :=
  [[(kProc, .str "sysflowreader".toList), ("handler".toList, .str "flattener".toList), (kIn, .str "sysflow sysflowchan".toList), (kOut, .str "flat flattenerchan".toList)],
   [(kProc, .str "policyengine".toList), (kIn, .str "flat flattenerchan".toList), (kOut, .str "evt eventchan".toList),
    ("policies".toList, .str "/etc/sysflow/policies/distribution/filter.yaml".toList), ("mode".toList, .str "alert".toList)],
   [(kProc, .str "exporter".toList), (kIn, .str "evt eventchan".toList), ("export".toList, .str "syslog".toList), ("format".toList, .str "json".toList),
    ("syslog.proto".toList, .str "udp".toList), ("syslog.tag".toList, .str "sysflow".toList), ("syslog.host".toList, .str "localhost".toList), ("syslog.port".toList, .str "514".toList)]]

theorem local_usual : ∃ c1 c2 c3, shippedLocal = [c1, c2, c3] ∧ Usual c1 c2 c3 "sysflow".toList "flat".toList "evt".toList ∧ c3.get "kafka.config".toList = none :=
  ⟨_, _, _, rfl, ⟨by decide +kernel, by decide +kernel, by decide +kernel, by decide +kernel, ⟨_, rfl, by decide +kernel⟩, ⟨_, rfl, by decide +kernel⟩, ⟨_, "flattenerchan".toList, rfl, by decide +kernel⟩,
    ⟨_, rfl, by decide +kernel⟩, ⟨_, "eventchan".toList, rfl, by decide +kernel⟩, by decide +kernel, by decide, by decide, by decide⟩, by decide +kernel⟩

/-- **C92** The configuration shipped as pipeline.local.json (export to syslog) is never loaded: not in any build or environment, with whatever policies. -/
theorem shipped_local_never_loads (W : World P) (m : Manifest) (env : List Str) (l : Load Factory) : loadStages W.env { regs := bootRegs } (setManifest m env shippedLocal) ≠ .done l := by
  obtain ⟨c1, c2, c3, e, u, hk⟩ := local_usual
  obtain ⟨c1', c2', c3', e', u', hg⟩ := usual_manifest m env u
  rw [e, e']
  refine no_kafka_never_loads W u' ?_ l
  rintro ⟨es, h1, -⟩
  unfold xconf at h1
  rw [(hg "kafka.config".toList (by decide)).2.2, hk] at h1
  cases h1

/-! ### Example -/

/-- A configuration with four workers and JSON to a file, with the Kafka section it needs. -/
def demoConfs : List Pipeline.Conf :=
  [[(kProc, .str "sysflowreader".toList), ("handler".toList, .str "flattener".toList), (kIn, .str "sysflow sysflowchan".toList), (kOut, .str "flat flattenerchan".toList)],
   [(kProc, .str "policyengine".toList), (kIn, .str "flat flattenerchan".toList), (kOut, .arr [some "evt eventchan".toList]), ("policies".toList, .str "p".toList), ("concurrency".toList, .str "4".toList)],
   [(kProc, .str "exporter".toList), (kIn, .str "evt eventchan".toList), ("export".toList, .str "file".toList), ("buffer".toList, .str "3".toList), ("kafka.topic".toList, .str "t".toList),
    ("kafka.config".toList, .map [("bootstrap.servers".toList, .str "h".toList)])]]

def demoWorld (code : List (Rule Record) × List (Filter Record)) : World Unit where
  F := ⟨fun _ => [], fun _ => [], fun _ => 0⟩
  E := Ecs.demoELib
  ecs := fun _ => Ecs.demoConf
  str := simpleStr
  texts := fun _ => [lsText]
  code := fun _ => code
  policyAt := fun c => if c.policiesPath = "p".toList then some () else none
  pending := [(), ()]
  builtIn := fun _ => none
  user := fun _ => none
  sipAlias := true
  opens := fun _ => true
  writes := fun _ => none
  sends := fun _ => true
  secrets := ⟨fun _ => none, fun _ => none⟩
  load := fun _ => none
  loadHandler := fun _ _ => none
  fuel := 10
  clock := fun _ _ => 0
  start := 0

def demoManifest : Manifest := ⟨"0.6".toList, "5".toList, "8".toList, "1".toList⟩

def demoConfs' : List Pipeline.Conf := setManifest demoManifest ["CLUSTER_ID=x".toList] demoConfs

theorem demo_usual : ∃ c1 c2 c3, setManifest demoManifest ["CLUSTER_ID=x".toList] demoConfs = [c1, c2, c3] ∧ Usual c1 c2 c3 "sysflow".toList "flat".toList "evt".toList ∧
    c1 = demoConfs'[0]'(by decide +kernel) ∧ c2 = demoConfs'[1]'(by decide +kernel) ∧ c3 = demoConfs'[2]'(by decide +kernel) := by
  obtain ⟨c1, c2, c3, h1, h2, -⟩ := usual_manifest (c1 := demoConfs[0]) (c2 := demoConfs[1]) (c3 := demoConfs[2]) (a := "sysflow".toList) (b := "flat".toList) (d := "evt".toList)
    demoManifest ["CLUSTER_ID=x".toList]
    ⟨by decide +kernel, by decide +kernel, by decide +kernel, by decide +kernel, ⟨_, rfl, by decide +kernel⟩, ⟨_, rfl, by decide +kernel⟩, ⟨_, "flattenerchan".toList, rfl, by decide +kernel⟩,
      ⟨_, rfl, by decide +kernel⟩, ⟨_, "eventchan".toList, rfl, by decide +kernel⟩, by decide +kernel, by decide, by decide, by decide⟩
  have e : demoConfs' = [c1, c2, c3] := h1
  refine ⟨c1, c2, c3, h1, h2, ?_, ?_, ?_⟩ <;> simp only [e] <;> rfl

/-- The settings that the demo configuration stands for. -/
theorem demo_settings : (engineConf (demoConfs'[1]'(by decide +kernel))).policiesPath = "p".toList ∧ (engineConf (demoConfs'[1]'(by decide +kernel))).concurrency = 4 ∧
    (engineConf (demoConfs'[1]'(by decide +kernel))).mode = .alert ∧
    (createFlattenerConfig (Config.toConf (xconf (demoConfs'[0]'(by decide +kernel))))).1.filterOn = false ∧
    (createConfigX ⟨fun _ => none, fun _ => none⟩ (xconf (demoConfs'[2]'(by decide +kernel)))).map (fun x => (x.format, x.transport, x.eventBuffer)) = some (.json, .file, 3) := by
  decide +kernel

open Classical in
/-- The hypotheses of `boot_file_run` are met: the demo configuration starts the program, which runs to the end on a file, with a complete log. -/
example : ∃ code c1 c2 c3 x l tr, setManifest demoManifest ["CLUSTER_ID=x".toList] demoConfs = [c1, c2, c3] ∧ loadStages (demoWorld code).env { regs := bootRegs } [c1, c2, c3] = .done l ∧
    netOf (demoWorld code).comp [c1, c2, c3] l chanSize = ((demoWorld code).setup c1 c2 x ()).net ∧ ∃ s : PSt Rec ((demoWorld code).setup c1 c2 x ()).net,
    PExec Msg.sf ((demoWorld code).setup c1 c2 x ()).net (fileDriver (fun _ => true) (some [.data (Processor.saneStream.map .record)])) tr s ∧ s.status = some false ∧
    LogComplete ((demoWorld code).setup c1 c2 x ()) (fun _ => [lsDecls]) Processor.saneStream (((demoWorld code).setup c1 c2 x ()).log s.net) := by
  obtain ⟨k, rules, filters, hcomp, _⟩ := policy_texts_to_alerts demoLib simple_rule [lsText] [lsDecls] (.cons ls_parses .nil) ls_acyclic
  obtain ⟨c1, c2, c3, hm, hu, e1, e2, e3⟩ := demo_usual
  obtain ⟨s1, s2, s3, s4, s5⟩ := demo_settings
  rw [← e2] at s1 s2 s3
  rw [← e1] at s4
  rw [← e3] at s5
  obtain ⟨x, hx, hs⟩ := Option.map_eq_some_iff.1 s5
  simp only [Prod.mk.injEq] at hs
  obtain ⟨f1, f2, f3⟩ := hs
  have hready : (demoWorld (rules, filters)).Ready c2 c3 x () := by
    refine ⟨by rw [s1]; decide, ?_, by rw [s2]; decide, hx, ?_⟩
    · change (if (engineConf c2).policiesPath = "p".toList then some () else none) = _
      rw [if_pos s1]
    · unfold World.exports
      rw [f1, f2]
      rfl
  have hok : (demoWorld (rules, filters)).Ok demoManifest c1 c2 (fun _ => [lsDecls]) := by
    refine ⟨simple_rule, fun _ => .cons ls_parses .nil, fun _ => ls_acyclic, fun _ => ⟨k, hcomp⟩, ?_, by rw [s2]; decide, s4, Json.demo_ok, ?_⟩
    · intro a f hf
      rcases hf with hf | hf <;> cases hf
    · exact Json.demo_version
  obtain ⟨l, h1, h2, h3⟩ := boot_file_run (demoWorld (rules, filters)) hm hu hready f1 f2 (fun _ => rfl) hok
  have hopen : ∀ f ∈ [FileData.data (Processor.saneStream.map .record)], f ≠ .noOpen := by
    intro f hf
    rw [List.mem_singleton.1 hf]; intro h; cases h
  obtain ⟨hT, hC⟩ := net_ok ((demoWorld (rules, filters)).setup c1 c2 x ()) (by change 0 < (engineConf c2).concurrency.toNat; rw [s2]; decide) (by change 0 < 100000; decide)
  obtain ⟨body, b1, b2, _⟩ := file_driver_delivers (fun _ => true) (fun _ h => h) _ hopen
  obtain ⟨tr, s, hx, he⟩ := complete_run hT hC ⟨b1, b2⟩ Msg.sf
  have := h3 _ hopen (by change OlderParents Processor.saneStream; exact Processor.sane_older) (by change 7 ≤ 10; decide) tr s hx _ he
  rw [hm] at h1 h2
  exact ⟨(rules, filters), c1, c2, c3, x, l, tr, hm, h1, h2, s, hx, he, this.2⟩

end Verif.Whole
