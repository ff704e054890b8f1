import Verif.Whole.OutReload
import Verif.Whole.SigmaEffect
/-
C123: Sigma rules with every output: terminal, syslog, a file or Elastic that may fail; with the rules given at the start, and with a directory of rules that changes.
Sources: /repo/core/policyengine/policyengine.go:76-206, 221-234, /repo/core/policyengine/monitor/localpolicymonitor.go:51-231, /repo/core/policyengine/policy/sigma/compiler.go:53-117,
/repo/core/exporter/transports/terminal.go:44-56, syslog.go:47-82, file.go:43-72, elastic.go:60-139, and the sources of the whole program (Verif/Whole/Program.lean, Verif/Whole/Boot.lean)
-/
namespace Verif.Whole
open Verif.Decimal (Str)
open Verif.Exporter (Bytes GetsThrough KeptOf RequestsFor)
open Verif.FlatRecord
open Verif.Policy
open Verif.Falco (Benign)
open Verif.Sigma (RuleFile ConfigFile FieldMappings SigmaRule Supported Configures)
open Verif.Processor (Rec HCall OlderParents)
open Verif.Flattener (eventsAfter StoresEvent)
open Verif.Pipeline
open Verif.Pipeline.Process
open Verif.Pipeline.Drain (driven rootClosed Waited Exec sync engine exporter chain)
open Verif.Config (XConf XVal XConfig ConfEnv EngineConfig createConfigX createEngineConfig createFlattenerConfig engineInit)

variable {P : Type}

/-! ### Specification -/

/-- Messages are complete for the events `evs` under the sequence `pols` of sets of Sigma rules: the events fall into consecutive stretches, one for each of these sets; the messages are, stretch by stretch, one for
each event of which some condition of the rules of its set is true (for every event, in enrich mode); in the order of the events if there is one worker. `Line` describes the message of an event. -/
def SigmaMessages (S : Setup P) (Q : P → SigmaPolicy) (Line : P → Event → Bytes → Prop) (pols : List P) (evs : List Event) (ms : List Bytes) : Prop :=
  MessagesAs S (fun p => SigmaLogged S (Q p)) Line pols evs ms

/-- Documents for Elastic are complete under such a sequence; each carries the rules of exactly the conditions that are true of its event. -/
def SigmaSent (S : Setup P) (E : EcsSide S) (Q : P → SigmaPolicy) (pols : List P) (evs : List Event) (docs : List (Bytes × Bytes)) : Prop :=
  SentAs S E (fun p => SigmaLogged S (Q p)) (fun p => sigmaVerdict S.L (Q p)) pols evs docs

/-- The message of an event in the configured format, a JSON record or an ECS document, carrying the rules of exactly the conditions that are true of it. -/
def World.SigmaMessage (W : World P) (Q : P → SigmaPolicy) (c1 c2 : Pipeline.Conf) (x : XConfig) (p : P) (q : P) (y : Event) (line : Bytes) : Prop :=
  match x.format with
  | .ecs => ∃ id, DocWith (W.setup c1 c2 x p) (W.ecsSide c1 c2 x p) (sigmaVerdict W.L (Q q)) y id line
  | _ => SigmaLine (W.setup c1 c2 x p) (Q q) y line

/-! ### Proofs -/

open Classical in
/-- Without a changing directory: what the transport has done with messages complete under the first policies and then any adopted. -/
theorem out_result_as {X : Type} (S : Setup P) (hwork : 0 < S.workers) (hcap : 0 < S.cap) (hdedup : S.dedup = false) {Want : P → Event → Prop} {Alert : P → Event → Msg → Prop}
    (hstep : ∀ p x fr, StoresEvent S.F x fr → (¬ Want p x → S.proc p (.flat fr) = none) ∧ (Want p x → ∃ m, S.proc p (.flat fr) = some m ∧ Alert p x m))
    {enc : Msg → Option Exporter.Datum} {Line : P → Event → Bytes → Prop} (henc : EncodesAs enc Alert Line) {T : Exporter.Transport X Exporter.Datum} {x0 : X} {Result : List Bytes → X → Prop}
    (hT : Delivers S enc T x0 Result) {rs : List Rec} {rd : Processor.State} {cs : List HCall} (hrun : Processor.run false S.fuel .init rs = some (rd, cs))
    {tr : List (Drain.Obs Msg)} {s : Drain.St (S.outNet enc T x0)} (h : Exec (S.outNet enc T x0) tr s) (hw : Waited s) (hd : driven tr = rs.map Msg.sf) :
    ∃ rest ms, MessagesAs S Want Line (S.policies :: rest) (eventsAfter [] rs) ms ∧ Result ms (S.outOf s) := by
  obtain ⟨h1, h2⟩ := reader_all S hdedup rs rd cs hrun
  obtain ⟨tr1, k1, k2, k3⟩ := three_engine _ _ S.cfg hwork rfl S.policies S.start S.pending _ _ _ _ _ S.cap hcap tr s h hw
  obtain ⟨ss, ds, es, s1, s2, s5, s4, s6, s3, hfm, hclosed, hfin⟩ := data_delivered_along S hwork hcap _ _ hstep enc T x0 Line
    (fun d => (∃ b, d = .bytes b ∨ d = .obj b) ∧ Exporter.newline ∉ d.text) (fun p x m a b => henc p x m a b) tr s h hw k1 k2 k3 _ _ (by rw [hd]; exact h1) h2
  refine ⟨_, ds.map Exporter.Datum.text, ⟨ss, s1, s2, s5, s6⟩, ?_⟩
  have e : S.outOf s = _ := congrArg Exporter.State.tr hfin
  rw [e, ← hfm]
  refine hT.all es hclosed ?_ (fun d hd => (s4 d (by rw [← hfm]; exact hd)).2)
  intro m hm
  have : enc m ∈ (Exporter.received es).map enc := List.mem_map.2 ⟨m, hm, rfl⟩
  rw [s3] at this
  obtain ⟨d, hd, he⟩ := List.mem_map.1 this
  rw [← he]
  obtain ⟨b, rfl | rfl⟩ := (s4 d hd).1
  · exact ⟨b, .inl rfl⟩
  · exact ⟨b, .inr rfl⟩

/-- JSON and ECS messages are lines, whatever the rules. -/
theorem world_encodes_as (W : World P) (Q : P → SigmaPolicy) (c1 c2 : Pipeline.Conf) (x : XConfig) (hlib : Json.Spec.LibOk W.L) (hv : Json.Spec.VersionOk (Utf8.bytes x.jsonSchemaVersion)) (hn : KindNames W.L) (p : P) :
    EncodesAs (W.encode x) (fun q => AlertWith (W.setup c1 c2 x p) (sigmaVerdict W.L (Q q))) (W.SigmaMessage Q c1 c2 x p) := by
  intro q y m hev ha
  by_cases hf : x.format = .ecs
  · rw [(ecs_encode W c1 c2 hf (p := p)).1]
    obtain ⟨d, h1, h2⟩ := alert_doc_with (W.setup c1 c2 x p) (W.ecsSide c1 c2 x p) hn _ y m hev ha
    refine ⟨.obj (Ecs.recText d), by unfold EcsSide.toFile; rw [h1]; rfl, ?_, ⟨_, .inr rfl⟩, ?_⟩
    · unfold World.SigmaMessage
      rw [hf]
      exact ⟨_, h2⟩
    · obtain ⟨_, _, _, _, _, _, _, _, _, _, _, _, _, _, _, h3⟩ := h2
      intro hc
      exact absurd (h3 _ hc) (by decide)
  · have e1 : W.encode x = (W.setup c1 c2 x p).enc := by
      funext m
      unfold World.encode
      cases hx : x.format <;> first | exact absurd hx hf | (cases m <;> rfl)
    rw [e1]
    obtain ⟨d, h1, h2, h3⟩ := json_lines_with (W.setup c1 c2 x p) hlib hv _ y m hev ha
    obtain ⟨line, h4, -⟩ := alert_line (W.setup c1 c2 x p) hlib hv _ y hev m ha
    refine ⟨d, h1, ?_, ⟨line, .inl (Option.some.inj (h1.symm.trans h4))⟩, h3⟩
    unfold World.SigmaMessage
    cases hx : x.format <;> first | exact absurd hx hf | exact h2

/-! ## C123 -/

/-- **C123** Sigma rules, any encoder of lines and any transport that says what it does with messages (`terminal_delivers`, `syslog_delivers`, `file_delivers`): when `Wait` returns it has done so with messages
complete under the first rules and then those adopted. -/
theorem sigma_out (S : Setup P) (Q : P → SigmaPolicy) (cfg : P → ConfigFile) (ok : S.SigmaOk Q cfg) (hdedup : S.dedup = false) {X : Type} {enc : Msg → Option Exporter.Datum} {Line : P → Event → Bytes → Prop}
    (henc : EncodesAs enc (fun p => AlertWith S (sigmaVerdict S.L (Q p))) Line) {T : Exporter.Transport X Exporter.Datum} {x0 : X} {Result : List Bytes → X → Prop}
    (hT : Delivers S enc T x0 Result) {rs : List Rec} {rd : Processor.State} {cs : List HCall} (hrun : Processor.run false S.fuel .init rs = some (rd, cs))
    {tr : List (Drain.Obs Msg)} {s : Drain.St (S.outNet enc T x0)} (h : Exec (S.outNet enc T x0) tr s) (hw : Waited s) (hd : driven tr = rs.map Msg.sf) :
    ∃ rest ms, SigmaMessages S Q Line (S.policies :: rest) (eventsAfter [] rs) ms ∧ Result ms (S.outOf s) :=
  out_result_as S ok.workers ok.cap hdedup (sigma_step S Q cfg ok) henc hT hrun h hw hd

/-- **C123** Sigma rules, ECS documents to Elastic, whichever calls fail: what the client has been asked to do is what it is asked for documents complete under the first rules and then those adopted. -/
theorem sigma_elastic (S : Setup P) (E : EcsSide S) (Q : P → SigmaPolicy) (cfg : P → ConfigFile) (ok : S.SigmaOk Q cfg) (hn : KindNames S.L) (hdedup : S.dedup = false) (calls : Nat → Bool)
    {rs : List Rec} {rd : Processor.State} {cs : List HCall} (hrun : Processor.run false S.fuel .init rs = some (rd, cs))
    {tr : List (Drain.Obs Msg)} {s : Drain.St (E.elasticWith calls)} (h : Exec (E.elasticWith calls) tr s) (hw : Waited s) (hd : driven tr = rs.map Msg.sf) :
    ∃ rest docs parts, SigmaSent S E Q (S.policies :: rest) (eventsAfter [] rs) docs ∧ RequestsFor calls S.buffer docs (E.bulkOf s).ops (E.bulkOf s).calls parts := by
  obtain ⟨h1, h2⟩ := reader_all S hdedup rs rd cs hrun
  obtain ⟨gs, es, ⟨rest, g1⟩, g2, g3, hclosed, hfin, g4⟩ := alerts_delivered_as S ok.workers ok.cap _ _ (sigma_step S Q cfg ok) _ _ _ tr s h hw _ _ (by rw [hd]; exact h1) h2
  obtain ⟨docs, parts, k1, k2⟩ := elastic_of_alerts_as S E _ _ hn calls s g1 g2 g3 hclosed hfin g4
  exact ⟨rest, docs, parts, k2, k1⟩

/-- **C123** Beside a directory of rules that changes: the same, and the rule sets adopted are the first of those pushed by the monitor, all of them if none is left waiting; each is what the compiler made of files
read, with contents that the directory's files had at some time. -/
theorem sigma_reload_out {C X : Type} [DecidableEq C] (S : Setup P) (Q : P → SigmaPolicy) (cfg : P → ConfigFile) (ok : S.SigmaOk Q cfg) (hdedup : S.dedup = false) {enc : Msg → Option Exporter.Datum}
    {Line : P → Event → Bytes → Prop} (henc : EncodesAs enc (fun p => AlertWith S (sigmaVerdict S.L (Q p))) Line) {T : Exporter.Transport X Exporter.Datum} {x0 : X} {Result : List Bytes → X → Prop}
    (hT : Delivers S enc T x0 Result) (hp : S.pending = []) {sha : Str → C} {comp : List (Str × Option Str) → Option P} {d : List (Monitor.FileEnt Str)}
    {rs : List Rec} {rd : Processor.State} {cs : List HCall} (hrun : Processor.run false S.fuel .init rs = some (rd, cs))
    {tr : List (Drain.Obs Msg)} {mo : List (Monitor.Live.Obs Str P)} {x : Drain.St (S.outNet enc T x0) × Monitor.Live.LSt Str C P} (h : OutReloadRun S hp enc T x0 sha comp d tr mo x)
    (hw : Waited x.1) (hd : driven tr = rs.map Msg.sf) :
    ∃ as ms, SigmaMessages S Q Line (S.policies :: as) (eventsAfter [] rs) ms ∧ Result ms (S.outOf x.1) ∧ as ++ x.2.chan = Monitor.Live.pushed mo ∧
      ∀ p ∈ as, CompiledFrom comp (Reload.dirsOf d mo) p :=
  reload_result_as S ok.workers ok.cap hdedup (sigma_step S Q cfg ok) henc hT hp hrun h hw hd

/-- **C123** The same for Elastic. -/
theorem sigma_reload_elastic {C : Type} [DecidableEq C] (S : Setup P) (E : EcsSide S) (Q : P → SigmaPolicy) (cfg : P → ConfigFile) (ok : S.SigmaOk Q cfg) (hn : KindNames S.L) (hdedup : S.dedup = false)
    (calls : Nat → Bool) (hp : S.pending = []) {sha : Str → C} {comp : List (Str × Option Str) → Option P} {d : List (Monitor.FileEnt Str)}
    {rs : List Rec} {rd : Processor.State} {cs : List HCall} (hrun : Processor.run false S.fuel .init rs = some (rd, cs))
    {tr : List (Drain.Obs Msg)} {mo : List (Monitor.Live.Obs Str P)} {x : Drain.St (E.elasticWith calls) × Monitor.Live.LSt Str C P} (h : E.ReloadRun calls hp sha comp d tr mo x)
    (hw : Waited x.1) (hd : driven tr = rs.map Msg.sf) :
    ∃ as docs parts, SigmaSent S E Q (S.policies :: as) (eventsAfter [] rs) docs ∧ RequestsFor calls S.buffer docs (E.bulkOf x.1).ops (E.bulkOf x.1).calls parts ∧ as ++ x.2.chan = Monitor.Live.pushed mo ∧
      ∀ p ∈ as, CompiledFrom comp (Reload.dirsOf d mo) p := by
  obtain ⟨as, gs, es, g1, g2, g3, g4, g5, g6, g7, g8⟩ := reload_delivered S ok.workers ok.cap hdedup _ _ (sigma_step S Q cfg ok) _ _ _ hp hrun h hw hd
  obtain ⟨docs, parts, h1, h2⟩ := elastic_of_alerts_as S E _ _ hn calls x.1 g1 g2 g3 g4 g5 g6
  refine ⟨as, docs, parts, h2, h1, g7, fun p hpa => ?_⟩
  obtain ⟨got, -, q1, q2⟩ := g8 p hpa
  exact ⟨got, q1, q2⟩

/-- **C123** The index afterwards, if no call of Elastic fails: nothing stored before is lost or changed; no id is stored twice; what is new is the document of an event of which a condition of the rules of its
stretch is true; and the id of the document of every such event is stored. -/
theorem sigma_index (S : Setup P) (E : EcsSide S) (Q : P → SigmaPolicy) {pols : List P} {evs : List Event} {bulks : List (List (Bytes × Bytes))} (h : SigmaSent S E Q pols evs bulks.flatten)
    (index : List (Bytes × Bytes)) (hindex : (index.map (·.1)).Nodup) :
    ∃ ss : List (P × List Event), ss.map Prod.fst = pols ∧ ss.flatMap Prod.snd = evs ∧ ∀ final, Exporter.Arrives index bulks final →
      (final.map (·.1)).Nodup ∧ (∀ x ∈ index, x ∈ final) ∧
      (∀ d ∈ final, d ∈ index ∨ ∃ g ∈ ss, ∃ x ∈ g.2, SigmaLogged S (Q g.1) x ∧ DocWith S E (sigmaVerdict S.L (Q g.1)) x d.1 d.2) ∧
      ∀ g ∈ ss, ∀ x ∈ g.2, SigmaLogged S (Q g.1) x → ∃ id text, DocWith S E (sigmaVerdict S.L (Q g.1)) x id text ∧ id ∈ final.map (·.1) :=
  index_as S E h index hindex

/-- **C123** An edit of the rule file takes effect, whatever the transport does with the messages. -/
theorem sigma_out_edit_takes_effect {C X : Type} [DecidableEq C] (S : Setup P) (Q : P → SigmaPolicy) (cfg : P → ConfigFile) (ok : S.SigmaOk Q cfg) (hdedup : S.dedup = false) {enc : Msg → Option Exporter.Datum}
    {Line : P → Event → Bytes → Prop} (henc : EncodesAs enc (fun p => AlertWith S (sigmaVerdict S.L (Q p))) Line) {T : Exporter.Transport X Exporter.Datum} {x0 : X} {Result : List Bytes → X → Prop}
    (hT : Delivers S enc T x0 Result) (hmon : S.monitor = true) (hp : S.pending = [])
    (sha : Str → C) {comp : List (Str × Option Str) → Option P} {f : Str} (hf : Monitor.Live.Yaml f) (t0 t : Str) {p : P} (hc : comp [(f, some t)] = some p)
    {rs : List Rec} {rd : Processor.State} {cs : List HCall} (hrun : Processor.run false S.fuel .init rs = some (rd, cs)) (hev : eventsAfter [] rs ≠ []) (hroom : rs.length ≤ S.cap) :
    ∃ tr mo y, OutReloadRun S hp enc T x0 sha comp (Monitor.Live.sole f t0) tr mo y ∧ Waited y.1 ∧ driven tr = rs.map Msg.sf ∧ y.2.dir = Monitor.Live.sole f t ∧
      ∃ ms, SigmaMessages S Q Line [S.policies, p] (eventsAfter [] rs) ms ∧ Result ms (S.outOf y.1) := by
  obtain ⟨tr, mo, y, e3, w3, d3, k1, -, -, -, c3, -, hpush⟩ := edit_adopted S (Exporter.allOrNone enc) T x0 ok.workers ok.cap hdedup hmon hp sha hf t0 t hc hrun hev hroom
  obtain ⟨as, ms, h1, h2, h3, -⟩ := sigma_reload_out S Q cfg ok hdedup henc hT hp hrun e3 w3 d3
  rw [c3, List.append_nil, hpush] at h3
  rw [h3] at h1
  exact ⟨tr, mo, y, e3, w3, d3, k1, ms, h1, h2⟩

/-- **C123** The same for Elastic. -/
theorem sigma_elastic_edit_takes_effect {C : Type} [DecidableEq C] (S : Setup P) (E : EcsSide S) (Q : P → SigmaPolicy) (cfg : P → ConfigFile) (ok : S.SigmaOk Q cfg) (hn : KindNames S.L) (hdedup : S.dedup = false)
    (calls : Nat → Bool) (hmon : S.monitor = true) (hp : S.pending = []) (sha : Str → C) {comp : List (Str × Option Str) → Option P} {f : Str} (hf : Monitor.Live.Yaml f) (t0 t : Str) {p : P}
    (hc : comp [(f, some t)] = some p)
    {rs : List Rec} {rd : Processor.State} {cs : List HCall} (hrun : Processor.run false S.fuel .init rs = some (rd, cs)) (hev : eventsAfter [] rs ≠ []) (hroom : rs.length ≤ S.cap) :
    ∃ tr mo y, E.ReloadRun calls hp sha comp (Monitor.Live.sole f t0) tr mo y ∧ Waited y.1 ∧ driven tr = rs.map Msg.sf ∧ y.2.dir = Monitor.Live.sole f t ∧
      ∃ docs parts, SigmaSent S E Q [S.policies, p] (eventsAfter [] rs) docs ∧ RequestsFor calls S.buffer docs (E.bulkOf y.1).ops (E.bulkOf y.1).calls parts := by
  obtain ⟨tr, mo, y, e3, w3, d3, k1, -, -, -, c3, -, hpush⟩ := edit_adopted S (Exporter.allOrNone E.toElastic) (Exporter.elastic calls) ⟨[], 0⟩ ok.workers ok.cap hdedup hmon hp sha hf t0 t hc hrun hev hroom
  obtain ⟨as, docs, parts, h1, h2, h3, -⟩ := sigma_reload_elastic S E Q cfg ok hn hdedup calls hp hrun e3 w3 d3
  rw [c3, List.append_nil, hpush] at h3
  rw [h3] at h1
  exact ⟨tr, mo, y, e3, w3, d3, k1, docs, parts, h1, h2⟩

/-! ### From the configuration -/

/-- With rule files in the directory whose rules are supported and everything else in order, the program is ready, with these rules. -/
theorem sigma_ready (W : World Unit) (parse : Str → Option SigmaRule) (cfgAt : Str → ConfigFile) (fs : Str → Dir) (later : List (SigmaSet W.L parse)) {m : Manifest} {env : List Str}
    {cs : List Pipeline.Conf} {c1 c2 c3 : Pipeline.Conf} {a b d : Str} (hm : setManifest m env cs = [c1, c2, c3]) (u : Usual c1 c2 c3 a b d)
    (hparse : ∀ t r, parse t = some r → (r.searches.map (·.1)).Nodup)
    (hp : (engineConf c2).policiesPath ≠ []) (hl : (engineConf c2).language = .sigma) (hw : 0 < (engineConf c2).concurrency)
    {x : XConfig} (hx : createConfigX W.secrets (xconf c3) = some x) (ho : W.exports x = true)
    (hb : Benign W.builtIn W.user) (hd : (createFlattenerConfig (Config.toConf (xconf c1))).1.filterOn = false) (hlib : Json.Spec.LibOk W.L) (hv : Json.Spec.VersionOk (Utf8.bytes m.jsonSchema)) (hn : KindNames W.L)
    {files : List (Monitor.FileEnt Str)} {texts : List Str} {fm : FieldMappings} (h1 : fs (engineConf c2).policiesPath = some files)
    (h2 : PolicyFiles ((engineConf c2).monitor == .loc) files texts) (h3 : Configures (cfgAt (engineConf c2).configPath) fm)
    (h4 : ∀ t ∈ texts, ∀ r, parse t = some r → Supported fm r) :
    ∃ p : SigmaSet W.L parse, (W.withSigma parse cfgAt fs later).Ready c2 c3 x p ∧ p.policy = ⟨rulesIn parse texts, fm⟩ ∧
      ((W.withSigma parse cfgAt fs later).setup c1 c2 x p).SigmaOk SigmaSet.policy SigmaSet.cfg ∧
      EncodesAs ((W.withSigma parse cfgAt fs later).encode x) (fun q => AlertWith ((W.withSigma parse cfgAt fs later).setup c1 c2 x p) (sigmaVerdict W.L (SigmaSet.policy q)))
        ((W.withSigma parse cfgAt fs later).SigmaMessage SigmaSet.policy c1 c2 x p) ∧ ((W.withSigma parse cfgAt fs later).setup c1 c2 x p).dedup = false := by
  obtain ⟨rules, hc⟩ := Sigma.sigma_compiles W.L.toCaseLib (flatOps W.L getMappers) Sigma.pathMatch (rulesIn parse texts) (cfgAt (engineConf c2).configPath) fm (rulesIn_readable _ _) h3 (rulesIn_supported h4)
  obtain ⟨p, p1, p2, p3, p4⟩ := withSigma_policyAt W parse cfgAt fs later (engineConf c2) hl h1 h2 h3 hc
  have hready : (W.withSigma parse cfgAt fs later).Ready c2 c3 x p := ⟨hp, p1, Int.le_of_lt hw, hx, ho⟩
  have hver : x.jsonSchemaVersion = m.jsonSchema := build_version (W.withSigma parse cfgAt fs later) hm u hready.conf
  have hok : ((W.withSigma parse cfgAt fs later).setup c1 c2 x p).SigmaOk SigmaSet.policy SigmaSet.cfg := by
    refine ⟨fun q => q.conf, fun q r hr => ?_, fun q => q.built, fun _ => rfl, hb, ?_, ?_⟩
    · obtain ⟨t, ht⟩ := q.parsed r hr
      exact hparse t r ht
    · change 0 < (engineConf c2).concurrency.toNat
      omega
    · change 0 < 100000
      decide
  refine ⟨p, hready, ?_, hok, world_encodes_as (W.withSigma parse cfgAt fs later) SigmaSet.policy c1 c2 x hlib (by rw [hver]; exact hv) hn p, hd⟩
  unfold SigmaSet.policy
  rw [p2, p3]

/-- The rules adopted in the running program are those in texts that files of the directory had at some time, with the field mappings of the configuration. -/
theorem compiledSigma_history {L : Lib} {parse : Str → Option SigmaRule} {cfg : ConfigFile} {fm : FieldMappings} (hc : Configures cfg fm) {h : List (List (Monitor.FileEnt Str))} {p : SigmaSet L parse}
    (hp : CompiledFrom (compileSigma L parse cfg) h p) : ∃ ts, p.policy = ⟨rulesIn parse ts, fm⟩ ∧ FromHistory h ts := by
  obtain ⟨got, hcomp, hread⟩ := hp
  obtain ⟨q1, ts, q2, q3⟩ := compileSigma_some.1 hcomp
  refine ⟨ts, ?_, fun t htx => ?_⟩
  · unfold SigmaSet.policy
    have hq : Configures cfg p.mappings := by rw [← q1]; exact p.conf
    rw [q3, configures_unique hq hc]
  have : some t ∈ got.map Prod.snd := by rw [q2]; exact List.mem_map.2 ⟨t, htx, rfl⟩
  obtain ⟨⟨f, v⟩, hfv, hv'⟩ := List.mem_map.1 this
  cases hv'
  obtain ⟨hname, e, he, hlook⟩ := hread f _ hfv
  refine ⟨e, he, f, hname, ?_⟩
  revert hlook
  generalize Monitor.Live.look e f = o
  intro hlook
  match o, hlook with
  | some (some _), rfl => rfl

/-- From the configuration and the directory of rules to a transport of data. -/
theorem sigma_start_out (W : World Unit) (parse : Str → Option SigmaRule) (cfgAt : Str → ConfigFile) (fs : Str → Dir) (later : List (SigmaSet W.L parse)) {m : Manifest} {env : List Str}
    {cs : List Pipeline.Conf} {c1 c2 c3 : Pipeline.Conf} {a b d : Str} (hm : setManifest m env cs = [c1, c2, c3]) (u : Usual c1 c2 c3 a b d)
    (hparse : ∀ t r, parse t = some r → (r.searches.map (·.1)).Nodup)
    (hp : (engineConf c2).policiesPath ≠ []) (hl : (engineConf c2).language = .sigma) (hw : 0 < (engineConf c2).concurrency)
    {x : XConfig} (hx : createConfigX W.secrets (xconf c3) = some x) (ho : W.exports x = true)
    (hb : Benign W.builtIn W.user) (hd : (createFlattenerConfig (Config.toConf (xconf c1))).1.filterOn = false) (hlib : Json.Spec.LibOk W.L) (hv : Json.Spec.VersionOk (Utf8.bytes m.jsonSchema)) (hn : KindNames W.L)
    {files : List (Monitor.FileEnt Str)} {texts : List Str} {fm : FieldMappings} (h1 : fs (engineConf c2).policiesPath = some files)
    (h2 : PolicyFiles ((engineConf c2).monitor == .loc) files texts) (h3 : Configures (cfgAt (engineConf c2).configPath) fm)
    (h4 : ∀ t ∈ texts, ∀ r, parse t = some r → Supported fm r) {X : Type} {T : Exporter.Transport X Exporter.Datum} {x0 : X} {Result : List Bytes → X → Prop}
    (hcomp : ∀ p : SigmaSet W.L parse, chain [sync (readerStep W.F W.fuel W.clock) ((W.withSigma parse cfgAt fs later).setup c1 c2 x p).reader0 1, engine ((W.withSigma parse cfgAt fs later).setup c1 c2 x p).cfg p W.start later,
      (W.withSigma parse cfgAt fs later).exporterComp x] chanSize = ((W.withSigma parse cfgAt fs later).setup c1 c2 x p).outNet ((W.withSigma parse cfgAt fs later).encode x) T x0)
    (hT : ∀ p : SigmaSet W.L parse, Delivers ((W.withSigma parse cfgAt fs later).setup c1 c2 x p) ((W.withSigma parse cfgAt fs later).encode x) T x0 Result) :
    ∃ (l : Load Factory) (p : SigmaSet W.L parse), loadStages (W.withSigma parse cfgAt fs later).env { regs := bootRegs } (setManifest m env cs) = .done l ∧
      netOf (W.withSigma parse cfgAt fs later).comp (setManifest m env cs) l chanSize = ((W.withSigma parse cfgAt fs later).setup c1 c2 x p).outNet ((W.withSigma parse cfgAt fs later).encode x) T x0 ∧ p.policy = ⟨rulesIn parse texts, fm⟩ ∧
      ∀ ds : List (FileData Rec), (∀ f ∈ ds, f ≠ .noOpen) → OlderParents (recordsIn ds) → (recordsIn ds).length ≤ W.fuel →
        (∀ (tr : List (Drain.Obs Msg)) (s : PSt Rec (((W.withSigma parse cfgAt fs later).setup c1 c2 x p).outNet ((W.withSigma parse cfgAt fs later).encode x) T x0)), PExec Msg.sf _ (fileDriver (fun _ => true) (some ds)) tr s → ∀ e, s.status = some e →
          e = false ∧ ∃ rest ms, SigmaMessages ((W.withSigma parse cfgAt fs later).setup c1 c2 x p) SigmaSet.policy ((W.withSigma parse cfgAt fs later).SigmaMessage SigmaSet.policy c1 c2 x p) (p :: rest) (eventsAfter [] (recordsIn ds)) ms ∧ Result ms (((W.withSigma parse cfgAt fs later).setup c1 c2 x p).outOf s.net)) ∧
        ∃ (tr : List (Drain.Obs Msg)) (s : PSt Rec (((W.withSigma parse cfgAt fs later).setup c1 c2 x p).outNet ((W.withSigma parse cfgAt fs later).encode x) T x0)), PExec Msg.sf _ (fileDriver (fun _ => true) (some ds)) tr s ∧ s.status = some false := by
  obtain ⟨p, hready, hpol, hok, henc, hdd⟩ := sigma_ready W parse cfgAt fs later hm u hparse hp hl hw hx ho hb hd hlib hv hn h1 h2 h3 h4
  obtain ⟨l, k1, -, -, k4⟩ := usual_boots (W.withSigma parse cfgAt fs later) u hready
  rw [hm]
  refine ⟨l, p, k1, k4.trans (hcomp p), hpol, ?_⟩
  intro ds g1 g2 g3
  constructor
  · intro tr s hxx e he
    obtain ⟨q1, q2, q3, q4, rd, cs', q5⟩ := out_run _ hok.workers hok.cap ds g1 g2 g3 hxx he
    exact ⟨q1, sigma_out _ _ _ hok hdd henc (hT p) q5 q2 q3 q4⟩
  · obtain ⟨hN, hC⟩ := netWith_ok ((W.withSigma parse cfgAt fs later).setup c1 c2 x p) (Exporter.allOrNone ((W.withSigma parse cfgAt fs later).encode x)) T x0 hok.workers hok.cap
    obtain ⟨body, b1, b2, _⟩ := file_driver_delivers (fun _ => true) (fun _ h => h) ds g1
    exact complete_run hN hC ⟨b1, b2⟩ Msg.sf

/-- From the configuration and the directory of rules, through its changes, to a transport of data. -/
theorem sigma_hot_out {C : Type} [DecidableEq C] (W : World Unit) (parse : Str → Option SigmaRule) (cfgAt : Str → ConfigFile) (fs : Str → Dir) {m : Manifest} {env : List Str}
    {cs : List Pipeline.Conf} {c1 c2 c3 : Pipeline.Conf} {a b d : Str} (hm : setManifest m env cs = [c1, c2, c3]) (u : Usual c1 c2 c3 a b d)
    (hparse : ∀ t r, parse t = some r → (r.searches.map (·.1)).Nodup)
    (hp : (engineConf c2).policiesPath ≠ []) (hl : (engineConf c2).language = .sigma) (hmon : (engineConf c2).monitor = .loc) (hw : 0 < (engineConf c2).concurrency)
    {x : XConfig} (hx : createConfigX W.secrets (xconf c3) = some x) (ho : W.exports x = true)
    (hb : Benign W.builtIn W.user) (hd : (createFlattenerConfig (Config.toConf (xconf c1))).1.filterOn = false) (hlib : Json.Spec.LibOk W.L) (hv : Json.Spec.VersionOk (Utf8.bytes m.jsonSchema)) (hn : KindNames W.L)
    {files : List (Monitor.FileEnt Str)} {texts : List Str} {fm : FieldMappings} (h1 : fs (engineConf c2).policiesPath = some files)
    (h2 : PolicyFiles true files texts) (h3 : Configures (cfgAt (engineConf c2).configPath) fm)
    (h4 : ∀ t ∈ texts, ∀ r, parse t = some r → Supported fm r) {X : Type} {T : Exporter.Transport X Exporter.Datum} {x0 : X} {Result : List Bytes → X → Prop}
    (hcomp : ∀ p : SigmaSet W.L parse, chain [sync (readerStep W.F W.fuel W.clock) ((W.withSigma parse cfgAt fs []).setup c1 c2 x p).reader0 1, engine ((W.withSigma parse cfgAt fs []).setup c1 c2 x p).cfg p W.start [],
      (W.withSigma parse cfgAt fs []).exporterComp x] chanSize = ((W.withSigma parse cfgAt fs []).setup c1 c2 x p).outNet ((W.withSigma parse cfgAt fs []).encode x) T x0)
    (hT : ∀ p : SigmaSet W.L parse, Delivers ((W.withSigma parse cfgAt fs []).setup c1 c2 x p) ((W.withSigma parse cfgAt fs []).encode x) T x0 Result) :
    ∃ (l : Load Factory) (p : SigmaSet W.L parse), loadStages (W.withSigma parse cfgAt fs []).env { regs := bootRegs } (setManifest m env cs) = .done l ∧
      netOf (W.withSigma parse cfgAt fs []).comp (setManifest m env cs) l chanSize = ((W.withSigma parse cfgAt fs []).setup c1 c2 x p).outNet ((W.withSigma parse cfgAt fs []).encode x) T x0 ∧ p.policy = ⟨rulesIn parse texts, fm⟩ ∧
      ∀ (sha : Str → C) (rs : List Rec), OlderParents rs → rs.length ≤ W.fuel →
      ∀ (tr : List (Drain.Obs Msg)) (mo : List (Monitor.Live.Obs Str (SigmaSet W.L parse))) (y : Drain.St (((W.withSigma parse cfgAt fs []).setup c1 c2 x p).outNet ((W.withSigma parse cfgAt fs []).encode x) T x0) × Monitor.Live.LSt Str C (SigmaSet W.L parse)),
        OutReloadRun ((W.withSigma parse cfgAt fs []).setup c1 c2 x p) rfl ((W.withSigma parse cfgAt fs []).encode x) T x0 sha (compileSigma W.L parse (cfgAt (engineConf c2).configPath)) files tr mo y →
        (Waited y.1 → driven tr = rs.map Msg.sf →
          ∃ as ms, SigmaMessages ((W.withSigma parse cfgAt fs []).setup c1 c2 x p) SigmaSet.policy ((W.withSigma parse cfgAt fs []).SigmaMessage SigmaSet.policy c1 c2 x p) (p :: as) (eventsAfter [] rs) ms ∧
            Result ms (((W.withSigma parse cfgAt fs []).setup c1 c2 x p).outOf y.1) ∧ as ++ y.2.chan = Monitor.Live.pushed mo ∧
            ∀ q ∈ as, ∃ ts, q.policy = ⟨rulesIn parse ts, fm⟩ ∧ FromHistory (Reload.dirsOf files mo) ts) ∧
        (rootClosed tr = true → ∃ tr' ms y', OutReloadRun ((W.withSigma parse cfgAt fs []).setup c1 c2 x p) rfl ((W.withSigma parse cfgAt fs []).encode x) T x0 sha (compileSigma W.L parse (cfgAt (engineConf c2).configPath)) files tr' (mo ++ ms) y' ∧
          Waited y'.1 ∧ driven tr' = driven tr ∧ y'.2.dir = y.2.dir ∧ Monitor.Live.pushed ms = []) := by
  obtain ⟨p, hready, hpol, hok, henc, hdd⟩ := sigma_ready W parse cfgAt fs [] hm u hparse hp hl hw hx ho hb hd hlib hv hn h1 (by rw [hmon]; exact h2) h3 h4
  obtain ⟨l, k1, -, -, k4⟩ := usual_boots (W.withSigma parse cfgAt fs []) u hready
  rw [hm]
  refine ⟨l, p, k1, k4.trans (hcomp p), hpol, ?_⟩
  intro sha rs hold hfuel tr mo y hrun
  obtain ⟨hN, hC⟩ := netWith_ok ((W.withSigma parse cfgAt fs []).setup c1 c2 x p) (Exporter.allOrNone ((W.withSigma parse cfgAt fs []).encode x)) T x0 hok.workers hok.cap
  refine ⟨fun hwait hdr => ?_, fun hroot => Reload.can_finish hN hC hrun hroot⟩
  obtain ⟨⟨rd, hcs⟩, hr⟩ := Processor.reader_returns _ (Processor.older_parents_not_stuck _ hold) W.fuel hfuel
  obtain ⟨as, ms, g1, g2, g3, g4⟩ := sigma_reload_out _ _ _ hok hdd henc (hT p) rfl hr hrun hwait hdr
  exact ⟨as, ms, g1, g2, g3, fun q hq => compiledSigma_history h3 (g4 q hq)⟩

/-- **C123** From the configuration and the directory of rules to the terminal: the program starts with exactly the rules of the directory; every run of the file driver over files that can be opened, with records whose process parents
are older, ends without an error and with messages complete under these rules (and then those the monitor pushes); and there is such a run. -/
theorem sigma_start_terminal (W : World Unit) (parse : Str → Option SigmaRule) (cfgAt : Str → ConfigFile) (fs : Str → Dir) (later : List (SigmaSet W.L parse)) {m : Manifest} {env : List Str}
    {cs : List Pipeline.Conf} {c1 c2 c3 : Pipeline.Conf} {a b d : Str} (hm : setManifest m env cs = [c1, c2, c3]) (u : Usual c1 c2 c3 a b d)
    (hparse : ∀ t r, parse t = some r → (r.searches.map (·.1)).Nodup)
    (hp : (engineConf c2).policiesPath ≠ []) (hl : (engineConf c2).language = .sigma) (hw : 0 < (engineConf c2).concurrency)
    {x : XConfig} (hx : createConfigX W.secrets (xconf c3) = some x) (ho : W.exports x = true) (ht : x.transport = .terminal)
    (hb : Benign W.builtIn W.user) (hd : (createFlattenerConfig (Config.toConf (xconf c1))).1.filterOn = false) (hlib : Json.Spec.LibOk W.L) (hv : Json.Spec.VersionOk (Utf8.bytes m.jsonSchema)) (hn : KindNames W.L)
    {files : List (Monitor.FileEnt Str)} {texts : List Str} {fm : FieldMappings} (h1 : fs (engineConf c2).policiesPath = some files)
    (h2 : PolicyFiles ((engineConf c2).monitor == .loc) files texts) (h3 : Configures (cfgAt (engineConf c2).configPath) fm)
    (h4 : ∀ t ∈ texts, ∀ r, parse t = some r → Supported fm r) :
    ∃ (l : Load Factory) (p : SigmaSet W.L parse), loadStages (W.withSigma parse cfgAt fs later).env { regs := bootRegs } (setManifest m env cs) = .done l ∧
      netOf (W.withSigma parse cfgAt fs later).comp (setManifest m env cs) l chanSize = ((W.withSigma parse cfgAt fs later).setup c1 c2 x p).outNet ((W.withSigma parse cfgAt fs later).encode x) Exporter.terminal [] ∧ p.policy = ⟨rulesIn parse texts, fm⟩ ∧
      ∀ ds : List (FileData Rec), (∀ f ∈ ds, f ≠ .noOpen) → OlderParents (recordsIn ds) → (recordsIn ds).length ≤ W.fuel →
        (∀ (tr : List (Drain.Obs Msg)) (s : PSt Rec (((W.withSigma parse cfgAt fs later).setup c1 c2 x p).outNet ((W.withSigma parse cfgAt fs later).encode x) Exporter.terminal [])), PExec Msg.sf _ (fileDriver (fun _ => true) (some ds)) tr s → ∀ e, s.status = some e →
          e = false ∧ ∃ rest ms, SigmaMessages ((W.withSigma parse cfgAt fs later).setup c1 c2 x p) SigmaSet.policy ((W.withSigma parse cfgAt fs later).SigmaMessage SigmaSet.policy c1 c2 x p) (p :: rest) (eventsAfter [] (recordsIn ds)) ms ∧ Printed ms (((W.withSigma parse cfgAt fs later).setup c1 c2 x p).outOf s.net)) ∧
        ∃ (tr : List (Drain.Obs Msg)) (s : PSt Rec (((W.withSigma parse cfgAt fs later).setup c1 c2 x p).outNet ((W.withSigma parse cfgAt fs later).encode x) Exporter.terminal [])), PExec Msg.sf _ (fileDriver (fun _ => true) (some ds)) tr s ∧ s.status = some false :=
  sigma_start_out (T := Exporter.terminal) (x0 := []) (Result := fun ms o => Printed ms o) W parse cfgAt fs later hm u hparse hp hl hw hx ho hb hd hlib hv hn h1 h2 h3 h4
    (fun p => usual_terminal (W.withSigma parse cfgAt fs later) c1 c2 (p := p) ht) (fun p => terminal_delivers ((W.withSigma parse cfgAt fs later).setup c1 c2 x p) _)

/-- **C123** From the configuration and the directory of rules to syslog: the program starts with exactly the rules of the directory; every run of the file driver over files that can be opened, with records whose process parents
are older, ends without an error and with messages complete under these rules (and then those the monitor pushes); and there is such a run. -/
theorem sigma_start_syslog (W : World Unit) (parse : Str → Option SigmaRule) (cfgAt : Str → ConfigFile) (fs : Str → Dir) (later : List (SigmaSet W.L parse)) {m : Manifest} {env : List Str}
    {cs : List Pipeline.Conf} {c1 c2 c3 : Pipeline.Conf} {a b d : Str} (hm : setManifest m env cs = [c1, c2, c3]) (u : Usual c1 c2 c3 a b d)
    (hparse : ∀ t r, parse t = some r → (r.searches.map (·.1)).Nodup)
    (hp : (engineConf c2).policiesPath ≠ []) (hl : (engineConf c2).language = .sigma) (hw : 0 < (engineConf c2).concurrency)
    {x : XConfig} (hx : createConfigX W.secrets (xconf c3) = some x) (ho : W.exports x = true) (ht : x.transport = .syslog)
    (hb : Benign W.builtIn W.user) (hd : (createFlattenerConfig (Config.toConf (xconf c1))).1.filterOn = false) (hlib : Json.Spec.LibOk W.L) (hv : Json.Spec.VersionOk (Utf8.bytes m.jsonSchema)) (hn : KindNames W.L)
    {files : List (Monitor.FileEnt Str)} {texts : List Str} {fm : FieldMappings} (h1 : fs (engineConf c2).policiesPath = some files)
    (h2 : PolicyFiles ((engineConf c2).monitor == .loc) files texts) (h3 : Configures (cfgAt (engineConf c2).configPath) fm)
    (h4 : ∀ t ∈ texts, ∀ r, parse t = some r → Supported fm r) :
    ∃ (l : Load Factory) (p : SigmaSet W.L parse), loadStages (W.withSigma parse cfgAt fs later).env { regs := bootRegs } (setManifest m env cs) = .done l ∧
      netOf (W.withSigma parse cfgAt fs later).comp (setManifest m env cs) l chanSize = ((W.withSigma parse cfgAt fs later).setup c1 c2 x p).outNet ((W.withSigma parse cfgAt fs later).encode x) (Exporter.syslog W.sends) ([], 0) ∧ p.policy = ⟨rulesIn parse texts, fm⟩ ∧
      ∀ ds : List (FileData Rec), (∀ f ∈ ds, f ≠ .noOpen) → OlderParents (recordsIn ds) → (recordsIn ds).length ≤ W.fuel →
        (∀ (tr : List (Drain.Obs Msg)) (s : PSt Rec (((W.withSigma parse cfgAt fs later).setup c1 c2 x p).outNet ((W.withSigma parse cfgAt fs later).encode x) (Exporter.syslog W.sends) ([], 0))), PExec Msg.sf _ (fileDriver (fun _ => true) (some ds)) tr s → ∀ e, s.status = some e →
          e = false ∧ ∃ rest ms, SigmaMessages ((W.withSigma parse cfgAt fs later).setup c1 c2 x p) SigmaSet.policy ((W.withSigma parse cfgAt fs later).SigmaMessage SigmaSet.policy c1 c2 x p) (p :: rest) (eventsAfter [] (recordsIn ds)) ms ∧ GetsThrough W.sends x.eventBuffer ms (((W.withSigma parse cfgAt fs later).setup c1 c2 x p).outOf s.net).1 (((W.withSigma parse cfgAt fs later).setup c1 c2 x p).outOf s.net).2) ∧
        ∃ (tr : List (Drain.Obs Msg)) (s : PSt Rec (((W.withSigma parse cfgAt fs later).setup c1 c2 x p).outNet ((W.withSigma parse cfgAt fs later).encode x) (Exporter.syslog W.sends) ([], 0))), PExec Msg.sf _ (fileDriver (fun _ => true) (some ds)) tr s ∧ s.status = some false :=
  sigma_start_out (T := (Exporter.syslog W.sends)) (x0 := ([], 0)) (Result := fun ms o => GetsThrough W.sends x.eventBuffer ms o.1 o.2) W parse cfgAt fs later hm u hparse hp hl hw hx ho hb hd hlib hv hn h1 h2 h3 h4
    (fun p => usual_syslog (W.withSigma parse cfgAt fs later) c1 c2 (p := p) ht) (fun p => syslog_delivers ((W.withSigma parse cfgAt fs later).setup c1 c2 x p) _ W.sends)

/-- **C123** From the configuration and the directory of rules to a file that cannot always be written: the program starts with exactly the rules of the directory; every run of the file driver over files that can be opened, with records whose process parents
are older, ends without an error and with messages complete under these rules (and then those the monitor pushes); and there is such a run. -/
theorem sigma_start_file (W : World Unit) (parse : Str → Option SigmaRule) (cfgAt : Str → ConfigFile) (fs : Str → Dir) (later : List (SigmaSet W.L parse)) {m : Manifest} {env : List Str}
    {cs : List Pipeline.Conf} {c1 c2 c3 : Pipeline.Conf} {a b d : Str} (hm : setManifest m env cs = [c1, c2, c3]) (u : Usual c1 c2 c3 a b d)
    (hparse : ∀ t r, parse t = some r → (r.searches.map (·.1)).Nodup)
    (hp : (engineConf c2).policiesPath ≠ []) (hl : (engineConf c2).language = .sigma) (hw : 0 < (engineConf c2).concurrency)
    {x : XConfig} (hx : createConfigX W.secrets (xconf c3) = some x) (ho : W.exports x = true) (ht : x.transport = .file)
    (hb : Benign W.builtIn W.user) (hd : (createFlattenerConfig (Config.toConf (xconf c1))).1.filterOn = false) (hlib : Json.Spec.LibOk W.L) (hv : Json.Spec.VersionOk (Utf8.bytes m.jsonSchema)) (hn : KindNames W.L)
    {files : List (Monitor.FileEnt Str)} {texts : List Str} {fm : FieldMappings} (h1 : fs (engineConf c2).policiesPath = some files)
    (h2 : PolicyFiles ((engineConf c2).monitor == .loc) files texts) (h3 : Configures (cfgAt (engineConf c2).configPath) fm)
    (h4 : ∀ t ∈ texts, ∀ r, parse t = some r → Supported fm r) :
    ∃ (l : Load Factory) (p : SigmaSet W.L parse), loadStages (W.withSigma parse cfgAt fs later).env { regs := bootRegs } (setManifest m env cs) = .done l ∧
      netOf (W.withSigma parse cfgAt fs later).comp (setManifest m env cs) l chanSize = ((W.withSigma parse cfgAt fs later).setup c1 c2 x p).outNet ((W.withSigma parse cfgAt fs later).encode x) (Exporter.fileTransport W.writes) Exporter.newFile ∧ p.policy = ⟨rulesIn parse texts, fm⟩ ∧
      ∀ ds : List (FileData Rec), (∀ f ∈ ds, f ≠ .noOpen) → OlderParents (recordsIn ds) → (recordsIn ds).length ≤ W.fuel →
        (∀ (tr : List (Drain.Obs Msg)) (s : PSt Rec (((W.withSigma parse cfgAt fs later).setup c1 c2 x p).outNet ((W.withSigma parse cfgAt fs later).encode x) (Exporter.fileTransport W.writes) Exporter.newFile)), PExec Msg.sf _ (fileDriver (fun _ => true) (some ds)) tr s → ∀ e, s.status = some e →
          e = false ∧ ∃ rest ms, SigmaMessages ((W.withSigma parse cfgAt fs later).setup c1 c2 x p) SigmaSet.policy ((W.withSigma parse cfgAt fs later).SigmaMessage SigmaSet.policy c1 c2 x p) (p :: rest) (eventsAfter [] (recordsIn ds)) ms ∧ (∃ fates, KeptOf W.writes x.eventBuffer ms (((W.withSigma parse cfgAt fs later).setup c1 c2 x p).outOf s.net).contents (((W.withSigma parse cfgAt fs later).setup c1 c2 x p).outOf s.net).writes fates)) ∧
        ∃ (tr : List (Drain.Obs Msg)) (s : PSt Rec (((W.withSigma parse cfgAt fs later).setup c1 c2 x p).outNet ((W.withSigma parse cfgAt fs later).encode x) (Exporter.fileTransport W.writes) Exporter.newFile)), PExec Msg.sf _ (fileDriver (fun _ => true) (some ds)) tr s ∧ s.status = some false :=
  sigma_start_out (T := (Exporter.fileTransport W.writes)) (x0 := Exporter.newFile) (Result := fun ms o => ∃ fates, KeptOf W.writes x.eventBuffer ms o.contents o.writes fates) W parse cfgAt fs later hm u hparse hp hl hw hx ho hb hd hlib hv hn h1 h2 h3 h4
    (fun p => usual_failing_file (W.withSigma parse cfgAt fs later) c1 c2 (p := p) ht) (fun p => file_delivers ((W.withSigma parse cfgAt fs later).setup c1 c2 x p) _ W.writes)

/-- **C123** From the configuration and the directory of rules, through its changes, to the terminal: in every run over records whose process parents are older, when `Wait` returns, the messages are complete under the rules of the
directory and then those adopted, which are those of texts that its files had at some time; and there is such a run from wherever the driver is done. -/
theorem sigma_hot_terminal {C : Type} [DecidableEq C] (W : World Unit) (parse : Str → Option SigmaRule) (cfgAt : Str → ConfigFile) (fs : Str → Dir) {m : Manifest} {env : List Str}
    {cs : List Pipeline.Conf} {c1 c2 c3 : Pipeline.Conf} {a b d : Str} (hm : setManifest m env cs = [c1, c2, c3]) (u : Usual c1 c2 c3 a b d)
    (hparse : ∀ t r, parse t = some r → (r.searches.map (·.1)).Nodup)
    (hp : (engineConf c2).policiesPath ≠ []) (hl : (engineConf c2).language = .sigma) (hmon : (engineConf c2).monitor = .loc) (hw : 0 < (engineConf c2).concurrency)
    {x : XConfig} (hx : createConfigX W.secrets (xconf c3) = some x) (ho : W.exports x = true) (ht : x.transport = .terminal)
    (hb : Benign W.builtIn W.user) (hd : (createFlattenerConfig (Config.toConf (xconf c1))).1.filterOn = false) (hlib : Json.Spec.LibOk W.L) (hv : Json.Spec.VersionOk (Utf8.bytes m.jsonSchema)) (hn : KindNames W.L)
    {files : List (Monitor.FileEnt Str)} {texts : List Str} {fm : FieldMappings} (h1 : fs (engineConf c2).policiesPath = some files)
    (h2 : PolicyFiles true files texts) (h3 : Configures (cfgAt (engineConf c2).configPath) fm)
    (h4 : ∀ t ∈ texts, ∀ r, parse t = some r → Supported fm r) :
    ∃ (l : Load Factory) (p : SigmaSet W.L parse), loadStages (W.withSigma parse cfgAt fs []).env { regs := bootRegs } (setManifest m env cs) = .done l ∧
      netOf (W.withSigma parse cfgAt fs []).comp (setManifest m env cs) l chanSize = ((W.withSigma parse cfgAt fs []).setup c1 c2 x p).outNet ((W.withSigma parse cfgAt fs []).encode x) Exporter.terminal [] ∧ p.policy = ⟨rulesIn parse texts, fm⟩ ∧
      ∀ (sha : Str → C) (rs : List Rec), OlderParents rs → rs.length ≤ W.fuel →
      ∀ (tr : List (Drain.Obs Msg)) (mo : List (Monitor.Live.Obs Str (SigmaSet W.L parse))) (y : Drain.St (((W.withSigma parse cfgAt fs []).setup c1 c2 x p).outNet ((W.withSigma parse cfgAt fs []).encode x) Exporter.terminal []) × Monitor.Live.LSt Str C (SigmaSet W.L parse)),
        OutReloadRun ((W.withSigma parse cfgAt fs []).setup c1 c2 x p) rfl ((W.withSigma parse cfgAt fs []).encode x) Exporter.terminal [] sha (compileSigma W.L parse (cfgAt (engineConf c2).configPath)) files tr mo y →
        (Waited y.1 → driven tr = rs.map Msg.sf →
          ∃ as ms, SigmaMessages ((W.withSigma parse cfgAt fs []).setup c1 c2 x p) SigmaSet.policy ((W.withSigma parse cfgAt fs []).SigmaMessage SigmaSet.policy c1 c2 x p) (p :: as) (eventsAfter [] rs) ms ∧
            Printed ms (((W.withSigma parse cfgAt fs []).setup c1 c2 x p).outOf y.1) ∧ as ++ y.2.chan = Monitor.Live.pushed mo ∧
            ∀ q ∈ as, ∃ ts, q.policy = ⟨rulesIn parse ts, fm⟩ ∧ FromHistory (Reload.dirsOf files mo) ts) ∧
        (rootClosed tr = true → ∃ tr' ms y', OutReloadRun ((W.withSigma parse cfgAt fs []).setup c1 c2 x p) rfl ((W.withSigma parse cfgAt fs []).encode x) Exporter.terminal [] sha (compileSigma W.L parse (cfgAt (engineConf c2).configPath)) files tr' (mo ++ ms) y' ∧
          Waited y'.1 ∧ driven tr' = driven tr ∧ y'.2.dir = y.2.dir ∧ Monitor.Live.pushed ms = []) :=
  sigma_hot_out (T := Exporter.terminal) (x0 := []) (Result := fun ms o => Printed ms o) W parse cfgAt fs hm u hparse hp hl hmon hw hx ho hb hd hlib hv hn h1 h2 h3 h4
    (fun p => usual_terminal (W.withSigma parse cfgAt fs []) c1 c2 (p := p) ht) (fun p => terminal_delivers ((W.withSigma parse cfgAt fs []).setup c1 c2 x p) _)

/-- **C123** From the configuration and the directory of rules, through its changes, to syslog: in every run over records whose process parents are older, when `Wait` returns, the messages are complete under the rules of the
directory and then those adopted, which are those of texts that its files had at some time; and there is such a run from wherever the driver is done. -/
theorem sigma_hot_syslog {C : Type} [DecidableEq C] (W : World Unit) (parse : Str → Option SigmaRule) (cfgAt : Str → ConfigFile) (fs : Str → Dir) {m : Manifest} {env : List Str}
    {cs : List Pipeline.Conf} {c1 c2 c3 : Pipeline.Conf} {a b d : Str} (hm : setManifest m env cs = [c1, c2, c3]) (u : Usual c1 c2 c3 a b d)
    (hparse : ∀ t r, parse t = some r → (r.searches.map (·.1)).Nodup)
    (hp : (engineConf c2).policiesPath ≠ []) (hl : (engineConf c2).language = .sigma) (hmon : (engineConf c2).monitor = .loc) (hw : 0 < (engineConf c2).concurrency)
    {x : XConfig} (hx : createConfigX W.secrets (xconf c3) = some x) (ho : W.exports x = true) (ht : x.transport = .syslog)
    (hb : Benign W.builtIn W.user) (hd : (createFlattenerConfig (Config.toConf (xconf c1))).1.filterOn = false) (hlib : Json.Spec.LibOk W.L) (hv : Json.Spec.VersionOk (Utf8.bytes m.jsonSchema)) (hn : KindNames W.L)
    {files : List (Monitor.FileEnt Str)} {texts : List Str} {fm : FieldMappings} (h1 : fs (engineConf c2).policiesPath = some files)
    (h2 : PolicyFiles true files texts) (h3 : Configures (cfgAt (engineConf c2).configPath) fm)
    (h4 : ∀ t ∈ texts, ∀ r, parse t = some r → Supported fm r) :
    ∃ (l : Load Factory) (p : SigmaSet W.L parse), loadStages (W.withSigma parse cfgAt fs []).env { regs := bootRegs } (setManifest m env cs) = .done l ∧
      netOf (W.withSigma parse cfgAt fs []).comp (setManifest m env cs) l chanSize = ((W.withSigma parse cfgAt fs []).setup c1 c2 x p).outNet ((W.withSigma parse cfgAt fs []).encode x) (Exporter.syslog W.sends) ([], 0) ∧ p.policy = ⟨rulesIn parse texts, fm⟩ ∧
      ∀ (sha : Str → C) (rs : List Rec), OlderParents rs → rs.length ≤ W.fuel →
      ∀ (tr : List (Drain.Obs Msg)) (mo : List (Monitor.Live.Obs Str (SigmaSet W.L parse))) (y : Drain.St (((W.withSigma parse cfgAt fs []).setup c1 c2 x p).outNet ((W.withSigma parse cfgAt fs []).encode x) (Exporter.syslog W.sends) ([], 0)) × Monitor.Live.LSt Str C (SigmaSet W.L parse)),
        OutReloadRun ((W.withSigma parse cfgAt fs []).setup c1 c2 x p) rfl ((W.withSigma parse cfgAt fs []).encode x) (Exporter.syslog W.sends) ([], 0) sha (compileSigma W.L parse (cfgAt (engineConf c2).configPath)) files tr mo y →
        (Waited y.1 → driven tr = rs.map Msg.sf →
          ∃ as ms, SigmaMessages ((W.withSigma parse cfgAt fs []).setup c1 c2 x p) SigmaSet.policy ((W.withSigma parse cfgAt fs []).SigmaMessage SigmaSet.policy c1 c2 x p) (p :: as) (eventsAfter [] rs) ms ∧
            GetsThrough W.sends x.eventBuffer ms (((W.withSigma parse cfgAt fs []).setup c1 c2 x p).outOf y.1).1 (((W.withSigma parse cfgAt fs []).setup c1 c2 x p).outOf y.1).2 ∧ as ++ y.2.chan = Monitor.Live.pushed mo ∧
            ∀ q ∈ as, ∃ ts, q.policy = ⟨rulesIn parse ts, fm⟩ ∧ FromHistory (Reload.dirsOf files mo) ts) ∧
        (rootClosed tr = true → ∃ tr' ms y', OutReloadRun ((W.withSigma parse cfgAt fs []).setup c1 c2 x p) rfl ((W.withSigma parse cfgAt fs []).encode x) (Exporter.syslog W.sends) ([], 0) sha (compileSigma W.L parse (cfgAt (engineConf c2).configPath)) files tr' (mo ++ ms) y' ∧
          Waited y'.1 ∧ driven tr' = driven tr ∧ y'.2.dir = y.2.dir ∧ Monitor.Live.pushed ms = []) :=
  sigma_hot_out (T := (Exporter.syslog W.sends)) (x0 := ([], 0)) (Result := fun ms o => GetsThrough W.sends x.eventBuffer ms o.1 o.2) W parse cfgAt fs hm u hparse hp hl hmon hw hx ho hb hd hlib hv hn h1 h2 h3 h4
    (fun p => usual_syslog (W.withSigma parse cfgAt fs []) c1 c2 (p := p) ht) (fun p => syslog_delivers ((W.withSigma parse cfgAt fs []).setup c1 c2 x p) _ W.sends)

/-- **C123** From the configuration and the directory of rules, through its changes, to a file that cannot always be written: in every run over records whose process parents are older, when `Wait` returns, the messages are complete under the rules of the
directory and then those adopted, which are those of texts that its files had at some time; and there is such a run from wherever the driver is done. -/
theorem sigma_hot_file {C : Type} [DecidableEq C] (W : World Unit) (parse : Str → Option SigmaRule) (cfgAt : Str → ConfigFile) (fs : Str → Dir) {m : Manifest} {env : List Str}
    {cs : List Pipeline.Conf} {c1 c2 c3 : Pipeline.Conf} {a b d : Str} (hm : setManifest m env cs = [c1, c2, c3]) (u : Usual c1 c2 c3 a b d)
    (hparse : ∀ t r, parse t = some r → (r.searches.map (·.1)).Nodup)
    (hp : (engineConf c2).policiesPath ≠ []) (hl : (engineConf c2).language = .sigma) (hmon : (engineConf c2).monitor = .loc) (hw : 0 < (engineConf c2).concurrency)
    {x : XConfig} (hx : createConfigX W.secrets (xconf c3) = some x) (ho : W.exports x = true) (ht : x.transport = .file)
    (hb : Benign W.builtIn W.user) (hd : (createFlattenerConfig (Config.toConf (xconf c1))).1.filterOn = false) (hlib : Json.Spec.LibOk W.L) (hv : Json.Spec.VersionOk (Utf8.bytes m.jsonSchema)) (hn : KindNames W.L)
    {files : List (Monitor.FileEnt Str)} {texts : List Str} {fm : FieldMappings} (h1 : fs (engineConf c2).policiesPath = some files)
    (h2 : PolicyFiles true files texts) (h3 : Configures (cfgAt (engineConf c2).configPath) fm)
    (h4 : ∀ t ∈ texts, ∀ r, parse t = some r → Supported fm r) :
    ∃ (l : Load Factory) (p : SigmaSet W.L parse), loadStages (W.withSigma parse cfgAt fs []).env { regs := bootRegs } (setManifest m env cs) = .done l ∧
      netOf (W.withSigma parse cfgAt fs []).comp (setManifest m env cs) l chanSize = ((W.withSigma parse cfgAt fs []).setup c1 c2 x p).outNet ((W.withSigma parse cfgAt fs []).encode x) (Exporter.fileTransport W.writes) Exporter.newFile ∧ p.policy = ⟨rulesIn parse texts, fm⟩ ∧
      ∀ (sha : Str → C) (rs : List Rec), OlderParents rs → rs.length ≤ W.fuel →
      ∀ (tr : List (Drain.Obs Msg)) (mo : List (Monitor.Live.Obs Str (SigmaSet W.L parse))) (y : Drain.St (((W.withSigma parse cfgAt fs []).setup c1 c2 x p).outNet ((W.withSigma parse cfgAt fs []).encode x) (Exporter.fileTransport W.writes) Exporter.newFile) × Monitor.Live.LSt Str C (SigmaSet W.L parse)),
        OutReloadRun ((W.withSigma parse cfgAt fs []).setup c1 c2 x p) rfl ((W.withSigma parse cfgAt fs []).encode x) (Exporter.fileTransport W.writes) Exporter.newFile sha (compileSigma W.L parse (cfgAt (engineConf c2).configPath)) files tr mo y →
        (Waited y.1 → driven tr = rs.map Msg.sf →
          ∃ as ms, SigmaMessages ((W.withSigma parse cfgAt fs []).setup c1 c2 x p) SigmaSet.policy ((W.withSigma parse cfgAt fs []).SigmaMessage SigmaSet.policy c1 c2 x p) (p :: as) (eventsAfter [] rs) ms ∧
            (∃ fates, KeptOf W.writes x.eventBuffer ms (((W.withSigma parse cfgAt fs []).setup c1 c2 x p).outOf y.1).contents (((W.withSigma parse cfgAt fs []).setup c1 c2 x p).outOf y.1).writes fates) ∧ as ++ y.2.chan = Monitor.Live.pushed mo ∧
            ∀ q ∈ as, ∃ ts, q.policy = ⟨rulesIn parse ts, fm⟩ ∧ FromHistory (Reload.dirsOf files mo) ts) ∧
        (rootClosed tr = true → ∃ tr' ms y', OutReloadRun ((W.withSigma parse cfgAt fs []).setup c1 c2 x p) rfl ((W.withSigma parse cfgAt fs []).encode x) (Exporter.fileTransport W.writes) Exporter.newFile sha (compileSigma W.L parse (cfgAt (engineConf c2).configPath)) files tr' (mo ++ ms) y' ∧
          Waited y'.1 ∧ driven tr' = driven tr ∧ y'.2.dir = y.2.dir ∧ Monitor.Live.pushed ms = []) :=
  sigma_hot_out (T := (Exporter.fileTransport W.writes)) (x0 := Exporter.newFile) (Result := fun ms o => ∃ fates, KeptOf W.writes x.eventBuffer ms o.contents o.writes fates) W parse cfgAt fs hm u hparse hp hl hmon hw hx ho hb hd hlib hv hn h1 h2 h3 h4
    (fun p => usual_failing_file (W.withSigma parse cfgAt fs []) c1 c2 (p := p) ht) (fun p => file_delivers ((W.withSigma parse cfgAt fs []).setup c1 c2 x p) _ W.writes)

/-- **C123** From the configuration and the directory of rules to Elastic, whichever calls fail: the same for the documents the client is asked to index. -/
theorem sigma_start_elastic (W : World Unit) (parse : Str → Option SigmaRule) (cfgAt : Str → ConfigFile) (fs : Str → Dir) (later : List (SigmaSet W.L parse)) {m : Manifest} {env : List Str}
    {cs : List Pipeline.Conf} {c1 c2 c3 : Pipeline.Conf} {a b d : Str} (hm : setManifest m env cs = [c1, c2, c3]) (u : Usual c1 c2 c3 a b d)
    (hparse : ∀ t r, parse t = some r → (r.searches.map (·.1)).Nodup)
    (hp : (engineConf c2).policiesPath ≠ []) (hl : (engineConf c2).language = .sigma) (hw : 0 < (engineConf c2).concurrency)
    {x : XConfig} (hx : createConfigX W.secrets (xconf c3) = some x) (ho : W.connects x = true) (hf : x.format = .ecs) (ht : x.transport = .es)
    (hb : Benign W.builtIn W.user) (hd : (createFlattenerConfig (Config.toConf (xconf c1))).1.filterOn = false) (hlib : Json.Spec.LibOk W.L) (hv : Json.Spec.VersionOk (Utf8.bytes m.jsonSchema)) (hn : KindNames W.L)
    {files : List (Monitor.FileEnt Str)} {texts : List Str} {fm : FieldMappings} (h1 : fs (engineConf c2).policiesPath = some files)
    (h2 : PolicyFiles ((engineConf c2).monitor == .loc) files texts) (h3 : Configures (cfgAt (engineConf c2).configPath) fm)
    (h4 : ∀ t ∈ texts, ∀ r, parse t = some r → Supported fm r) :
    ∃ (l : Load Factory) (p : SigmaSet W.L parse), loadStages (W.withSigma parse cfgAt fs later).env { regs := bootRegs } (setManifest m env cs) = .done l ∧
      netOf (W.withSigma parse cfgAt fs later).comp (setManifest m env cs) l chanSize = ((W.withSigma parse cfgAt fs later).ecsSide c1 c2 x p).elasticWith W.sends ∧ p.policy = ⟨rulesIn parse texts, fm⟩ ∧
      ∀ ds : List (FileData Rec), (∀ f ∈ ds, f ≠ .noOpen) → OlderParents (recordsIn ds) → (recordsIn ds).length ≤ W.fuel →
        (∀ (tr : List (Drain.Obs Msg)) (s : PSt Rec (((W.withSigma parse cfgAt fs later).ecsSide c1 c2 x p).elasticWith W.sends)), PExec Msg.sf _ (fileDriver (fun _ => true) (some ds)) tr s → ∀ e, s.status = some e →
          e = false ∧ ∃ rest docs parts, SigmaSent ((W.withSigma parse cfgAt fs later).setup c1 c2 x p) ((W.withSigma parse cfgAt fs later).ecsSide c1 c2 x p) SigmaSet.policy (p :: rest) (eventsAfter [] (recordsIn ds)) docs ∧
            RequestsFor W.sends x.eventBuffer docs (((W.withSigma parse cfgAt fs later).ecsSide c1 c2 x p).bulkOf s.net).ops (((W.withSigma parse cfgAt fs later).ecsSide c1 c2 x p).bulkOf s.net).calls parts) ∧
        ∃ (tr : List (Drain.Obs Msg)) (s : PSt Rec (((W.withSigma parse cfgAt fs later).ecsSide c1 c2 x p).elasticWith W.sends)), PExec Msg.sf _ (fileDriver (fun _ => true) (some ds)) tr s ∧ s.status = some false := by
  have hexp : W.exports x = true := by
    unfold World.exports
    rw [hf, ht, ho]
    rfl
  obtain ⟨p, hready, hpol, hok, -, hdd⟩ := sigma_ready W parse cfgAt fs later hm u hparse hp hl hw hx hexp hb hd hlib hv hn h1 h2 h3 h4
  obtain ⟨l, k1, -, -, k4⟩ := usual_boots (W.withSigma parse cfgAt fs later) u hready
  obtain ⟨hN, hC⟩ := netWith_ok ((W.withSigma parse cfgAt fs later).setup c1 c2 x p) (Exporter.allOrNone ((W.withSigma parse cfgAt fs later).ecsSide c1 c2 x p).toElastic) (Exporter.elastic W.sends) ⟨[], 0⟩ hok.workers hok.cap
  rw [hm]
  refine ⟨l, p, k1, k4.trans (usual_failing_elastic (W.withSigma parse cfgAt fs later) c1 c2 hf ht), hpol, ?_⟩
  intro ds g1 g2 g3
  obtain ⟨body, b1, b2, -, -, -⟩ := file_driver_delivers (fun _ => true) (fun _ h => h) ds g1
  constructor
  · intro tr s hxx e he
    obtain ⟨⟨rd, cs'⟩, k5⟩ := Processor.reader_returns _ (Processor.older_parents_not_stuck _ g2) W.fuel g3
    obtain ⟨q1, q2, q3, q4⟩ := run_returned hN hC ⟨b1, b2⟩ hxx he
    have : Pipeline.sent (fileDriver (fun _ => true) (some ds)) = recordsIn ds := file_driver_all ds g1
    rw [this] at q4
    exact ⟨q1, sigma_elastic _ _ _ _ hok hn hdd W.sends k5 q2 q3 q4⟩
  · exact complete_run hN hC ⟨b1, b2⟩ Msg.sf

/-- **C123** From the configuration and the directory of rules, through its changes, to Elastic, whichever calls fail: the same for the documents the client is asked to index. -/
theorem sigma_hot_elastic {C : Type} [DecidableEq C] (W : World Unit) (parse : Str → Option SigmaRule) (cfgAt : Str → ConfigFile) (fs : Str → Dir) {m : Manifest} {env : List Str}
    {cs : List Pipeline.Conf} {c1 c2 c3 : Pipeline.Conf} {a b d : Str} (hm : setManifest m env cs = [c1, c2, c3]) (u : Usual c1 c2 c3 a b d)
    (hparse : ∀ t r, parse t = some r → (r.searches.map (·.1)).Nodup)
    (hp : (engineConf c2).policiesPath ≠ []) (hl : (engineConf c2).language = .sigma) (hmon : (engineConf c2).monitor = .loc) (hw : 0 < (engineConf c2).concurrency)
    {x : XConfig} (hx : createConfigX W.secrets (xconf c3) = some x) (ho : W.connects x = true) (hf : x.format = .ecs) (ht : x.transport = .es)
    (hb : Benign W.builtIn W.user) (hd : (createFlattenerConfig (Config.toConf (xconf c1))).1.filterOn = false) (hlib : Json.Spec.LibOk W.L) (hv : Json.Spec.VersionOk (Utf8.bytes m.jsonSchema)) (hn : KindNames W.L)
    {files : List (Monitor.FileEnt Str)} {texts : List Str} {fm : FieldMappings} (h1 : fs (engineConf c2).policiesPath = some files)
    (h2 : PolicyFiles true files texts) (h3 : Configures (cfgAt (engineConf c2).configPath) fm)
    (h4 : ∀ t ∈ texts, ∀ r, parse t = some r → Supported fm r) :
    ∃ (l : Load Factory) (p : SigmaSet W.L parse), loadStages (W.withSigma parse cfgAt fs []).env { regs := bootRegs } (setManifest m env cs) = .done l ∧
      netOf (W.withSigma parse cfgAt fs []).comp (setManifest m env cs) l chanSize = ((W.withSigma parse cfgAt fs []).ecsSide c1 c2 x p).elasticWith W.sends ∧ p.policy = ⟨rulesIn parse texts, fm⟩ ∧
      ∀ (sha : Str → C) (rs : List Rec), OlderParents rs → rs.length ≤ W.fuel →
      ∀ (tr : List (Drain.Obs Msg)) (mo : List (Monitor.Live.Obs Str (SigmaSet W.L parse))) (y : Drain.St (((W.withSigma parse cfgAt fs []).ecsSide c1 c2 x p).elasticWith W.sends) × Monitor.Live.LSt Str C (SigmaSet W.L parse)),
        ((W.withSigma parse cfgAt fs []).ecsSide c1 c2 x p).ReloadRun W.sends rfl sha (compileSigma W.L parse (cfgAt (engineConf c2).configPath)) files tr mo y →
        (Waited y.1 → driven tr = rs.map Msg.sf →
          ∃ as docs parts, SigmaSent ((W.withSigma parse cfgAt fs []).setup c1 c2 x p) ((W.withSigma parse cfgAt fs []).ecsSide c1 c2 x p) SigmaSet.policy (p :: as) (eventsAfter [] rs) docs ∧
            RequestsFor W.sends x.eventBuffer docs (((W.withSigma parse cfgAt fs []).ecsSide c1 c2 x p).bulkOf y.1).ops (((W.withSigma parse cfgAt fs []).ecsSide c1 c2 x p).bulkOf y.1).calls parts ∧ as ++ y.2.chan = Monitor.Live.pushed mo ∧
            ∀ q ∈ as, ∃ ts, q.policy = ⟨rulesIn parse ts, fm⟩ ∧ FromHistory (Reload.dirsOf files mo) ts) ∧
        (rootClosed tr = true → ∃ tr' ms y', ((W.withSigma parse cfgAt fs []).ecsSide c1 c2 x p).ReloadRun W.sends rfl sha (compileSigma W.L parse (cfgAt (engineConf c2).configPath)) files tr' (mo ++ ms) y' ∧
          Waited y'.1 ∧ driven tr' = driven tr ∧ y'.2.dir = y.2.dir ∧ Monitor.Live.pushed ms = []) := by
  have hexp : W.exports x = true := by
    unfold World.exports
    rw [hf, ht, ho]
    rfl
  obtain ⟨p, hready, hpol, hok, -, hdd⟩ := sigma_ready W parse cfgAt fs [] hm u hparse hp hl hw hx hexp hb hd hlib hv hn h1 (by rw [hmon]; exact h2) h3 h4
  obtain ⟨l, k1, -, -, k4⟩ := usual_boots (W.withSigma parse cfgAt fs []) u hready
  obtain ⟨hN, hC⟩ := netWith_ok ((W.withSigma parse cfgAt fs []).setup c1 c2 x p) (Exporter.allOrNone ((W.withSigma parse cfgAt fs []).ecsSide c1 c2 x p).toElastic) (Exporter.elastic W.sends) ⟨[], 0⟩ hok.workers hok.cap
  rw [hm]
  refine ⟨l, p, k1, k4.trans (usual_failing_elastic (W.withSigma parse cfgAt fs []) c1 c2 hf ht), hpol, ?_⟩
  intro sha rs hold hfuel tr mo y hrun
  refine ⟨fun hwait hdr => ?_, fun hroot => Reload.can_finish hN hC hrun hroot⟩
  obtain ⟨⟨rd, hcs⟩, hr⟩ := Processor.reader_returns _ (Processor.older_parents_not_stuck _ hold) W.fuel hfuel
  obtain ⟨as, docs, parts, g1, g2, g3, g4⟩ := sigma_reload_elastic _ ((W.withSigma parse cfgAt fs []).ecsSide c1 c2 x p) _ _ hok hn hdd W.sends rfl hr hrun hwait hdr
  exact ⟨as, docs, parts, g1, g2, g3, fun q hq => compiledSigma_history h3 (g4 q hq)⟩

/-! ### Concrete cases -/

theorem demoParse_only : ∀ t r, demoParse t = some r → r = lsSigma := by
  intro t r h
  unfold demoParse at h
  split at h
  · exact (Option.some.inj h).symm
  · cases h

/-- The demo configuration of the Sigma language with a monitor and terminal output. -/
def sigmaTermConfs : List Pipeline.Conf := [sigmaWatchConfs[0], sigmaWatchConfs[1], termConfs[2]]

def sigmaTermConfs' : List Pipeline.Conf := setManifest demoManifest [] sigmaTermConfs

theorem sigmaTerm_usual : ∃ c1 c2 c3, setManifest demoManifest [] sigmaTermConfs = [c1, c2, c3] ∧ Usual c1 c2 c3 "sysflow".toList "flat".toList "evt".toList ∧
    c1 = sigmaTermConfs'[0]'(by decide +kernel) ∧ c2 = sigmaTermConfs'[1]'(by decide +kernel) ∧ c3 = sigmaTermConfs'[2]'(by decide +kernel) := by
  obtain ⟨c1, c2, c3, h1, h2, -⟩ := usual_manifest (c1 := sigmaTermConfs[0]) (c2 := sigmaTermConfs[1]) (c3 := sigmaTermConfs[2]) (a := "sysflow".toList) (b := "flat".toList) (d := "evt".toList)
    demoManifest []
    ⟨by decide +kernel, by decide +kernel, by decide +kernel, by decide +kernel, ⟨_, rfl, by decide +kernel⟩, ⟨_, rfl, by decide +kernel⟩, ⟨_, "flattenerchan".toList, rfl, by decide +kernel⟩,
      ⟨_, rfl, by decide +kernel⟩, ⟨_, "eventchan".toList, rfl, by decide +kernel⟩, by decide +kernel, by decide, by decide, by decide⟩
  have e : sigmaTermConfs' = [c1, c2, c3] := h1
  refine ⟨c1, c2, c3, h1, h2, ?_, ?_, ?_⟩ <;> simp only [e] <;> rfl

theorem sigmaTerm_settings : (engineConf (sigmaTermConfs'[1]'(by decide +kernel))).policiesPath = "p".toList ∧ (engineConf (sigmaTermConfs'[1]'(by decide +kernel))).concurrency = 4 ∧
    (engineConf (sigmaTermConfs'[1]'(by decide +kernel))).monitor = .loc ∧ (engineConf (sigmaTermConfs'[1]'(by decide +kernel))).language = .sigma ∧
    (createFlattenerConfig (Config.toConf (xconf (sigmaTermConfs'[0]'(by decide +kernel))))).1.filterOn = false ∧
    (createConfigX ⟨fun _ => none, fun _ => none⟩ (xconf (sigmaTermConfs'[2]'(by decide +kernel)))).map (fun x => (x.format, x.transport, x.eventBuffer)) = some (.json, .terminal, 3) := by
  decide +kernel

/-- The demo configuration of the Sigma language with a monitor and documents for Elastic. -/
def sigmaElasticConfs : List Pipeline.Conf := [sigmaWatchConfs[0], sigmaWatchConfs[1], elasticConfs[2]]

def sigmaElasticConfs' : List Pipeline.Conf := setManifest demoManifest [] sigmaElasticConfs

theorem sigmaElastic_usual : ∃ c1 c2 c3, setManifest demoManifest [] sigmaElasticConfs = [c1, c2, c3] ∧ Usual c1 c2 c3 "sysflow".toList "flat".toList "evt".toList ∧
    c1 = sigmaElasticConfs'[0]'(by decide +kernel) ∧ c2 = sigmaElasticConfs'[1]'(by decide +kernel) ∧ c3 = sigmaElasticConfs'[2]'(by decide +kernel) := by
  obtain ⟨c1, c2, c3, h1, h2, -⟩ := usual_manifest (c1 := sigmaElasticConfs[0]) (c2 := sigmaElasticConfs[1]) (c3 := sigmaElasticConfs[2]) (a := "sysflow".toList) (b := "flat".toList) (d := "evt".toList)
    demoManifest []
    ⟨by decide +kernel, by decide +kernel, by decide +kernel, by decide +kernel, ⟨_, rfl, by decide +kernel⟩, ⟨_, rfl, by decide +kernel⟩, ⟨_, "flattenerchan".toList, rfl, by decide +kernel⟩,
      ⟨_, rfl, by decide +kernel⟩, ⟨_, "eventchan".toList, rfl, by decide +kernel⟩, by decide +kernel, by decide, by decide, by decide⟩
  have e : sigmaElasticConfs' = [c1, c2, c3] := h1
  refine ⟨c1, c2, c3, h1, h2, ?_, ?_, ?_⟩ <;> simp only [e] <;> rfl

theorem sigmaElastic_settings : (engineConf (sigmaElasticConfs'[1]'(by decide +kernel))).policiesPath = "p".toList ∧ (engineConf (sigmaElasticConfs'[1]'(by decide +kernel))).concurrency = 4 ∧
    (engineConf (sigmaElasticConfs'[1]'(by decide +kernel))).monitor = .loc ∧ (engineConf (sigmaElasticConfs'[1]'(by decide +kernel))).language = .sigma ∧
    (createFlattenerConfig (Config.toConf (xconf (sigmaElasticConfs'[0]'(by decide +kernel))))).1.filterOn = false ∧
    (createConfigX ⟨fun _ => none, fun _ => none⟩ (xconf (sigmaElasticConfs'[2]'(by decide +kernel)))).map (fun x => (x.format, x.transport, x.eventBuffer)) = some (.ecs, .es, 2) := by
  decide +kernel

open Classical in
/-- The hypotheses of `sigma_hot_terminal` are met: the program starts with the rules of two files, the monitor starts, the directory is watched and loses its second file, the driver sends the records, and the run
ends. -/
example : ∃ (c1 c2 : Pipeline.Conf) (x : XConfig) (l : Load Factory) (p : SigmaSet (badWorld ([], [])).L demoParse),
    let V := ((badWorld ([], [])).withSigma demoParse (fun _ => .ok lsPolicy.mappings) (fun s => if s = "p".toList then some sigmaDir else none) [])
    loadStages V.env { regs := bootRegs } (setManifest demoManifest [] sigmaTermConfs) = .done l ∧ p.policy = ⟨[.ok lsSigma, .unparsable], lsPolicy.mappings⟩ ∧
    ∃ tr mo y, OutReloadRun (V.setup c1 c2 x p) rfl (V.encode x) Exporter.terminal [] (id : Str → Str) (compileSigma (badWorld ([], [])).L demoParse (.ok lsPolicy.mappings)) sigmaDir tr mo y ∧ Waited y.1 ∧
      driven tr = Processor.saneStream.map Msg.sf ∧ y.2.dir = sigmaDir.take 1 ∧
      ∃ as ms, SigmaMessages (V.setup c1 c2 x p) SigmaSet.policy (V.SigmaMessage SigmaSet.policy c1 c2 x p) (p :: as) (eventsAfter [] Processor.saneStream) ms ∧ Printed ms ((V.setup c1 c2 x p).outOf y.1) := by
  obtain ⟨c1, c2, c3, hm, hu, e1, e2, e3⟩ := sigmaTerm_usual
  obtain ⟨s1, s2, s3, s6, s4, s5⟩ := sigmaTerm_settings
  rw [← e2] at s1 s2 s3 s6
  rw [← e1] at s4
  rw [← e3] at s5
  obtain ⟨x, hx, hs⟩ := Option.map_eq_some_iff.1 s5
  simp only [Prod.mk.injEq] at hs
  obtain ⟨f1, f2, f3⟩ := hs
  obtain ⟨l, p, h1, hnet, h2, h3⟩ := sigma_hot_terminal (C := Str) (badWorld ([], [])) demoParse (fun _ => .ok lsPolicy.mappings) (fun s => if s = "p".toList then some sigmaDir else none) hm hu
    (fun t r h => by rw [demoParse_only t r h]; decide) (by rw [s1]; decide) s6 s3 (by rw [s2]; decide) hx (by unfold World.exports; rw [f1, f2]; rfl) f2 (fun a f hf => by rcases hf with hf | hf <;> cases hf) s4 Json.demo_ok
    Json.demo_version demo_names (by rw [if_pos s1]) (sigma_policyFiles _) (.inr rfl) (fun t _ r h => by rw [demoParse_only t r h]; exact lsSigma_supported)
  have hrules : rulesIn demoParse ["ls".toList, "?".toList] = [.ok lsSigma, .unparsable] := by
    unfold rulesIn demoParse
    rw [List.map_cons, List.map_cons, List.map_nil, if_pos rfl, if_neg (by decide)]
  refine ⟨c1, c2, x, l, p, h1, h2.trans (by rw [hrules]), ?_⟩
  have hls : ∀ l ∈ ([.start, .add, .change (sigmaDir.take 1) [⟨"p/sub/b.yml".toList, 4⟩]] : List (Monitor.Live.Label Str)), Monitor.Joint.shared l = false := by
    intro l hl
    simp only [List.mem_cons, List.not_mem_nil, or_false] at hl
    rcases hl with rfl | rfl | rfl <;> rfl
  have e0 : OutReloadRun (World.setup ((badWorld ([], [])).withSigma demoParse (fun _ => .ok lsPolicy.mappings) (fun s => if s = "p".toList then some sigmaDir else none) []) c1 c2 x p) rfl (World.encode ((badWorld ([], [])).withSigma demoParse (fun _ => .ok lsPolicy.mappings) (fun s => if s = "p".toList then some sigmaDir else none) []) x) Exporter.terminal [] (id : Str → Str) (compileSigma (badWorld ([], [])).L demoParse (.ok lsPolicy.mappings)) sigmaDir [] [] (Drain.St.start (Setup.outNet (World.setup ((badWorld ([], [])).withSigma demoParse (fun _ => .ok lsPolicy.mappings) (fun s => if s = "p".toList then some sigmaDir else none) []) c1 c2 x p) (World.encode ((badWorld ([], [])).withSigma demoParse (fun _ => .ok lsPolicy.mappings) (fun s => if s = "p".toList then some sigmaDir else none) []) x) Exporter.terminal []), Monitor.Live.init sigmaDir) := .nil
  obtain ⟨t1, x1, e1, n1, b1, k1, d1, -, -⟩ := Reload.lift_run e0 rfl hls rfl
  have hbuf : ∀ c, x1.buf c = [] := fun c => by rw [b1]; rfl
  have hcl : ∀ c, x1.closed c = false := fun c => by rw [k1]; rfl
  obtain ⟨t2, ms2, x2, e2, r2, d2, g2⟩ := Reload.drive_and_close e1 n1 (hcl _) (Processor.saneStream.map Msg.sf) (by rw [hbuf]; change 0 + 7 ≤ 100000; decide)
  obtain ⟨-, a2⟩ := h3 (id : Str → Str) Processor.saneStream Processor.sane_older (by change 7 ≤ 10; decide) _ _ _ e2
  obtain ⟨t3, ms3, y, e4, w4, d4, g4, -⟩ := a2 r2
  have hdr : driven t3 = Processor.saneStream.map Msg.sf := by rw [d4, d2, List.nil_append, d1]; rfl
  obtain ⟨as, ms, ha, hb, -⟩ := (h3 (id : Str → Str) Processor.saneStream Processor.sane_older (by change 7 ≤ 10; decide) _ _ _ e4).1 w4 hdr
  exact ⟨t3, _, y, e4, w4, hdr, g4.trans (g2.trans rfl), as, ms, ha, hb⟩

open Classical in
/-- The hypotheses of `sigma_hot_elastic` are met: the program starts with the rules of two files, the monitor starts, the directory is watched and loses its second file, the driver sends the records, and the run
ends, while every second call of the client fails. -/
example : ∃ (c1 c2 : Pipeline.Conf) (x : XConfig) (l : Load Factory) (p : SigmaSet (badWorld ([], [])).L demoParse),
    let V := ((badWorld ([], [])).withSigma demoParse (fun _ => .ok lsPolicy.mappings) (fun s => if s = "p".toList then some sigmaDir else none) [])
    loadStages V.env { regs := bootRegs } (setManifest demoManifest [] sigmaElasticConfs) = .done l ∧ p.policy = ⟨[.ok lsSigma, .unparsable], lsPolicy.mappings⟩ ∧
    ∃ tr mo y, (V.ecsSide c1 c2 x p).ReloadRun (fun i => i % 2 == 0) rfl (id : Str → Str) (compileSigma (badWorld ([], [])).L demoParse (.ok lsPolicy.mappings)) sigmaDir tr mo y ∧ Waited y.1 ∧
      driven tr = Processor.saneStream.map Msg.sf ∧ y.2.dir = sigmaDir.take 1 ∧
      ∃ as docs parts, SigmaSent (V.setup c1 c2 x p) (V.ecsSide c1 c2 x p) SigmaSet.policy (p :: as) (eventsAfter [] Processor.saneStream) docs ∧
        RequestsFor (fun i => i % 2 == 0) x.eventBuffer docs ((V.ecsSide c1 c2 x p).bulkOf y.1).ops ((V.ecsSide c1 c2 x p).bulkOf y.1).calls parts := by
  obtain ⟨c1, c2, c3, hm, hu, e1, e2, e3⟩ := sigmaElastic_usual
  obtain ⟨s1, s2, s3, s6, s4, s5⟩ := sigmaElastic_settings
  rw [← e2] at s1 s2 s3 s6
  rw [← e1] at s4
  rw [← e3] at s5
  obtain ⟨x, hx, hs⟩ := Option.map_eq_some_iff.1 s5
  simp only [Prod.mk.injEq] at hs
  obtain ⟨f1, f2, f3⟩ := hs
  obtain ⟨l, p, h1, hnet, h2, h3⟩ := sigma_hot_elastic (C := Str) (badWorld ([], [])) demoParse (fun _ => .ok lsPolicy.mappings) (fun s => if s = "p".toList then some sigmaDir else none) hm hu
    (fun t r h => by rw [demoParse_only t r h]; decide) (by rw [s1]; decide) s6 s3 (by rw [s2]; decide) hx rfl f1 f2 (fun a f hf => by rcases hf with hf | hf <;> cases hf) s4 Json.demo_ok
    Json.demo_version demo_names (by rw [if_pos s1]) (sigma_policyFiles _) (.inr rfl) (fun t _ r h => by rw [demoParse_only t r h]; exact lsSigma_supported)
  have hrules : rulesIn demoParse ["ls".toList, "?".toList] = [.ok lsSigma, .unparsable] := by
    unfold rulesIn demoParse
    rw [List.map_cons, List.map_cons, List.map_nil, if_pos rfl, if_neg (by decide)]
  refine ⟨c1, c2, x, l, p, h1, h2.trans (by rw [hrules]), ?_⟩
  have hls : ∀ l ∈ ([.start, .add, .change (sigmaDir.take 1) [⟨"p/sub/b.yml".toList, 4⟩]] : List (Monitor.Live.Label Str)), Monitor.Joint.shared l = false := by
    intro l hl
    simp only [List.mem_cons, List.not_mem_nil, or_false] at hl
    rcases hl with rfl | rfl | rfl <;> rfl
  have e0 : (World.ecsSide ((badWorld ([], [])).withSigma demoParse (fun _ => .ok lsPolicy.mappings) (fun s => if s = "p".toList then some sigmaDir else none) []) c1 c2 x p).ReloadRun (fun i => i % 2 == 0) rfl (id : Str → Str) (compileSigma (badWorld ([], [])).L demoParse (.ok lsPolicy.mappings)) sigmaDir [] [] (Drain.St.start (EcsSide.elasticWith (World.ecsSide ((badWorld ([], [])).withSigma demoParse (fun _ => .ok lsPolicy.mappings) (fun s => if s = "p".toList then some sigmaDir else none) []) c1 c2 x p) (fun i => i % 2 == 0)), Monitor.Live.init sigmaDir) := .nil
  obtain ⟨t1, x1, e1, n1, b1, k1, d1, -, -⟩ := Reload.lift_run e0 rfl hls rfl
  have hbuf : ∀ c, x1.buf c = [] := fun c => by rw [b1]; rfl
  have hcl : ∀ c, x1.closed c = false := fun c => by rw [k1]; rfl
  obtain ⟨t2, ms2, x2, e2, r2, d2, g2⟩ := Reload.drive_and_close e1 n1 (hcl _) (Processor.saneStream.map Msg.sf) (by rw [hbuf]; change 0 + 7 ≤ 100000; decide)
  obtain ⟨-, a2⟩ := h3 (id : Str → Str) Processor.saneStream Processor.sane_older (by change 7 ≤ 10; decide) _ _ _ e2
  obtain ⟨t3, ms3, y, e4, w4, d4, g4, -⟩ := a2 r2
  have hdr : driven t3 = Processor.saneStream.map Msg.sf := by rw [d4, d2, List.nil_append, d1]; rfl
  obtain ⟨as, ms, parts, ha, hb, -⟩ := (h3 (id : Str → Str) Processor.saneStream Processor.sane_older (by change 7 ≤ 10; decide) _ _ _ e4).1 w4 hdr
  exact ⟨t3, _, y, e4, w4, hdr, g4.trans (g2.trans rfl), as, ms, parts, ha, hb⟩

open Classical in
/-- The hypotheses of `sigma_out_edit_takes_effect` are met by an edit from a rule to a text that is no rule. -/
example : ∃ (c1 c2 : Pipeline.Conf) (x : XConfig) (p q : SigmaSet (badWorld ([], [])).L demoParse),
    let V := ((badWorld ([], [])).withSigma demoParse (fun _ => .ok lsPolicy.mappings) (fun s => if s = "p".toList then some (watchDir "ls".toList) else none) [])
    p.policy = ⟨[.ok lsSigma], lsPolicy.mappings⟩ ∧ q.policy = ⟨[.unparsable], lsPolicy.mappings⟩ ∧
    ∃ tr mo y, OutReloadRun (V.setup c1 c2 x p) rfl (V.encode x) Exporter.terminal [] (id : Str → Str) (compileSigma (badWorld ([], [])).L demoParse (.ok lsPolicy.mappings)) (watchDir "ls".toList) tr mo y ∧ Waited y.1 ∧ driven tr = Processor.saneStream.map Msg.sf ∧
      ∃ ms, SigmaMessages (V.setup c1 c2 x p) SigmaSet.policy (V.SigmaMessage SigmaSet.policy c1 c2 x p) [p, q] (eventsAfter [] Processor.saneStream) ms ∧ Printed ms ((V.setup c1 c2 x p).outOf y.1) := by
  obtain ⟨c1, c2, c3, hm, hu, e1, e2, e3⟩ := sigmaTerm_usual
  obtain ⟨s1, s2, s3, s6, s4, s5⟩ := sigmaTerm_settings
  rw [← e2] at s1 s2 s3 s6
  rw [← e1] at s4
  rw [← e3] at s5
  obtain ⟨x, hx, hs⟩ := Option.map_eq_some_iff.1 s5
  simp only [Prod.mk.injEq] at hs
  obtain ⟨f1, f2, f3⟩ := hs
  obtain ⟨p, hready, hpol, hok, henc, hdd⟩ := sigma_ready (badWorld ([], [])) demoParse (fun _ => .ok lsPolicy.mappings) (fun s => if s = "p".toList then some (watchDir "ls".toList) else none) [] hm hu
    (fun t r h => by rw [demoParse_only t r h]; decide) (by rw [s1]; decide) s6 (by rw [s2]; decide) hx (by unfold World.exports; rw [f1, f2]; rfl) (fun a f hf => by rcases hf with hf | hf <;> cases hf) s4 Json.demo_ok
    Json.demo_version demo_names (by rw [if_pos s1]) (by rw [s3]; exact sole_policyFiles a_yaml "ls".toList) (.inr rfl) (fun t _ r h => by rw [demoParse_only t r h]; exact lsSigma_supported)
  obtain ⟨q, hq, hqp⟩ := compileSigma_accepts (badWorld ([], [])).L demoParse (.ok lsPolicy.mappings) (fm := lsPolicy.mappings) (.inr rfl) [("p/a.yaml".toList, some "?".toList)] ["?".toList] rfl
    (fun t _ r h => by rw [demoParse_only t r h]; exact lsSigma_supported)
  obtain ⟨⟨rd, hcs⟩, hr⟩ := Processor.reader_returns _ (Processor.older_parents_not_stuck _ Processor.sane_older) 10 (by change 7 ≤ 10; decide)
  have hev : eventsAfter [] Processor.saneStream ≠ [] := by
    intro h
    have : (eventsAfter [] Processor.saneStream).length = 0 := by rw [h]; rfl
    revert this
    decide
  have r1 : rulesIn demoParse ["ls".toList] = [.ok lsSigma] := by
    unfold rulesIn demoParse
    rw [List.map_cons, List.map_nil, if_pos rfl]
  have r2 : rulesIn demoParse ["?".toList] = [.unparsable] := by
    unfold rulesIn demoParse
    rw [List.map_cons, List.map_nil, if_neg (by decide)]
  rw [r1] at hpol
  rw [r2] at hqp
  obtain ⟨tr, mo, y, k1, k2, k3, -, ms, k4, k5⟩ := sigma_out_edit_takes_effect _ SigmaSet.policy SigmaSet.cfg hok hdd henc (terminal_delivers _ _) (by change (_ == _) = true; rw [s3]; rfl) rfl
    (id : Str → Str) a_yaml "ls".toList "?".toList hq hr hev (by change 7 ≤ 100000; decide)
  exact ⟨c1, c2, x, p, q, hpol, hqp, tr, mo, y, k1, k2, k3, ms, k4, k5⟩

open Classical in
/-- The hypotheses of `sigma_elastic_edit_takes_effect` are met by an edit from a rule to a text that is no rule. -/
example : ∃ (c1 c2 : Pipeline.Conf) (x : XConfig) (p q : SigmaSet (badWorld ([], [])).L demoParse),
    let V := ((badWorld ([], [])).withSigma demoParse (fun _ => .ok lsPolicy.mappings) (fun s => if s = "p".toList then some (watchDir "ls".toList) else none) [])
    p.policy = ⟨[.ok lsSigma], lsPolicy.mappings⟩ ∧ q.policy = ⟨[.unparsable], lsPolicy.mappings⟩ ∧
    ∃ tr mo y, (V.ecsSide c1 c2 x p).ReloadRun (fun i => i % 2 == 0) rfl (id : Str → Str) (compileSigma (badWorld ([], [])).L demoParse (.ok lsPolicy.mappings)) (watchDir "ls".toList) tr mo y ∧ Waited y.1 ∧ driven tr = Processor.saneStream.map Msg.sf ∧
      ∃ docs parts, SigmaSent (V.setup c1 c2 x p) (V.ecsSide c1 c2 x p) SigmaSet.policy [p, q] (eventsAfter [] Processor.saneStream) docs ∧
        RequestsFor (fun i => i % 2 == 0) x.eventBuffer docs ((V.ecsSide c1 c2 x p).bulkOf y.1).ops ((V.ecsSide c1 c2 x p).bulkOf y.1).calls parts := by
  obtain ⟨c1, c2, c3, hm, hu, e1, e2, e3⟩ := sigmaElastic_usual
  obtain ⟨s1, s2, s3, s6, s4, s5⟩ := sigmaElastic_settings
  rw [← e2] at s1 s2 s3 s6
  rw [← e1] at s4
  rw [← e3] at s5
  obtain ⟨x, hx, hs⟩ := Option.map_eq_some_iff.1 s5
  simp only [Prod.mk.injEq] at hs
  obtain ⟨f1, f2, f3⟩ := hs
  obtain ⟨p, hready, hpol, hok, henc, hdd⟩ := sigma_ready (badWorld ([], [])) demoParse (fun _ => .ok lsPolicy.mappings) (fun s => if s = "p".toList then some (watchDir "ls".toList) else none) [] hm hu
    (fun t r h => by rw [demoParse_only t r h]; decide) (by rw [s1]; decide) s6 (by rw [s2]; decide) hx (by unfold World.exports; rw [f1, f2]; rfl) (fun a f hf => by rcases hf with hf | hf <;> cases hf) s4 Json.demo_ok
    Json.demo_version demo_names (by rw [if_pos s1]) (by rw [s3]; exact sole_policyFiles a_yaml "ls".toList) (.inr rfl) (fun t _ r h => by rw [demoParse_only t r h]; exact lsSigma_supported)
  obtain ⟨q, hq, hqp⟩ := compileSigma_accepts (badWorld ([], [])).L demoParse (.ok lsPolicy.mappings) (fm := lsPolicy.mappings) (.inr rfl) [("p/a.yaml".toList, some "?".toList)] ["?".toList] rfl
    (fun t _ r h => by rw [demoParse_only t r h]; exact lsSigma_supported)
  obtain ⟨⟨rd, hcs⟩, hr⟩ := Processor.reader_returns _ (Processor.older_parents_not_stuck _ Processor.sane_older) 10 (by change 7 ≤ 10; decide)
  have hev : eventsAfter [] Processor.saneStream ≠ [] := by
    intro h
    have : (eventsAfter [] Processor.saneStream).length = 0 := by rw [h]; rfl
    revert this
    decide
  have r1 : rulesIn demoParse ["ls".toList] = [.ok lsSigma] := by
    unfold rulesIn demoParse
    rw [List.map_cons, List.map_nil, if_pos rfl]
  have r2 : rulesIn demoParse ["?".toList] = [.unparsable] := by
    unfold rulesIn demoParse
    rw [List.map_cons, List.map_nil, if_neg (by decide)]
  rw [r1] at hpol
  rw [r2] at hqp
  obtain ⟨tr, mo, y, k1, k2, k3, -, docs, parts, k4, k5⟩ := sigma_elastic_edit_takes_effect _ (World.ecsSide ((badWorld ([], [])).withSigma demoParse (fun _ => .ok lsPolicy.mappings) (fun s => if s = "p".toList then some (watchDir "ls".toList) else none) []) c1 c2 x p) SigmaSet.policy SigmaSet.cfg hok demo_names hdd (fun i => i % 2 == 0) (by change (_ == _) = true; rw [s3]; rfl) rfl
    (id : Str → Str) a_yaml "ls".toList "?".toList hq hr hev (by change 7 ≤ 100000; decide)
  exact ⟨c1, c2, x, p, q, hpol, hqp, tr, mo, y, k1, k2, k3, docs, parts, k4, k5⟩

open Classical in
/-- The hypotheses of `sigma_start_terminal` are met by the demo configuration over one file with the sample stream. -/
example : ∃ (c1 c2 : Pipeline.Conf) (x : XConfig) (l : Load Factory) (p : SigmaSet (badWorld ([], [])).L demoParse),
    let V := ((badWorld ([], [])).withSigma demoParse (fun _ => .ok lsPolicy.mappings) (fun s => if s = "p".toList then some sigmaDir else none) [])
    loadStages V.env { regs := bootRegs } (setManifest demoManifest [] sigmaTermConfs) = .done l ∧
    ∃ (tr : List (Drain.Obs Msg)) (s : PSt Rec ((V.setup c1 c2 x p).outNet (V.encode x) Exporter.terminal [])), PExec Msg.sf _ (fileDriver (fun _ => true) (some [FileData.data (Processor.saneStream.map .record)])) tr s ∧ s.status = some false ∧
      ∃ rest ms, SigmaMessages (V.setup c1 c2 x p) SigmaSet.policy (V.SigmaMessage SigmaSet.policy c1 c2 x p) (p :: rest) (eventsAfter [] Processor.saneStream) ms ∧ Printed ms ((V.setup c1 c2 x p).outOf s.net) := by
  obtain ⟨c1, c2, c3, hm, hu, e1, e2, e3⟩ := sigmaTerm_usual
  obtain ⟨s1, s2, s3, s6, s4, s5⟩ := sigmaTerm_settings
  rw [← e2] at s1 s2 s3 s6
  rw [← e1] at s4
  rw [← e3] at s5
  obtain ⟨x, hx, hs⟩ := Option.map_eq_some_iff.1 s5
  simp only [Prod.mk.injEq] at hs
  obtain ⟨f1, f2, f3⟩ := hs
  obtain ⟨l, p, h1, -, -, h3⟩ := sigma_start_terminal (badWorld ([], [])) demoParse (fun _ => .ok lsPolicy.mappings) (fun s => if s = "p".toList then some sigmaDir else none) [] hm hu
    (fun t r h => by rw [demoParse_only t r h]; decide) (by rw [s1]; decide) s6 (by rw [s2]; decide) hx (by unfold World.exports; rw [f1, f2]; rfl) f2 (fun a f hf => by rcases hf with hf | hf <;> cases hf) s4 Json.demo_ok
    Json.demo_version demo_names (by rw [if_pos s1]) (by rw [s3]; exact sigma_policyFiles _) (.inr rfl) (fun t _ r h => by rw [demoParse_only t r h]; exact lsSigma_supported)
  have hopen : ∀ f ∈ [FileData.data (Processor.saneStream.map .record)], f ≠ .noOpen := by
    intro f hf
    rw [List.mem_singleton.1 hf]; intro h; cases h
  obtain ⟨r1, tr, s, r2, r3⟩ := h3 _ hopen (by change OlderParents Processor.saneStream; exact Processor.sane_older) (by change 7 ≤ 10; decide)
  exact ⟨c1, c2, x, l, p, h1, tr, s, r2, r3, (r1 tr s r2 _ r3).2⟩

open Classical in
/-- The hypotheses of `sigma_start_elastic` are met by the demo configuration over one file with the sample stream. -/
example : ∃ (c1 c2 : Pipeline.Conf) (x : XConfig) (l : Load Factory) (p : SigmaSet (badWorld ([], [])).L demoParse),
    let V := ((badWorld ([], [])).withSigma demoParse (fun _ => .ok lsPolicy.mappings) (fun s => if s = "p".toList then some sigmaDir else none) [])
    loadStages V.env { regs := bootRegs } (setManifest demoManifest [] sigmaElasticConfs) = .done l ∧
    ∃ (tr : List (Drain.Obs Msg)) (s : PSt Rec ((V.ecsSide c1 c2 x p).elasticWith (fun i => i % 2 == 0))), PExec Msg.sf _ (fileDriver (fun _ => true) (some [FileData.data (Processor.saneStream.map .record)])) tr s ∧ s.status = some false ∧
      ∃ rest docs parts, SigmaSent (V.setup c1 c2 x p) (V.ecsSide c1 c2 x p) SigmaSet.policy (p :: rest) (eventsAfter [] Processor.saneStream) docs ∧
        RequestsFor (fun i => i % 2 == 0) x.eventBuffer docs ((V.ecsSide c1 c2 x p).bulkOf s.net).ops ((V.ecsSide c1 c2 x p).bulkOf s.net).calls parts := by
  obtain ⟨c1, c2, c3, hm, hu, e1, e2, e3⟩ := sigmaElastic_usual
  obtain ⟨s1, s2, s3, s6, s4, s5⟩ := sigmaElastic_settings
  rw [← e2] at s1 s2 s3 s6
  rw [← e1] at s4
  rw [← e3] at s5
  obtain ⟨x, hx, hs⟩ := Option.map_eq_some_iff.1 s5
  simp only [Prod.mk.injEq] at hs
  obtain ⟨f1, f2, f3⟩ := hs
  obtain ⟨l, p, h1, -, -, h3⟩ := sigma_start_elastic (badWorld ([], [])) demoParse (fun _ => .ok lsPolicy.mappings) (fun s => if s = "p".toList then some sigmaDir else none) [] hm hu
    (fun t r h => by rw [demoParse_only t r h]; decide) (by rw [s1]; decide) s6 (by rw [s2]; decide) hx rfl f1 f2 (fun a f hf => by rcases hf with hf | hf <;> cases hf) s4 Json.demo_ok
    Json.demo_version demo_names (by rw [if_pos s1]) (by rw [s3]; exact sigma_policyFiles _) (.inr rfl) (fun t _ r h => by rw [demoParse_only t r h]; exact lsSigma_supported)
  have hopen : ∀ f ∈ [FileData.data (Processor.saneStream.map .record)], f ≠ .noOpen := by
    intro f hf
    rw [List.mem_singleton.1 hf]; intro h; cases h
  obtain ⟨r1, tr, s, r2, r3⟩ := h3 _ hopen (by change OlderParents Processor.saneStream; exact Processor.sane_older) (by change 7 ≤ 10; decide)
  exact ⟨c1, c2, x, l, p, h1, tr, s, r2, r3, (r1 tr s r2 _ r3).2⟩

end Verif.Whole
