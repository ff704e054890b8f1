import Verif.Exporter.Partly
import Verif.Whole.OtelReloadMoment
/-
C130: the build for OpenTelemetry logs when the producer refuses messages or writes fail, and printing to the terminal: when `Wait` returns, at every moment, and beside a changing policy directory.
Sources: /repo/driver/pipeline/pipeline.go:135-294, /repo/core/policyengine/policyengine.go:101-234, /repo/core/policyengine/policyengine_otel.go:26-36, /repo/core/exporter/exporter.go:104-176,
/repo/core/exporter/encoders/otel.go:53-82, /repo/core/exporter/transports/kafka.go:57-75, file.go:51-70, terminal.go:45-56
-/
namespace Verif.OtelRun
open Verif.Decimal (Str)
open Verif.Exporter (Bytes Accepted KeptOf newline)
open Verif.Policy
open Verif.Otel
open Verif.Falco (Decl GPolicy ltokens StrRule Cyclic MentionsE sites asRule siteCond)
open Verif.Pipeline
open Verif.Pipeline.Process
open Verif.Pipeline.Drain (Net Comp sync engine exporter chain driven rootClosed Exec Waited emitted)
open Verif.Config (XConf XVal XConfig ConfEnv EngineConfig createConfigX createEngineConfig createFlattenerConfig engineInit)
open Verif.Whole (Factory bootRegs xconf engineConf seconds chanSize Dir PolicySetOf PolicyFiles initPolicies compileRead compileRead_some FromHistory policySet_good policy_texts_compile TakenSoFar)

variable {P : Type}

/-! ### Model -/

/-- The pipeline producing to Kafka, when `Produce` accepts the messages for which `ok` holds. -/
def Setup.someKafkaNet (S : Setup P) (ok : Nat → Bool) : Net ResourceLogs := S.netWith (Exporter.kafka ok) ([], 0)

/-- The pipeline writing to a file, of whose writes `os` says how far they get. -/
def Setup.someFileNet (S : Setup P) (os : Nat → Option Nat) : Net ResourceLogs := S.netWith (Exporter.fileTransport os) Exporter.newFile

/-- The pipeline printing. -/
def Setup.printNet (S : Setup P) : Net ResourceLogs := S.netWith Exporter.terminal []

/-- What the transport has done: what the producer has accepted and how many messages it was handed; the file; what has been printed. -/
def Setup.done {X : Type} (S : Setup P) (T : Exporter.Transport X Exporter.Datum) (x0 : X) (s : Drain.St (S.netWith T x0)) : X :=
  (show Exporter.State X ResourceLogs Exporter.Datum × Bool from s.st 1).1.tr

/-! ### Specification -/

/-- What a destination must have done with the messages. `ToKafka`: the producer has been handed each once, and has accepted those that it does accept. `ToFile`: the file keeps of them what the failing writes
leave (see `KeptOf`). `ToTerminal`: each has been printed, with a newline. -/
def ToKafka (ok : Nat → Bool) (ms : List Bytes) (o : List Bytes × Nat) : Prop := Accepted ok ms o.1 o.2

def ToFile (os : Nat → Option Nat) (eb : Int) (ms : List Bytes) (o : Exporter.OutFile) : Prop := ∃ fates, KeptOf os eb ms o.contents o.writes fates

def ToTerminal (ms : List Bytes) (o : Bytes) : Prop := o = ms.flatMap (fun l => l ++ [newline])

/-! ### Proofs -/

/-- The transport `T` does `Q` with the messages it is given. -/
def Setup.Does {X : Type} (S : Setup P) (T : Exporter.Transport X Exporter.Datum) (x0 : X) (Q : List Bytes → X → Prop) : Prop :=
  ∀ es : List (Exporter.Ev ResourceLogs), Exporter.closed es = true →
    Q ((Exporter.received es).filterMap S.encode) (Exporter.run (Exporter.perRecord S.enc) T S.buffer (Exporter.init x0 S.start) es).tr

theorem kafka_does (S : Setup P) (ok : Nat → Bool) : S.Does (Exporter.kafka ok) ([], 0) (ToKafka ok) := fun es hc => Exporter.kafka_accepted S.encode ok S.buffer S.start es hc

theorem file_does (S : Setup P) (os : Nat → Option Nat) : S.Does (Exporter.fileTransport os) Exporter.newFile (ToFile os S.buffer) := fun es hc =>
  Exporter.file_kept_partly S.encode os S.buffer S.start es hc

theorem terminal_does (S : Setup P) : S.Does Exporter.terminal [] ToTerminal := by
  intro es hc
  have h := Exporter.terminal_log S.enc S.buffer S.start es hc
  rw [enc_bytes] at h
  refine h.trans ?_
  unfold Exporter.logOf
  rw [List.flatMap_map]
  rfl

section General
variable {X : Type} (S : Setup P) (dss : P → List (List Decl)) (T : Exporter.Transport X Exporter.Datum) (x0 : X) (Q : List Bytes → X → Prop) (hQ : S.Does T x0 Q)
include hQ

/-- Any destination, when `Wait` returns. -/
theorem otel_delivers (ok : S.Ok dss) (tr : List (Drain.Obs ResourceLogs)) (s : Drain.St (S.netWith T x0)) (h : Exec (S.netWith T x0) tr s) (hw : Waited s) (hg : ∀ rl ∈ driven tr, Given rl) :
    ∃ messages, CompleteFor S dss (driven tr) messages ∧ Q messages (S.done T x0 s) := by
  obtain ⟨segs, es, hd, hc, hfin⟩ := two_stages S _ _ ok.workers ok.cap tr s h hw
  refine ⟨_, complete_of_delivers S dss ok _ _ hg segs hd, ?_⟩
  unfold Setup.done
  rw [hfin]
  exact hQ es hc

/-- Any destination, at every moment. -/
theorem otel_delivers_at_every_moment {α : Type} (g : X → List α) (hgrow : ∀ x ds, g x <+: g (T.send x ds).1) (ok : S.Ok dss)
    {tr : List (Drain.Obs ResourceLogs)} {s : Drain.St (S.netWith T x0)} (h : Exec (S.netWith T x0) tr s) (hg : ∀ rl ∈ driven tr, Given rl) :
    ∃ messages full, CompleteFor S dss (driven tr) messages ∧ Q messages full ∧ g (S.done T x0 s) <+: g full := by
  obtain ⟨hT, hC⟩ := netWith_ok S T x0 ok.workers ok.cap
  have hgr := Drain.growing_at (N := S.netWith T x0) 1 (fun t => g (show Exporter.State X ResourceLogs Exporter.Datum × Bool from t).1.tr)
    (fun s m t a hst => Drain.exporter_growing (Exporter.perRecord S.enc) T S.buffer x0 S.start g hgrow s m t a hst)
  obtain ⟨tr', s', h1, h2, h3, h4⟩ := Drain.completes_growing hT hC (fun s => g (S.done T x0 s)) hgr h
  obtain ⟨ms, k1, k2⟩ := otel_delivers S dss T x0 Q hQ ok tr' s' h1 h2 (by rw [h3]; exact hg)
  rw [h3] at k1
  exact ⟨ms, _, k1, k2, h4⟩

/-- Any destination, beside a changing policy directory, when `Wait` returns. -/
theorem otel_delivers_reloading {C : Type} [DecidableEq C] (ok : S.Common) (hp : S.pending = []) {sha : Str → C} {comp : List (Str × Option Str) → Option P} {d : List (Monitor.FileEnt Str)}
    {tr : List (Drain.Obs ResourceLogs)} {mo : List (Monitor.Live.Obs Str P)} {x : Drain.St (S.netWith T x0) × Monitor.Live.LSt Str C P} (h : Reload.Exec (S.engineIn hp T x0) sha comp d tr mo x)
    (hw : Waited x.1) (hg : ∀ rl ∈ driven tr, Given rl) :
    ∃ as messages, ((∀ p ∈ S.policies :: as, S.Sound dss p) → CompleteUnder S dss (S.policies :: as) (driven tr) messages) ∧ Q messages (S.done T x0 x.1) ∧ as ++ x.2.chan = Monitor.Live.pushed mo ∧
      ∀ p ∈ as, ∃ got, comp got = some p ∧ ∀ f v, (f, v) ∈ got → Reload.PolicyName f ∧ ∃ e ∈ Reload.dirsOf d mo, v = (Monitor.Live.look e f).join := by
  obtain ⟨as, segs, es, g1, g2, g3, g4, g5, g6⟩ := reload_delivers S ok.workers ok.cap hp _ _ h hw
  refine ⟨as, (Exporter.received es).filterMap S.encode, fun hs => ?_, ?_, g5, fun p hpa => ?_⟩
  · have := complete_under S dss ok _ _ hg segs (sound_segments hs g1) g2
    rw [g1] at this
    exact this
  · unfold Setup.done
    rw [g4]
    exact hQ es g3
  · obtain ⟨got, -, k2, k3⟩ := g6 p hpa
    exact ⟨got, k2, k3⟩

/-- Any destination, beside a changing policy directory, at every moment. -/
theorem otel_delivers_reloading_at_every_moment {C α : Type} [DecidableEq C] (g : X → List α) (hgrow : ∀ x ds, g x <+: g (T.send x ds).1) (ok : S.Common) (hp : S.pending = []) {sha : Str → C}
    {comp : List (Str × Option Str) → Option P} {d : List (Monitor.FileEnt Str)} {tr : List (Drain.Obs ResourceLogs)} {mo : List (Monitor.Live.Obs Str P)}
    {x : Drain.St (S.netWith T x0) × Monitor.Live.LSt Str C P} (h : Reload.Exec (S.engineIn hp T x0) sha comp d tr mo x) (hg : ∀ rl ∈ driven tr, Given rl) :
    ∃ as messages full, ((∀ p ∈ S.policies :: as, S.Sound dss p) → CompleteUnder S dss (S.policies :: as) (driven tr) messages) ∧ Q messages full ∧ g (S.done T x0 x.1) <+: g full ∧ TakenSoFar mo as ∧
      ∀ p ∈ as, ∃ got, comp got = some p ∧ ∀ f v, (f, v) ∈ got → Reload.PolicyName f ∧ ∃ e ∈ Reload.dirsOf d mo, v = (Monitor.Live.look e f).join := by
  obtain ⟨as, full, ⟨ms, k1, k2⟩, k3, k4, k5⟩ := otel_moment_of S ok.workers ok.cap T x0 g hgrow hp
    (R := fun as o => ∃ ms, ((∀ p ∈ S.policies :: as, S.Sound dss p) → CompleteUnder S dss (S.policies :: as) (driven tr) ms) ∧ Q ms o)
    (H := fun ds p => ∃ got, comp got = some p ∧ ∀ f v, (f, v) ∈ got → Reload.PolicyName f ∧ ∃ e ∈ ds, v = (Monitor.Live.look e f).join) (a := driven tr) (fun tr' mo' y hr hw hdr => by
      obtain ⟨as, ms, q1, q2, q3, q4⟩ := otel_delivers_reloading S dss T x0 Q hQ ok hp hr hw (by rw [hdr]; exact hg)
      rw [hdr] at q1
      exact ⟨as, ⟨ms, q1, q2⟩, q3, q4⟩) h rfl
  exact ⟨as, ms, full, k1, k2, k3, k4, k5⟩

/-- Any destination, with the file driver. -/
theorem otel_file_driver (ok : S.Ok dss) {J : Type} (dec : J → ResourceLogs → ResourceLogs) (zero : ResourceLogs) (run : Nat → Bool) (js : List J) (hg : ∀ j ∈ js, Given (dec j zero))
    {tr : List (Drain.Obs ResourceLogs)} {s : PSt ResourceLogs (S.netWith T x0)} (h : PExec id (S.netWith T x0) (oneFile dec zero run js) tr s) {e : Bool} (he : s.status = some e) :
    e = false ∧ ∃ rls messages, rls <+: js.map (fun j => dec j zero) ∧ ((∀ k, run k = true) → rls = js.map (fun j => dec j zero)) ∧ CompleteFor S dss rls messages ∧ Q messages (S.done T x0 s.net) := by
  obtain ⟨hT, hC⟩ := netWith_ok S T x0 ok.workers ok.cap
  obtain ⟨body, ho, p1, p2⟩ := one_file dec zero run js
  obtain ⟨h1, h2, h3, h4⟩ := run_returned hT hC ho h he
  rw [List.map_id] at h4
  obtain ⟨ms, k1, k2⟩ := otel_delivers S dss T x0 Q hQ ok tr s.net h2 h3 (by
    intro rl hrl
    rw [h4] at hrl
    obtain ⟨j, hj, rfl⟩ := List.mem_map.1 (p1.subset hrl)
    exact hg j hj)
  exact ⟨h1, driven tr, ms, by rw [h4]; exact p1, fun hr => by rw [h4]; exact p2 hr, k1, k2⟩

end General

/-! ## C130 -/

/-- **C130** Kafka, whichever messages the producer refuses: when `Wait` returns, it has been handed, once each, messages complete for the records delivered, and those it accepts of them have been sent. -/
theorem otel_kafka_refusing (S : Setup P) (dss : P → List (List Decl)) (ok : S.Ok dss) (acc : Nat → Bool) (tr : List (Drain.Obs ResourceLogs)) (s : Drain.St (S.someKafkaNet acc))
    (h : Exec (S.someKafkaNet acc) tr s) (hw : Waited s) (hg : ∀ rl ∈ driven tr, Given rl) :
    ∃ messages, CompleteFor S dss (driven tr) messages ∧ ToKafka acc messages (S.done (Exporter.kafka acc) ([], 0) s) :=
  otel_delivers S dss _ _ _ (kafka_does S acc) ok tr s h hw hg

/-- **C130** A log file, whichever writes fail. -/
theorem otel_file_cut (S : Setup P) (dss : P → List (List Decl)) (ok : S.Ok dss) (os : Nat → Option Nat) (tr : List (Drain.Obs ResourceLogs)) (s : Drain.St (S.someFileNet os))
    (h : Exec (S.someFileNet os) tr s) (hw : Waited s) (hg : ∀ rl ∈ driven tr, Given rl) :
    ∃ messages, CompleteFor S dss (driven tr) messages ∧ ToFile os S.buffer messages (S.done (Exporter.fileTransport os) Exporter.newFile s) :=
  otel_delivers S dss _ _ _ (file_does S os) ok tr s h hw hg

/-- **C130** The terminal. -/
theorem otel_printed (S : Setup P) (dss : P → List (List Decl)) (ok : S.Ok dss) (tr : List (Drain.Obs ResourceLogs)) (s : Drain.St S.printNet)
    (h : Exec S.printNet tr s) (hw : Waited s) (hg : ∀ rl ∈ driven tr, Given rl) :
    ∃ messages, CompleteFor S dss (driven tr) messages ∧ ToTerminal messages (S.done Exporter.terminal [] s) :=
  otel_delivers S dss _ _ _ (terminal_does S) ok tr s h hw hg

/-- **C130** At every moment what has been sent, written or printed is the beginning of that. -/
theorem otel_kafka_refusing_moments (S : Setup P) (dss : P → List (List Decl)) (ok : S.Ok dss) (acc : Nat → Bool) {tr : List (Drain.Obs ResourceLogs)} {s : Drain.St (S.someKafkaNet acc)}
    (h : Exec (S.someKafkaNet acc) tr s) (hg : ∀ rl ∈ driven tr, Given rl) :
    ∃ messages full, CompleteFor S dss (driven tr) messages ∧ ToKafka acc messages full ∧ (S.done (Exporter.kafka acc) ([], 0) s).1 <+: full.1 :=
  otel_delivers_at_every_moment S dss _ _ _ (kafka_does S acc) Prod.fst (fun x ds => kafkaExport_grows _ ds x) ok h hg

theorem otel_file_cut_moments (S : Setup P) (dss : P → List (List Decl)) (ok : S.Ok dss) (os : Nat → Option Nat) {tr : List (Drain.Obs ResourceLogs)} {s : Drain.St (S.someFileNet os)}
    (h : Exec (S.someFileNet os) tr s) (hg : ∀ rl ∈ driven tr, Given rl) :
    ∃ messages full, CompleteFor S dss (driven tr) messages ∧ ToFile os S.buffer messages full ∧ (S.done (Exporter.fileTransport os) Exporter.newFile s).contents <+: full.contents :=
  otel_delivers_at_every_moment S dss _ _ _ (file_does S os) Exporter.OutFile.contents (fun x ds => Whole.fileExport_grows _ ds x) ok h hg

theorem otel_printed_moments (S : Setup P) (dss : P → List (List Decl)) (ok : S.Ok dss) {tr : List (Drain.Obs ResourceLogs)} {s : Drain.St S.printNet}
    (h : Exec S.printNet tr s) (hg : ∀ rl ∈ driven tr, Given rl) :
    ∃ messages full, CompleteFor S dss (driven tr) messages ∧ ToTerminal messages full ∧ S.done Exporter.terminal [] s <+: full :=
  otel_delivers_at_every_moment S dss _ _ _ (terminal_does S) id (fun _ _ => ⟨_, rfl⟩) ok h hg

/-- **C130** Beside a policy directory that changes at any time: when `Wait` returns, and at every moment. -/
theorem otel_kafka_refusing_reloading {C : Type} [DecidableEq C] (S : Setup P) (dss : P → List (List Decl)) (ok : S.Common) (acc : Nat → Bool) (hp : S.pending = []) {sha : Str → C}
    {comp : List (Str × Option Str) → Option P} {d : List (Monitor.FileEnt Str)} {tr : List (Drain.Obs ResourceLogs)} {mo : List (Monitor.Live.Obs Str P)}
    {x : Drain.St (S.someKafkaNet acc) × Monitor.Live.LSt Str C P} (h : Reload.Exec (S.engineIn hp (Exporter.kafka acc) ([], 0)) sha comp d tr mo x) (hg : ∀ rl ∈ driven tr, Given rl) :
    (Waited x.1 → ∃ as messages, ((∀ p ∈ S.policies :: as, S.Sound dss p) → CompleteUnder S dss (S.policies :: as) (driven tr) messages) ∧
      ToKafka acc messages (S.done (Exporter.kafka acc) ([], 0) x.1) ∧ as ++ x.2.chan = Monitor.Live.pushed mo) ∧
    ∃ as messages full, ((∀ p ∈ S.policies :: as, S.Sound dss p) → CompleteUnder S dss (S.policies :: as) (driven tr) messages) ∧ ToKafka acc messages full ∧
      (S.done (Exporter.kafka acc) ([], 0) x.1).1 <+: full.1 ∧ TakenSoFar mo as := by
  refine ⟨fun hw => ?_, ?_⟩
  · obtain ⟨as, ms, q1, q2, q3, -⟩ := otel_delivers_reloading S dss _ _ _ (kafka_does S acc) ok hp h hw hg
    exact ⟨as, ms, q1, q2, q3⟩
  · obtain ⟨as, ms, full, q1, q2, q3, q4, -⟩ := otel_delivers_reloading_at_every_moment S dss _ _ _ (kafka_does S acc) Prod.fst (fun x ds => kafkaExport_grows _ ds x) ok hp h hg
    exact ⟨as, ms, full, q1, q2, q3, q4⟩

theorem otel_file_cut_reloading {C : Type} [DecidableEq C] (S : Setup P) (dss : P → List (List Decl)) (ok : S.Common) (os : Nat → Option Nat) (hp : S.pending = []) {sha : Str → C}
    {comp : List (Str × Option Str) → Option P} {d : List (Monitor.FileEnt Str)} {tr : List (Drain.Obs ResourceLogs)} {mo : List (Monitor.Live.Obs Str P)}
    {x : Drain.St (S.someFileNet os) × Monitor.Live.LSt Str C P} (h : Reload.Exec (S.engineIn hp (Exporter.fileTransport os) Exporter.newFile) sha comp d tr mo x) (hg : ∀ rl ∈ driven tr, Given rl) :
    (Waited x.1 → ∃ as messages, ((∀ p ∈ S.policies :: as, S.Sound dss p) → CompleteUnder S dss (S.policies :: as) (driven tr) messages) ∧
      ToFile os S.buffer messages (S.done (Exporter.fileTransport os) Exporter.newFile x.1) ∧ as ++ x.2.chan = Monitor.Live.pushed mo) ∧
    ∃ as messages full, ((∀ p ∈ S.policies :: as, S.Sound dss p) → CompleteUnder S dss (S.policies :: as) (driven tr) messages) ∧ ToFile os S.buffer messages full ∧
      (S.done (Exporter.fileTransport os) Exporter.newFile x.1).contents <+: full.contents ∧ TakenSoFar mo as := by
  refine ⟨fun hw => ?_, ?_⟩
  · obtain ⟨as, ms, q1, q2, q3, -⟩ := otel_delivers_reloading S dss _ _ _ (file_does S os) ok hp h hw hg
    exact ⟨as, ms, q1, q2, q3⟩
  · obtain ⟨as, ms, full, q1, q2, q3, q4, -⟩ := otel_delivers_reloading_at_every_moment S dss _ _ _ (file_does S os) Exporter.OutFile.contents (fun x ds => Whole.fileExport_grows _ ds x) ok hp h hg
    exact ⟨as, ms, full, q1, q2, q3, q4⟩

/-! ### From the configuration -/

/-- The exporter loaded, with each destination of this build that keeps something. -/
theorem exporter_some_kafka (W : World P) (c1 : Pipeline.Conf) {x : XConfig} {p : P} (ht : x.transport = .kafka) :
    chain [engine (W.setup c1 x p).cfg p W.start W.pending, W.exporterComp x] chanSize = (W.setup c1 x p).someKafkaNet W.sends := by
  have e : W.exporterComp x = exporter (Exporter.perRecord (W.setup c1 x p).enc) (Exporter.kafka W.sends) x.eventBuffer ([], 0) W.start := by
    unfold World.exporterComp
    dsimp only
    rw [ht]
    rfl
  rw [e]
  rfl

theorem exporter_some_file (W : World P) (c1 : Pipeline.Conf) {x : XConfig} {p : P} (ht : x.transport = .file) :
    chain [engine (W.setup c1 x p).cfg p W.start W.pending, W.exporterComp x] chanSize = (W.setup c1 x p).someFileNet W.writes := by
  have e : W.exporterComp x = exporter (Exporter.perRecord (W.setup c1 x p).enc) (Exporter.fileTransport W.writes) x.eventBuffer Exporter.newFile W.start := by
    unfold World.exporterComp
    dsimp only
    rw [ht]
    rfl
  rw [e]
  rfl

theorem exporter_print (W : World P) (c1 : Pipeline.Conf) {x : XConfig} {p : P} (ht : x.transport = .terminal) :
    chain [engine (W.setup c1 x p).cfg p W.start W.pending, W.exporterComp x] chanSize = (W.setup c1 x p).printNet := by
  have e : W.exporterComp x = exporter (Exporter.perRecord (W.setup c1 x p).enc) Exporter.terminal x.eventBuffer [] W.start := by
    unfold World.exporterComp
    dsimp only
    rw [ht]
    rfl
  rw [e]
  rfl

/-- **C130** From pipeline.json to Kafka, whichever messages are refused: a usual configuration is loaded, and on its network every run in which `Wait` returns has handed the producer complete messages. -/
theorem boot_otel_kafka_refusing (W : World P) {m : Manifest} {env : List Str} {cs : List Pipeline.Conf} {c1 c2 : Pipeline.Conf} {a b : Str} (hm : setManifest m env cs = [c1, c2]) (u : Usual c1 c2 a b)
    {x : XConfig} {p : P} (h : W.Ready c1 c2 x p) (ht : x.transport = .kafka) {dss : P → List (List Decl)} (ok : W.Ok c1 dss) :
    ∃ l, loadStages W.env { regs := bootRegs } (setManifest m env cs) = .done l ∧ (∃ d, Whole.otelDriverChannel l = .ok d ∧ l.stages.head?.map (·.ins) = some [d]) ∧
      netOf W.comp (setManifest m env cs) l chanSize = (W.setup c1 x p).someKafkaNet W.sends ∧
      ∀ (tr : List (Drain.Obs ResourceLogs)) (s : Drain.St ((W.setup c1 x p).someKafkaNet W.sends)), Exec ((W.setup c1 x p).someKafkaNet W.sends) tr s → (∀ rl ∈ driven tr, Given rl) →
        (Waited s → ∃ messages, CompleteFor (W.setup c1 x p) dss (driven tr) messages ∧ ToKafka W.sends messages ((W.setup c1 x p).done (Exporter.kafka W.sends) ([], 0) s)) ∧
        ∃ messages full, CompleteFor (W.setup c1 x p) dss (driven tr) messages ∧ ToKafka W.sends messages full ∧ ((W.setup c1 x p).done (Exporter.kafka W.sends) ([], 0) s).1 <+: full.1 := by
  obtain ⟨l, h1, -, h3, h4⟩ := otel_boots W u h
  rw [hm]
  exact ⟨l, h1, h3, h4.trans (exporter_some_kafka W c1 ht), fun tr s hx hg => ⟨fun hw => otel_kafka_refusing _ dss (setup_ok W ok x p) W.sends tr s hx hw hg,
    otel_kafka_refusing_moments _ dss (setup_ok W ok x p) W.sends hx hg⟩⟩

/-- **C130** From pipeline.json and a file of records to a log file, whichever writes fail: once `Run` has returned, it has returned no error, and the file keeps what those writes leave of messages complete for
the records, or, if a stop was requested, for those from the first one up to some point. -/
theorem boot_otel_file_cut (W : World P) {m : Manifest} {env : List Str} {cs : List Pipeline.Conf} {c1 c2 : Pipeline.Conf} {a b : Str} (hm : setManifest m env cs = [c1, c2]) (u : Usual c1 c2 a b)
    {x : XConfig} {p : P} (h : W.Ready c1 c2 x p) (ht : x.transport = .file) {dss : P → List (List Decl)} (ok : W.Ok c1 dss) :
    ∃ l, loadStages W.env { regs := bootRegs } (setManifest m env cs) = .done l ∧ (∃ d, Whole.otelDriverChannel l = .ok d ∧ l.stages.head?.map (·.ins) = some [d]) ∧
      netOf W.comp (setManifest m env cs) l chanSize = (W.setup c1 x p).someFileNet W.writes ∧
      ∀ {J : Type} (dec : J → ResourceLogs → ResourceLogs) (zero : ResourceLogs) (run : Nat → Bool) (js : List J), (∀ j ∈ js, Given (dec j zero)) →
      ∀ (tr : List (Drain.Obs ResourceLogs)) (s : PSt ResourceLogs ((W.setup c1 x p).someFileNet W.writes)), PExec id ((W.setup c1 x p).someFileNet W.writes) (oneFile dec zero run js) tr s →
        ∀ e, s.status = some e → e = false ∧ ∃ rls messages, rls <+: js.map (fun j => dec j zero) ∧ ((∀ k, run k = true) → rls = js.map (fun j => dec j zero)) ∧
          CompleteFor (W.setup c1 x p) dss rls messages ∧ ToFile W.writes x.eventBuffer messages ((W.setup c1 x p).done (Exporter.fileTransport W.writes) Exporter.newFile s.net) := by
  obtain ⟨l, h1, -, h3, h4⟩ := otel_boots W u h
  rw [hm]
  exact ⟨l, h1, h3, h4.trans (exporter_some_file W c1 ht), fun dec zero run js hg tr s hx e he => otel_file_driver _ dss _ _ _ (file_does _ W.writes) (setup_ok W ok x p) dec zero run js hg hx he⟩

/-- **C130** The same to the terminal. -/
theorem boot_otel_printed (W : World P) {m : Manifest} {env : List Str} {cs : List Pipeline.Conf} {c1 c2 : Pipeline.Conf} {a b : Str} (hm : setManifest m env cs = [c1, c2]) (u : Usual c1 c2 a b)
    {x : XConfig} {p : P} (h : W.Ready c1 c2 x p) (ht : x.transport = .terminal) {dss : P → List (List Decl)} (ok : W.Ok c1 dss) :
    ∃ l, loadStages W.env { regs := bootRegs } (setManifest m env cs) = .done l ∧ (∃ d, Whole.otelDriverChannel l = .ok d ∧ l.stages.head?.map (·.ins) = some [d]) ∧
      netOf W.comp (setManifest m env cs) l chanSize = (W.setup c1 x p).printNet ∧
      ∀ {J : Type} (dec : J → ResourceLogs → ResourceLogs) (zero : ResourceLogs) (run : Nat → Bool) (js : List J), (∀ j ∈ js, Given (dec j zero)) →
      ∀ (tr : List (Drain.Obs ResourceLogs)) (s : PSt ResourceLogs (W.setup c1 x p).printNet), PExec id (W.setup c1 x p).printNet (oneFile dec zero run js) tr s →
        ∀ e, s.status = some e → e = false ∧ ∃ rls messages, rls <+: js.map (fun j => dec j zero) ∧ ((∀ k, run k = true) → rls = js.map (fun j => dec j zero)) ∧
          CompleteFor (W.setup c1 x p) dss rls messages ∧ ToTerminal messages ((W.setup c1 x p).done Exporter.terminal [] s.net) := by
  obtain ⟨l, h1, -, h3, h4⟩ := otel_boots W u h
  rw [hm]
  exact ⟨l, h1, h3, h4.trans (exporter_print W c1 ht), fun dec zero run js hg tr s hx e he => otel_file_driver _ dss _ _ _ (terminal_does _) (setup_ok W ok x p) dec zero run js hg hx he⟩

/-! ### From the configuration and the policy directory, through its changes -/

/-- What is loaded, and its run beside the changing directory, for any destination. -/
theorem otel_reload_to {X C α : Type} [DecidableEq C] (W : World Unit) (fs : Str → Dir) {m : Manifest} {env : List Str} {cs : List Pipeline.Conf} {c1 c2 : Pipeline.Conf} {a b : Str}
    (hm : setManifest m env cs = [c1, c2]) (u : Usual c1 c2 a b) (hs : StrRule W.str)
    (hp : (engineConf c1).policiesPath ≠ []) (hl : (engineConf c1).language = .falco) (hmon : (engineConf c1).monitor = .loc) (hw : 0 < (engineConf c1).concurrency)
    {x : XConfig} (hx : createConfigX W.secrets (xconf c2) = some x) (hex : W.exports x = true)
    (hact : ∀ a f, (W.builtIn a = some f ∨ W.user a = some f) → ∀ r, (f r).1 = r) (hord : ∀ l, (W.order l).Perm l)
    {files : List (Monitor.FileEnt Str)} {texts : List Str} {dss : List (List Decl)} (h1 : fs (engineConf c1).policiesPath = some files)
    (h2 : PolicyFiles true files texts) (h3 : List.Forall₂ (fun s ds => GPolicy (ltokens W.str s) ds) texts dss)
    (h4 : ∀ y ∈ sites dss, ∀ e, siteCond y = some e → ¬ Cyclic y.2 e)
    (T : Exporter.Transport X Exporter.Datum) (x0 : X) (Q : Int → List Bytes → X → Prop)
    (hQ : ∀ S : Setup (PolicySetOf (otelOps W.L) W.str), S.Does T x0 (Q S.buffer))
    (hnet : ∀ p, chain [engine ((W.withDirs fs []).setup c1 x p).cfg p (W.withDirs fs []).start (W.withDirs fs []).pending, (W.withDirs fs []).exporterComp x] chanSize = ((W.withDirs fs []).setup c1 x p).netWith T x0)
    (g : X → List α) (hgrow : ∀ x ds, g x <+: g (T.send x ds).1) :
    ∃ (l : Load Factory) (S : Setup (PolicySetOf (otelOps W.L) W.str)) (hp : S.pending = []), loadStages (W.withDirs fs []).env { regs := bootRegs } (setManifest m env cs) = .done l ∧
      netOf (W.withDirs fs []).comp (setManifest m env cs) l chanSize = S.netWith T x0 ∧ S.policies.texts = texts ∧ S.policies.decls = dss ∧ S.monitor = true ∧ S.cap = chanSize ∧ S.buffer = x.eventBuffer ∧ S.Common ∧
      ∀ (sha : Str → C) (tr : List (Drain.Obs ResourceLogs)) (mo : List (Monitor.Live.Obs Str (PolicySetOf (otelOps W.L) W.str))) (y : Drain.St (S.netWith T x0) × Monitor.Live.LSt Str C (PolicySetOf (otelOps W.L) W.str)),
        Reload.Exec (S.engineIn hp T x0) sha (compileRead (otelOps W.L) W.str) files tr mo y → (∀ rl ∈ driven tr, Given rl) →
        (Waited y.1 → ∃ as messages, ((∀ p ∈ S.policies :: as, ReadsOnlyInput p.decls) → CompleteUnder S PolicySetOf.decls (S.policies :: as) (driven tr) messages) ∧
          Q x.eventBuffer messages (S.done T x0 y.1) ∧ as ++ y.2.chan = Monitor.Live.pushed mo ∧ ∀ p ∈ as, FromHistory (Reload.dirsOf files mo) p.texts) ∧
        ∃ as messages full, ((∀ p ∈ S.policies :: as, ReadsOnlyInput p.decls) → CompleteUnder S PolicySetOf.decls (S.policies :: as) (driven tr) messages) ∧
          Q x.eventBuffer messages full ∧ g (S.done T x0 y.1) <+: g full ∧ TakenSoFar mo as ∧ ∀ p ∈ as, FromHistory (Reload.dirsOf files mo) p.texts := by
  obtain ⟨hfiles, n, c, hc⟩ := policy_texts_compile (otelOps W.L) hs h3 h4
  obtain ⟨p, hp1, hp2, hp3⟩ := withDirs_policyAt W fs [] (engineConf c1) hl h1 (by rw [hmon]; exact h2) hc
  have hdecls : p.decls = dss := by
    unfold PolicySetOf.decls
    rw [hp2]
    exact (Whole.decls_of_ok hs _ _ hfiles).2
  have hready : (W.withDirs fs []).Ready c1 c2 x p := ⟨hp, hp1, Int.le_of_lt hw, hx, hex⟩
  obtain ⟨l, k1, -, -, k4⟩ := otel_boots (W.withDirs fs []) u hready
  have ok : ((W.withDirs fs []).setup c1 x p).Common := by
    refine ⟨hs, hact, hord, ?_, ?_⟩
    · change 0 < (engineConf c1).concurrency.toNat
      omega
    · change 0 < 100000
      decide
  rw [hm]
  refine ⟨l, (W.withDirs fs []).setup c1 x p, rfl, k1, k4.trans (hnet p), hp2, hdecls, by change (_ == _) = true; rw [hmon]; rfl, rfl, rfl, ok, ?_⟩
  intro sha tr mo y hrun hg
  have hist : ∀ {q : PolicySetOf (otelOps W.L) W.str}, (∃ got, compileRead (otelOps W.L) W.str got = some q ∧ ∀ f v, (f, v) ∈ got → Reload.PolicyName f ∧ ∃ e ∈ Reload.dirsOf files mo, v = (Monitor.Live.look e f).join) →
      FromHistory (Reload.dirsOf files mo) q.texts := by
    rintro q ⟨got, hcomp, hread⟩ t htx
    have hsnd := compileRead_some.1 hcomp
    have : some t ∈ got.map Prod.snd := by rw [hsnd]; exact List.mem_map.2 ⟨t, htx, rfl⟩
    obtain ⟨⟨f, v⟩, hfv, hv'⟩ := List.mem_map.1 this
    cases hv'
    obtain ⟨hname, e, he, hlook⟩ := hread f _ hfv
    refine ⟨e, he, f, hname, ?_⟩
    revert hlook
    generalize Monitor.Live.look e f = o
    intro hlook
    match o, hlook with
    | some (some _), rfl => rfl
  refine ⟨fun hwait => ?_, ?_⟩
  · obtain ⟨as, ms, g1, g2, g3, g4⟩ := otel_delivers_reloading _ PolicySetOf.decls T x0 _ (hQ _) ok rfl hrun hwait hg
    exact ⟨as, ms, fun hro => g1 (fun q hq => dir_sound hs c1 x p q (hro q hq)), g2, g3, fun q hq => hist (g4 q hq)⟩
  · obtain ⟨as, ms, full, g1, g2, g3, g4, g5⟩ := otel_delivers_reloading_at_every_moment _ PolicySetOf.decls T x0 _ (hQ _) g hgrow ok rfl hrun hg
    exact ⟨as, ms, full, fun hro => g1 (fun q hq => dir_sound hs c1 x p q (hro q hq)), g2, g3, g4, fun q hq => hist (g5 q hq)⟩

/-- **C130** From the configuration and the policy directory, through its changes, to Kafka, whichever messages the producer refuses. -/
theorem otel_reload_refusing {C : Type} [DecidableEq C] (W : World Unit) (fs : Str → Dir) {m : Manifest} {env : List Str} {cs : List Pipeline.Conf} {c1 c2 : Pipeline.Conf} {a b : Str}
    (hm : setManifest m env cs = [c1, c2]) (u : Usual c1 c2 a b) (hs : StrRule W.str)
    (hp : (engineConf c1).policiesPath ≠ []) (hl : (engineConf c1).language = .falco) (hmon : (engineConf c1).monitor = .loc) (hw : 0 < (engineConf c1).concurrency)
    {x : XConfig} (hx : createConfigX W.secrets (xconf c2) = some x) (hex : W.exports x = true) (ht : x.transport = .kafka)
    (hact : ∀ a f, (W.builtIn a = some f ∨ W.user a = some f) → ∀ r, (f r).1 = r) (hord : ∀ l, (W.order l).Perm l)
    {files : List (Monitor.FileEnt Str)} {texts : List Str} {dss : List (List Decl)} (h1 : fs (engineConf c1).policiesPath = some files)
    (h2 : PolicyFiles true files texts) (h3 : List.Forall₂ (fun s ds => GPolicy (ltokens W.str s) ds) texts dss)
    (h4 : ∀ y ∈ sites dss, ∀ e, siteCond y = some e → ¬ Cyclic y.2 e) :
    ∃ (l : Load Factory) (S : Setup (PolicySetOf (otelOps W.L) W.str)) (hp : S.pending = []), loadStages (W.withDirs fs []).env { regs := bootRegs } (setManifest m env cs) = .done l ∧
      netOf (W.withDirs fs []).comp (setManifest m env cs) l chanSize = S.someKafkaNet W.sends ∧ S.policies.texts = texts ∧ S.policies.decls = dss ∧ S.monitor = true ∧ S.cap = chanSize ∧ S.buffer = x.eventBuffer ∧ S.Common ∧
      ∀ (sha : Str → C) (tr : List (Drain.Obs ResourceLogs)) (mo : List (Monitor.Live.Obs Str (PolicySetOf (otelOps W.L) W.str))) (y : Drain.St (S.someKafkaNet W.sends) × Monitor.Live.LSt Str C (PolicySetOf (otelOps W.L) W.str)),
        Reload.Exec (S.engineIn hp (Exporter.kafka W.sends) ([], 0)) sha (compileRead (otelOps W.L) W.str) files tr mo y → (∀ rl ∈ driven tr, Given rl) →
        (Waited y.1 → ∃ as messages, ((∀ p ∈ S.policies :: as, ReadsOnlyInput p.decls) → CompleteUnder S PolicySetOf.decls (S.policies :: as) (driven tr) messages) ∧
          ToKafka W.sends messages (S.done (Exporter.kafka W.sends) ([], 0) y.1) ∧ as ++ y.2.chan = Monitor.Live.pushed mo ∧ ∀ p ∈ as, FromHistory (Reload.dirsOf files mo) p.texts) ∧
        ∃ as messages full, ((∀ p ∈ S.policies :: as, ReadsOnlyInput p.decls) → CompleteUnder S PolicySetOf.decls (S.policies :: as) (driven tr) messages) ∧
          ToKafka W.sends messages full ∧ (S.done (Exporter.kafka W.sends) ([], 0) y.1).1 <+: full.1 ∧ TakenSoFar mo as ∧ ∀ p ∈ as, FromHistory (Reload.dirsOf files mo) p.texts :=
  otel_reload_to W fs hm u hs hp hl hmon hw hx hex hact hord h1 h2 h3 h4 _ _ (fun eb => ToKafka W.sends) (fun S => kafka_does S W.sends) (fun p => exporter_some_kafka _ c1 ht) Prod.fst (fun x ds => kafkaExport_grows _ ds x)

/-- **C130** The same to a log file, whichever writes fail. -/
theorem otel_reload_cut {C : Type} [DecidableEq C] (W : World Unit) (fs : Str → Dir) {m : Manifest} {env : List Str} {cs : List Pipeline.Conf} {c1 c2 : Pipeline.Conf} {a b : Str}
    (hm : setManifest m env cs = [c1, c2]) (u : Usual c1 c2 a b) (hs : StrRule W.str)
    (hp : (engineConf c1).policiesPath ≠ []) (hl : (engineConf c1).language = .falco) (hmon : (engineConf c1).monitor = .loc) (hw : 0 < (engineConf c1).concurrency)
    {x : XConfig} (hx : createConfigX W.secrets (xconf c2) = some x) (hex : W.exports x = true) (ht : x.transport = .file)
    (hact : ∀ a f, (W.builtIn a = some f ∨ W.user a = some f) → ∀ r, (f r).1 = r) (hord : ∀ l, (W.order l).Perm l)
    {files : List (Monitor.FileEnt Str)} {texts : List Str} {dss : List (List Decl)} (h1 : fs (engineConf c1).policiesPath = some files)
    (h2 : PolicyFiles true files texts) (h3 : List.Forall₂ (fun s ds => GPolicy (ltokens W.str s) ds) texts dss)
    (h4 : ∀ y ∈ sites dss, ∀ e, siteCond y = some e → ¬ Cyclic y.2 e) :
    ∃ (l : Load Factory) (S : Setup (PolicySetOf (otelOps W.L) W.str)) (hp : S.pending = []), loadStages (W.withDirs fs []).env { regs := bootRegs } (setManifest m env cs) = .done l ∧
      netOf (W.withDirs fs []).comp (setManifest m env cs) l chanSize = S.someFileNet W.writes ∧ S.policies.texts = texts ∧ S.policies.decls = dss ∧ S.monitor = true ∧ S.cap = chanSize ∧ S.buffer = x.eventBuffer ∧ S.Common ∧
      ∀ (sha : Str → C) (tr : List (Drain.Obs ResourceLogs)) (mo : List (Monitor.Live.Obs Str (PolicySetOf (otelOps W.L) W.str))) (y : Drain.St (S.someFileNet W.writes) × Monitor.Live.LSt Str C (PolicySetOf (otelOps W.L) W.str)),
        Reload.Exec (S.engineIn hp (Exporter.fileTransport W.writes) Exporter.newFile) sha (compileRead (otelOps W.L) W.str) files tr mo y → (∀ rl ∈ driven tr, Given rl) →
        (Waited y.1 → ∃ as messages, ((∀ p ∈ S.policies :: as, ReadsOnlyInput p.decls) → CompleteUnder S PolicySetOf.decls (S.policies :: as) (driven tr) messages) ∧
          ToFile W.writes x.eventBuffer messages (S.done (Exporter.fileTransport W.writes) Exporter.newFile y.1) ∧ as ++ y.2.chan = Monitor.Live.pushed mo ∧ ∀ p ∈ as, FromHistory (Reload.dirsOf files mo) p.texts) ∧
        ∃ as messages full, ((∀ p ∈ S.policies :: as, ReadsOnlyInput p.decls) → CompleteUnder S PolicySetOf.decls (S.policies :: as) (driven tr) messages) ∧
          ToFile W.writes x.eventBuffer messages full ∧ (S.done (Exporter.fileTransport W.writes) Exporter.newFile y.1).contents <+: full.contents ∧ TakenSoFar mo as ∧ ∀ p ∈ as, FromHistory (Reload.dirsOf files mo) p.texts :=
  otel_reload_to W fs hm u hs hp hl hmon hw hx hex hact hord h1 h2 h3 h4 _ _ (fun eb => ToFile W.writes eb) (fun S => file_does S W.writes) (fun p => exporter_some_file _ c1 ht) Exporter.OutFile.contents (fun x ds => Whole.fileExport_grows _ ds x)

/-- **C130** The same to the terminal. -/
theorem otel_reload_printed {C : Type} [DecidableEq C] (W : World Unit) (fs : Str → Dir) {m : Manifest} {env : List Str} {cs : List Pipeline.Conf} {c1 c2 : Pipeline.Conf} {a b : Str}
    (hm : setManifest m env cs = [c1, c2]) (u : Usual c1 c2 a b) (hs : StrRule W.str)
    (hp : (engineConf c1).policiesPath ≠ []) (hl : (engineConf c1).language = .falco) (hmon : (engineConf c1).monitor = .loc) (hw : 0 < (engineConf c1).concurrency)
    {x : XConfig} (hx : createConfigX W.secrets (xconf c2) = some x) (hex : W.exports x = true) (ht : x.transport = .terminal)
    (hact : ∀ a f, (W.builtIn a = some f ∨ W.user a = some f) → ∀ r, (f r).1 = r) (hord : ∀ l, (W.order l).Perm l)
    {files : List (Monitor.FileEnt Str)} {texts : List Str} {dss : List (List Decl)} (h1 : fs (engineConf c1).policiesPath = some files)
    (h2 : PolicyFiles true files texts) (h3 : List.Forall₂ (fun s ds => GPolicy (ltokens W.str s) ds) texts dss)
    (h4 : ∀ y ∈ sites dss, ∀ e, siteCond y = some e → ¬ Cyclic y.2 e) :
    ∃ (l : Load Factory) (S : Setup (PolicySetOf (otelOps W.L) W.str)) (hp : S.pending = []), loadStages (W.withDirs fs []).env { regs := bootRegs } (setManifest m env cs) = .done l ∧
      netOf (W.withDirs fs []).comp (setManifest m env cs) l chanSize = S.printNet ∧ S.policies.texts = texts ∧ S.policies.decls = dss ∧ S.monitor = true ∧ S.cap = chanSize ∧ S.buffer = x.eventBuffer ∧ S.Common ∧
      ∀ (sha : Str → C) (tr : List (Drain.Obs ResourceLogs)) (mo : List (Monitor.Live.Obs Str (PolicySetOf (otelOps W.L) W.str))) (y : Drain.St (S.printNet) × Monitor.Live.LSt Str C (PolicySetOf (otelOps W.L) W.str)),
        Reload.Exec (S.engineIn hp (Exporter.terminal) []) sha (compileRead (otelOps W.L) W.str) files tr mo y → (∀ rl ∈ driven tr, Given rl) →
        (Waited y.1 → ∃ as messages, ((∀ p ∈ S.policies :: as, ReadsOnlyInput p.decls) → CompleteUnder S PolicySetOf.decls (S.policies :: as) (driven tr) messages) ∧
          ToTerminal messages (S.done (Exporter.terminal) [] y.1) ∧ as ++ y.2.chan = Monitor.Live.pushed mo ∧ ∀ p ∈ as, FromHistory (Reload.dirsOf files mo) p.texts) ∧
        ∃ as messages full, ((∀ p ∈ S.policies :: as, ReadsOnlyInput p.decls) → CompleteUnder S PolicySetOf.decls (S.policies :: as) (driven tr) messages) ∧
          ToTerminal messages full ∧ (S.done (Exporter.terminal) [] y.1) <+: full ∧ TakenSoFar mo as ∧ ∀ p ∈ as, FromHistory (Reload.dirsOf files mo) p.texts :=
  otel_reload_to W fs hm u hs hp hl hmon hw hx hex hact hord h1 h2 h3 h4 _ _ (fun eb => ToTerminal) (fun S => terminal_does S) (fun p => exporter_print _ c1 ht) id (fun _ _ => ⟨_, rfl⟩)

/-! ### Examples -/

/-- Complete messages for copies of the record of the example. -/
theorem demo_messages (n : Nat) (code : List (Rule ResourceLogs) × List (Filter ResourceLogs)) (k : Nat) (ms : List Bytes)
    (h : CompleteFor (demoRun n code) (fun _ => [[.rule hostRule]]) (List.replicate k demoLogs) ms) : ms = List.replicate k (List.replicate 15 97) := by
  classical
  obtain ⟨ss, -, h2, h3, h4⟩ := h
  have key : ∀ g ∈ ss, g.messages = List.replicate g.logs.length (List.replicate 15 97) := by
    intro g hg
    obtain ⟨picked, outs, p1, -, p2, p3⟩ := h4 g hg
    have hl : ∀ rl ∈ g.logs, rl = demoLogs := fun rl hrl => List.eq_of_mem_replicate (by rw [← h2]; exact List.mem_flatMap.2 ⟨g, hg, hrl⟩)
    have hf : g.logs.filter (fun rl => decide (Wanted (demoRun n code) [[.rule hostRule]] rl)) = g.logs :=
      List.filter_eq_self.2 (fun rl hrl => by rw [hl rl hrl]; exact decide_eq_true (demo_wanted n code).1)
    rw [hf] at p1
    have hpk : ∀ rl ∈ picked, rl = demoLogs := fun rl hrl => hl rl (p1.subset hrl)
    rw [p3, ← p1.length_eq]
    clear p1 p3 hf
    induction p2 with
    | nil => rfl
    | @cons rl out ps os hn _ ih =>
      have e := hpk rl List.mem_cons_self
      subst e
      rw [show (demoRun n code).L = Otel.demoLib from rfl, (demo_wanted n code).2] at hn
      obtain ⟨tags, -, rfl⟩ := hn.2 (by simp)
      rw [List.filterMap_cons, ih (fun rl hrl => hpk rl (List.mem_cons_of_mem _ hrl)), List.length_cons, List.replicate_succ]
      rfl
  have hlen : ms.length = k := by
    rw [← h3, ← List.length_replicate (n := k) (a := demoLogs), ← h2]
    clear h2 h3 h4
    induction ss with
    | nil => rfl
    | cons g ss ih =>
      rw [List.flatMap_cons, List.flatMap_cons, List.length_append, List.length_append, ih (fun g' hg' => key g' (List.mem_cons_of_mem _ hg')), key g List.mem_cons_self, List.length_replicate]
  refine List.eq_replicate_iff.2 ⟨hlen, fun m hm => ?_⟩
  rw [← h3] at hm
  obtain ⟨g, hg, hmg⟩ := List.mem_flatMap.1 hm
  rw [key g hg] at hmg
  exact List.eq_of_mem_replicate hmg

theorem given_copies (k : Nat) : ∀ rl ∈ List.replicate k demoLogs, Given rl := fun rl hrl => by rw [List.eq_of_mem_replicate hrl]; exact ⟨demo_whole, demo_fresh⟩

/-- Three records to Kafka, which refuses the second message, with any number of workers. -/
example (n : Nat) (hn : 0 < n) : ∃ code tr, ∃ s : Drain.St ((demoRun n code).someKafkaNet (fun i => i != 1)), Exec ((demoRun n code).someKafkaNet (fun i => i != 1)) tr s ∧ Waited s ∧
    driven tr = List.replicate 3 demoLogs ∧ (demoRun n code).done (Exporter.kafka (fun i => i != 1)) ([], 0) s = (List.replicate 2 (List.replicate 15 97), 3) := by
  obtain ⟨code, ok⟩ := demoRun_ok n hn
  obtain ⟨hT, hC⟩ := netWith_ok (demoRun n code) (Exporter.kafka (fun i => i != 1)) ([], 0) ok.workers ok.cap
  obtain ⟨tr, s, he, hw, hd⟩ := Drain.complete_run_exists hT hC (List.replicate 3 demoLogs) (show 3 ≤ 9 by decide)
  refine ⟨code, tr, s, he, hw, hd, ?_⟩
  obtain ⟨ms, h1, h2, h3⟩ := otel_kafka_refusing (demoRun n code) _ ok (fun i => i != 1) tr s he hw (by rw [hd]; exact given_copies 3)
  rw [hd] at h1
  rw [demo_messages n code 3 ms h1] at h2 h3
  exact Prod.ext h3 h2

/-- Three records to a file, whose third write gets one byte in: the first message is there. -/
example (n : Nat) (hn : 0 < n) : ∃ code tr, ∃ s : Drain.St ((demoRun n code).someFileNet (fun i => if i = 2 then some 1 else none)),
    Exec ((demoRun n code).someFileNet (fun i => if i = 2 then some 1 else none)) tr s ∧ Waited s ∧ driven tr = List.replicate 3 demoLogs ∧
    List.replicate 15 97 ++ [newline] <+: ((demoRun n code).done (Exporter.fileTransport (fun i => if i = 2 then some 1 else none)) Exporter.newFile s).contents := by
  obtain ⟨code, ok⟩ := demoRun_ok n hn
  obtain ⟨hT, hC⟩ := netWith_ok (demoRun n code) (Exporter.fileTransport (fun i => if i = 2 then some 1 else none)) Exporter.newFile ok.workers ok.cap
  obtain ⟨tr, s, he, hw, hd⟩ := Drain.complete_run_exists hT hC (List.replicate 3 demoLogs) (show 3 ≤ 9 by decide)
  refine ⟨code, tr, s, he, hw, hd, ?_⟩
  obtain ⟨ms, h1, fates, h2⟩ := otel_file_cut (demoRun n code) _ ok (fun i => if i = 2 then some 1 else none) tr s he hw (by rw [hd]; exact given_copies 3)
  rw [hd] at h1
  rw [demo_messages n code 3 ms h1] at h2
  have hb := h2.before 1 (by decide) (fun i hi => if_neg (by omega))
  have hlen := h2.each
  rw [h2.contents]
  match fates, hb, hlen with
  | f :: fs, hb, _ =>
    have : f = .line := (List.cons.inj hb).1
    subst this
    exact ⟨_, rfl⟩

/-- Two records of a file, printed. -/
example (n : Nat) (hn : 0 < n) : ∃ code tr, ∃ s : PSt ResourceLogs (demoRun n code).printNet,
    PExec id (demoRun n code).printNet (oneFile (fun j _ => j) demoLogs (fun _ => true) (List.replicate 2 demoLogs)) tr s ∧ s.status = some false ∧
    (demoRun n code).done Exporter.terminal [] s.net = (List.replicate 2 (List.replicate 15 97)).flatMap (fun l => l ++ [newline]) := by
  obtain ⟨code, ok⟩ := demoRun_ok n hn
  obtain ⟨hT, hC⟩ := netWith_ok (demoRun n code) Exporter.terminal [] ok.workers ok.cap
  obtain ⟨body, ho, _⟩ := one_file (fun (j _ : ResourceLogs) => j) demoLogs (fun _ => true) (List.replicate 2 demoLogs)
  obtain ⟨tr, s, hx, he⟩ := complete_run hT hC ho id
  refine ⟨code, tr, s, hx, he, ?_⟩
  obtain ⟨-, rls, ms, -, k2, k3, k4⟩ := otel_file_driver (demoRun n code) _ _ _ _ (terminal_does _) ok (fun (j _ : ResourceLogs) => j) demoLogs (fun _ => true) (List.replicate 2 demoLogs) (given_copies 2) hx he
  rw [k2 (fun _ => rfl), List.map_id'] at k3
  rw [demo_messages n code 2 ms k3] at k4
  exact k4

/-- The world of the example, in which the producer refuses the messages that `acc` does not accept, and the file's writes get as far as `os` says. -/
def refusingWorld (code : List (Rule ResourceLogs) × List (Filter ResourceLogs)) (acc : Nat → Bool) (os : Nat → Option Nat) : World Unit := { otelWorld code with sends := acc, writes := os }

/-- The hypotheses of `boot_otel_kafka_refusing` are met by the shipped configuration, in any environment and whatever is refused; a run takes in three records and ends, with what is accepted of three messages. -/
example (m : Manifest) (env : List Str) (acc : Nat → Bool) (os : Nat → Option Nat) : ∃ code c1 c2 x l tr, setManifest m env shippedOtel = [c1, c2] ∧
    loadStages (refusingWorld code acc os).env { regs := bootRegs } [c1, c2] = .done l ∧
    netOf (refusingWorld code acc os).comp [c1, c2] l chanSize = ((refusingWorld code acc os).setup c1 x ()).someKafkaNet acc ∧ ∃ s : Drain.St (((refusingWorld code acc os).setup c1 x ()).someKafkaNet acc),
    Exec (((refusingWorld code acc os).setup c1 x ()).someKafkaNet acc) tr s ∧ Waited s ∧ driven tr = List.replicate 3 demoLogs ∧
    ∃ messages, CompleteFor ((refusingWorld code acc os).setup c1 x ()) (fun _ => [[.rule hostRule]]) (List.replicate 3 demoLogs) messages ∧
      ToKafka acc messages (((refusingWorld code acc os).setup c1 x ()).done (Exporter.kafka acc) ([], 0) s) := by
  obtain ⟨code, ok⟩ := demoRun_ok 1 (by decide)
  obtain ⟨c1, c2, x, e, u, -, -, ht, -, -, -, p1, -, -, p4, -, -, ready⟩ := shipped_otel_boots (refusingWorld code acc os) m env
  have hp : (refusingWorld code acc os).policyAt (engineConf c1) = some () := by
    change (if (engineConf c1).policiesPath = "/filter.yaml".toList then some () else none) = _
    rw [if_pos p1]
  have hr := ready () hp rfl
  have hok : (refusingWorld code acc os).Ok c1 (fun _ => [[.rule hostRule]]) := ⟨ok.str, ok.texts, ok.acyclic, ok.foreign, ok.code, ok.actions, ok.order, by rw [p4]; decide⟩
  obtain ⟨l, h1, -, h3, h4⟩ := boot_otel_kafka_refusing (refusingWorld code acc os) e u hr ht hok
  rw [e] at h1 h3
  have ok' := setup_ok (refusingWorld code acc os) hok x ()
  obtain ⟨hT, hC⟩ := netWith_ok ((refusingWorld code acc os).setup c1 x ()) (Exporter.kafka acc) ([], 0) ok'.workers ok'.cap
  obtain ⟨tr, s, he, hw, hd⟩ := Drain.complete_run_exists hT hC (List.replicate 3 demoLogs) (show 3 ≤ 100000 by decide)
  obtain ⟨ms, q1, q2⟩ := (h4 tr s he (by rw [hd]; exact given_copies 3)).1 hw
  rw [hd] at q1
  exact ⟨code, c1, c2, x, l, tr, e, h1, h3, s, he, hw, hd, ms, q1, q2⟩

open Classical in
/-- The hypotheses of `otel_reload_refusing` are met, whatever the producer refuses: the monitor starts, the file of the directory gets another text; the driver sends a record to which a rule applies, and
nothing more has happened. -/
example (t : Str) (acc : Nat → Bool) (os : Nat → Option Nat) : ∃ (l : Load Factory) (S : Setup (PolicySetOf (otelOps (otelWorld ([], [])).L) Falco.simpleStr)) (hp : S.pending = []),
    loadStages ((refusingWorld ([], []) acc os).withDirs (fun s => if s = "p".toList then some (hostDir hostText) else none) []).env { regs := bootRegs }
      (setManifest Whole.demoManifest ["CLUSTER_ID=x".toList] otelWatchConfs) = .done l ∧ S.policies.decls = [[.rule hostRule]] ∧
    ∃ tr mo y, Reload.Exec (S.engineIn hp (Exporter.kafka acc) ([], 0)) (id : Str → Str) (compileRead (otelOps (otelWorld ([], [])).L) Falco.simpleStr) (hostDir hostText) tr mo y ∧ driven tr = [demoLogs] ∧
      y.2.dir = hostDir t ∧ ∃ as messages full, ((∀ p ∈ as, ReadsOnlyInput p.decls) → CompleteUnder S PolicySetOf.decls (S.policies :: as) [demoLogs] messages) ∧ ToKafka acc messages full ∧
        (S.done (Exporter.kafka acc) ([], 0) y.1).1 <+: full.1 := by
  obtain ⟨c1, c2, hm, hu, e1, e2⟩ := otelWatch_usual
  obtain ⟨s1, s2, s3, s6, s5⟩ := otelWatch_settings
  rw [← e1] at s1 s2 s3 s6
  rw [← e2] at s5
  obtain ⟨x, hx, hs⟩ := Option.map_eq_some_iff.1 s5
  simp only [Prod.mk.injEq] at hs
  obtain ⟨f1, f2⟩ := hs
  obtain ⟨l, S, hp, h1, hnet, -, h2, -, -, -, -, h3⟩ := otel_reload_refusing (C := Str) (refusingWorld ([], []) acc os) (fun s => if s = "p".toList then some (hostDir hostText) else none) hm hu Falco.simple_rule
    (by rw [s1]; decide) s6 s3 (by rw [s2]; decide) hx (by unfold World.exports; rw [f1, f2]; rfl) f2 (fun a f hf => by rcases hf with hf | hf <;> cases hf) (fun l => .refl l)
    (by rw [if_pos s1]) host_policyFiles (.cons host_parses .nil) host_acyclic
  have hfirst : ReadsOnlyInput S.policies.decls := by rw [h2]; exact host_foreign
  have e0 : Reload.Exec (S.engineIn hp (Exporter.kafka acc) ([], 0)) (id : Str → Str) (compileRead (otelOps (otelWorld ([], [])).L) Falco.simpleStr) (hostDir hostText) [] []
      (Drain.St.start (S.someKafkaNet acc), Monitor.Live.init (hostDir hostText)) := .nil
  have hls : ∀ l ∈ ([.start, .add, .change (hostDir t) [⟨"p/a.yaml".toList, 2⟩]] : List (Monitor.Live.Label Str)), Monitor.Joint.shared l = false := by
    intro l hl
    simp only [List.mem_cons, List.not_mem_nil, or_false] at hl
    rcases hl with rfl | rfl | rfl <;> rfl
  obtain ⟨t1, x1, e1, n1, b1, k1, d1, -, -⟩ := Reload.lift_run e0 rfl hls rfl
  have hbuf : ∀ c, x1.buf c = [] := fun c => by rw [b1]; rfl
  have hcl : ∀ c, x1.closed c = false := fun c => by rw [k1]; rfl
  obtain ⟨t2, ms2, x2, e2, r2, d2, g2⟩ := Reload.drive_and_close e1 n1 (hcl _) [demoLogs] (by rw [hbuf]; refine Nat.le_trans ?_ (Nat.le_of_eq (congrArg Drain.Net.cap hnet)); change 0 + 1 ≤ 100000; decide)
  have hdr : driven t2 = [demoLogs] := by rw [d2, List.nil_append, d1]; rfl
  obtain ⟨as, ms, full, ha, hk, hpre, -⟩ := (h3 (id : Str → Str) _ _ _ e2 (by rw [hdr]; exact given_copies 1)).2
  refine ⟨l, S, hp, h1, h2, t2, _, x2, e2, hdr, g2.trans rfl, as, ms, full, fun hro => ?_, hk, hpre⟩
  rw [← hdr]
  refine ha fun p hpm => ?_
  rcases List.mem_cons.1 hpm with rfl | hpm
  · exact hfirst
  · exact hro p hpm

/-- The configuration of the example with a watched directory and another destination. -/
def watchTo (dest : Str) : List Pipeline.Conf :=
  [(otelConfs [("policies".toList, .str "p".toList), ("monitor".toList, .str "local".toList)] [] []).1, (otelConfs [] "otel".toList dest).2]

def watchTo1 (dest : Str) : Pipeline.Conf := ((setManifest Whole.demoManifest ["CLUSTER_ID=x".toList] (watchTo dest))[0]?).getD []

def watchTo2 (dest : Str) : Pipeline.Conf := ((setManifest Whole.demoManifest ["CLUSTER_ID=x".toList] (watchTo dest))[1]?).getD []

theorem watchTo_usual (dest : Str) : setManifest Whole.demoManifest ["CLUSTER_ID=x".toList] (watchTo dest) = [watchTo1 dest, watchTo2 dest] ∧ Usual (watchTo1 dest) (watchTo2 dest) "o".toList "e".toList := by
  obtain ⟨c1, c2, h1, h2, -⟩ := usual_manifest (c1 := (otelConfs [("policies".toList, .str "p".toList), ("monitor".toList, .str "local".toList)] [] []).1) (c2 := (otelConfs [] "otel".toList dest).2) (a := "o".toList) (b := "e".toList) Whole.demoManifest ["CLUSTER_ID=x".toList]
    ⟨rfl, rfl, ⟨_, rfl, by decide +kernel⟩, ⟨_, rfl, by decide +kernel⟩, ⟨_, "x".toList, rfl, by decide +kernel⟩, rfl, by decide⟩
  have h1' : setManifest Whole.demoManifest ["CLUSTER_ID=x".toList] (watchTo dest) = [c1, c2] := h1
  have e1 : watchTo1 dest = c1 := by unfold watchTo1; rw [h1']; rfl
  have e2 : watchTo2 dest = c2 := by unfold watchTo2; rw [h1']; rfl
  rw [e1, e2]
  exact ⟨h1', h2⟩

theorem watchTo_settings : ∀ dest ∈ ["file".toList, "terminal".toList], (engineConf (watchTo1 dest)).policiesPath = "p".toList ∧ (engineConf (watchTo1 dest)).concurrency = 5 ∧
    (engineConf (watchTo1 dest)).monitor = .loc ∧ (engineConf (watchTo1 dest)).language = .falco ∧
    (createConfigX ⟨fun _ => none, fun _ => none⟩ (xconf (watchTo2 dest))).map (fun x => (x.format, x.transport)) = some (.otel, if dest = "file".toList then .file else .terminal) := by
  decide +kernel

open Classical in
/-- The hypotheses of `otel_reload_cut` are met, whichever writes fail: as above. -/
example (t : Str) (acc : Nat → Bool) (os : Nat → Option Nat) : ∃ (l : Load Factory) (S : Setup (PolicySetOf (otelOps (otelWorld ([], [])).L) Falco.simpleStr)) (hp : S.pending = []) (eb : Int),
    loadStages ((refusingWorld ([], []) acc os).withDirs (fun s => if s = "p".toList then some (hostDir hostText) else none) []).env { regs := bootRegs }
      (setManifest Whole.demoManifest ["CLUSTER_ID=x".toList] (watchTo "file".toList)) = .done l ∧ S.policies.decls = [[.rule hostRule]] ∧
    ∃ tr mo y, Reload.Exec (S.engineIn hp (Exporter.fileTransport os) Exporter.newFile) (id : Str → Str) (compileRead (otelOps (otelWorld ([], [])).L) Falco.simpleStr) (hostDir hostText) tr mo y ∧
      driven tr = [demoLogs] ∧ y.2.dir = hostDir t ∧ ∃ as messages full, ((∀ p ∈ as, ReadsOnlyInput p.decls) → CompleteUnder S PolicySetOf.decls (S.policies :: as) [demoLogs] messages) ∧
        ToFile os eb messages full ∧ (S.done (Exporter.fileTransport os) Exporter.newFile y.1).contents <+: full.contents := by
  obtain ⟨hm, hu⟩ := watchTo_usual "file".toList
  obtain ⟨s1, s2, s3, s6, s5⟩ := watchTo_settings "file".toList List.mem_cons_self
  rw [if_pos rfl] at s5
  obtain ⟨x, hx, hs⟩ := Option.map_eq_some_iff.1 s5
  simp only [Prod.mk.injEq] at hs
  obtain ⟨f1, f2⟩ := hs
  obtain ⟨l, S, hp, h1, hnet, -, h2, -, -, -, -, h3⟩ := otel_reload_cut (C := Str) (refusingWorld ([], []) acc os) (fun s => if s = "p".toList then some (hostDir hostText) else none) hm hu Falco.simple_rule
    (by rw [s1]; decide) s6 s3 (by rw [s2]; decide) hx (by unfold World.exports; rw [f1, f2]; rfl) f2 (fun a f hf => by rcases hf with hf | hf <;> cases hf) (fun l => .refl l)
    (by rw [if_pos s1]) host_policyFiles (.cons host_parses .nil) host_acyclic
  have hfirst : ReadsOnlyInput S.policies.decls := by rw [h2]; exact host_foreign
  have e0 : Reload.Exec (S.engineIn hp (Exporter.fileTransport os) Exporter.newFile) (id : Str → Str) (compileRead (otelOps (otelWorld ([], [])).L) Falco.simpleStr) (hostDir hostText) [] []
      (Drain.St.start (S.someFileNet os), Monitor.Live.init (hostDir hostText)) := .nil
  have hls : ∀ l ∈ ([.start, .add, .change (hostDir t) [⟨"p/a.yaml".toList, 2⟩]] : List (Monitor.Live.Label Str)), Monitor.Joint.shared l = false := by
    intro l hl
    simp only [List.mem_cons, List.not_mem_nil, or_false] at hl
    rcases hl with rfl | rfl | rfl <;> rfl
  obtain ⟨t1, x1, e1, n1, b1, k1, d1, -, -⟩ := Reload.lift_run e0 rfl hls rfl
  have hbuf : ∀ c, x1.buf c = [] := fun c => by rw [b1]; rfl
  have hcl : ∀ c, x1.closed c = false := fun c => by rw [k1]; rfl
  obtain ⟨t2, ms2, x2, e2, r2, d2, g2⟩ := Reload.drive_and_close e1 n1 (hcl _) [demoLogs] (by rw [hbuf]; refine Nat.le_trans ?_ (Nat.le_of_eq (congrArg Drain.Net.cap hnet)); change 0 + 1 ≤ 100000; decide)
  have hdr : driven t2 = [demoLogs] := by rw [d2, List.nil_append, d1]; rfl
  obtain ⟨as, ms, full, ha, hk, hpre, -⟩ := (h3 (id : Str → Str) _ _ _ e2 (by rw [hdr]; exact given_copies 1)).2
  refine ⟨l, S, hp, x.eventBuffer, h1, h2, t2, _, x2, e2, hdr, g2.trans rfl, as, ms, full, fun hro => ?_, hk, hpre⟩
  rw [← hdr]
  refine ha fun p hpm => ?_
  rcases List.mem_cons.1 hpm with rfl | hpm
  · exact hfirst
  · exact hro p hpm

open Classical in
/-- The hypotheses of `otel_reload_printed` are met: the record is driven, the input closed, and the program runs to its end; what is printed is the messages of the record under the first policies and those then taken. -/
example (t : Str) : ∃ (l : Load Factory) (S : Setup (PolicySetOf (otelOps (otelWorld ([], [])).L) Falco.simpleStr)) (hp : S.pending = []),
    loadStages ((otelWorld ([], [])).withDirs (fun s => if s = "p".toList then some (hostDir hostText) else none) []).env { regs := bootRegs }
      (setManifest Whole.demoManifest ["CLUSTER_ID=x".toList] (watchTo "terminal".toList)) = .done l ∧ S.policies.decls = [[.rule hostRule]] ∧
    ∃ tr mo y, Reload.Exec (S.engineIn hp Exporter.terminal []) (id : Str → Str) (compileRead (otelOps (otelWorld ([], [])).L) Falco.simpleStr) (hostDir hostText) tr mo y ∧ driven tr = [demoLogs] ∧
      y.2.dir = hostDir t ∧ Waited y.1 ∧ ∃ as messages, ((∀ p ∈ as, ReadsOnlyInput p.decls) → CompleteUnder S PolicySetOf.decls (S.policies :: as) [demoLogs] messages) ∧
        ToTerminal messages (S.done Exporter.terminal [] y.1) := by
  obtain ⟨hm, hu⟩ := watchTo_usual "terminal".toList
  obtain ⟨s1, s2, s3, s6, s5⟩ := watchTo_settings "terminal".toList (List.mem_cons_of_mem _ List.mem_cons_self)
  rw [if_neg (by decide)] at s5
  obtain ⟨x, hx, hs⟩ := Option.map_eq_some_iff.1 s5
  simp only [Prod.mk.injEq] at hs
  obtain ⟨f1, f2⟩ := hs
  obtain ⟨l, S, hp, h1, hnet, -, h2, -, -, -, ok, h3⟩ := otel_reload_printed (C := Str) (otelWorld ([], [])) (fun s => if s = "p".toList then some (hostDir hostText) else none) hm hu Falco.simple_rule
    (by rw [s1]; decide) s6 s3 (by rw [s2]; decide) hx (by unfold World.exports; rw [f1, f2]; rfl) f2 (fun a f hf => by rcases hf with hf | hf <;> cases hf) (fun l => .refl l)
    (by rw [if_pos s1]) host_policyFiles (.cons host_parses .nil) host_acyclic
  have hfirst : ReadsOnlyInput S.policies.decls := by rw [h2]; exact host_foreign
  have e0 : Reload.Exec (S.engineIn hp Exporter.terminal []) (id : Str → Str) (compileRead (otelOps (otelWorld ([], [])).L) Falco.simpleStr) (hostDir hostText) [] []
      (Drain.St.start S.printNet, Monitor.Live.init (hostDir hostText)) := .nil
  have hls : ∀ l ∈ ([.start, .add, .change (hostDir t) [⟨"p/a.yaml".toList, 2⟩]] : List (Monitor.Live.Label Str)), Monitor.Joint.shared l = false := by
    intro l hl
    simp only [List.mem_cons, List.not_mem_nil, or_false] at hl
    rcases hl with rfl | rfl | rfl <;> rfl
  obtain ⟨t1, x1, e1, n1, b1, k1, d1, -, -⟩ := Reload.lift_run e0 rfl hls rfl
  have hbuf : ∀ c, x1.buf c = [] := fun c => by rw [b1]; rfl
  have hcl : ∀ c, x1.closed c = false := fun c => by rw [k1]; rfl
  obtain ⟨t2, ms2, x2, e2, r2, d2, g2⟩ := Reload.drive_and_close e1 n1 (hcl _) [demoLogs] (by rw [hbuf]; refine Nat.le_trans ?_ (Nat.le_of_eq (congrArg Drain.Net.cap hnet)); change 0 + 1 ≤ 100000; decide)
  have hdr : driven t2 = [demoLogs] := by rw [d2, List.nil_append, d1]; rfl
  obtain ⟨hT, hC⟩ := netWith_ok S Exporter.terminal [] ok.workers ok.cap
  obtain ⟨t3, ms3, y, e3, w3, d3, g3, -⟩ := Reload.can_finish hT hC e2 r2
  obtain ⟨as, ms, ha, hk, -⟩ := (h3 (id : Str → Str) _ _ _ e3 (by rw [d3, hdr]; exact given_copies 1)).1 w3
  refine ⟨l, S, hp, h1, h2, t3, _, y, e3, d3.trans hdr, (g3.trans g2).trans rfl, w3, as, ms, fun hro => ?_, hk⟩
  rw [← hdr, ← d3]
  refine ha fun p hpm => ?_
  rcases List.mem_cons.1 hpm with rfl | hpm
  · exact hfirst
  · exact hro p hpm

/-- A configuration with a policy file and a destination, as `SetManifestInfo` leaves it. -/
def filterTo (dest : Str) : List Pipeline.Conf := [(otelConfs [("policies".toList, .str "/filter.yaml".toList)] [] []).1, (otelConfs [] "otel".toList dest).2]

def filterTo1 (dest : Str) : Pipeline.Conf := ((setManifest Whole.demoManifest [] (filterTo dest))[0]?).getD []

def filterTo2 (dest : Str) : Pipeline.Conf := ((setManifest Whole.demoManifest [] (filterTo dest))[1]?).getD []

theorem filterTo_usual (dest : Str) : setManifest Whole.demoManifest [] (filterTo dest) = [filterTo1 dest, filterTo2 dest] ∧ Usual (filterTo1 dest) (filterTo2 dest) "o".toList "e".toList := by
  obtain ⟨c1, c2, h1, h2, -⟩ := usual_manifest (c1 := (otelConfs [("policies".toList, .str "/filter.yaml".toList)] [] []).1) (c2 := (otelConfs [] "otel".toList dest).2) (a := "o".toList) (b := "e".toList)
    Whole.demoManifest [] ⟨rfl, rfl, ⟨_, rfl, by decide +kernel⟩, ⟨_, rfl, by decide +kernel⟩, ⟨_, "x".toList, rfl, by decide +kernel⟩, rfl, by decide⟩
  have h1' : setManifest Whole.demoManifest [] (filterTo dest) = [c1, c2] := h1
  have e1 : filterTo1 dest = c1 := by unfold filterTo1; rw [h1']; rfl
  have e2 : filterTo2 dest = c2 := by unfold filterTo2; rw [h1']; rfl
  rw [e1, e2]
  exact ⟨h1', h2⟩

theorem filterTo_settings : ∀ dest ∈ ["file".toList, "terminal".toList], (engineConf (filterTo1 dest)).policiesPath = "/filter.yaml".toList ∧ (engineConf (filterTo1 dest)).concurrency = 5 ∧
    (createConfigX ⟨fun _ => none, fun _ => none⟩ (xconf (filterTo2 dest))).map (fun x => (x.format, x.transport)) = some (.otel, if dest = "file".toList then .file else .terminal) := by
  decide +kernel

theorem filterTo_ready (acc : Nat → Bool) (os : Nat → Option Nat) (code : List (Rule ResourceLogs) × List (Filter ResourceLogs)) {dest : Str} (hd : dest ∈ ["file".toList, "terminal".toList]) :
    ∃ x, (refusingWorld code acc os).Ready (filterTo1 dest) (filterTo2 dest) x () ∧ x.transport = (if dest = "file".toList then .file else .terminal) := by
  obtain ⟨p1, p2, p3⟩ := filterTo_settings dest hd
  obtain ⟨x, hx, hs⟩ := Option.map_eq_some_iff.1 p3
  simp only [Prod.mk.injEq] at hs
  obtain ⟨f1, f2⟩ := hs
  refine ⟨x, ⟨by rw [p1]; decide, ?_, by rw [p2]; decide, hx, ?_⟩, f2⟩
  · change (if (engineConf (filterTo1 dest)).policiesPath = "/filter.yaml".toList then some () else none) = _
    rw [if_pos p1]
  · unfold World.exports
    rw [f1, f2]
    split <;> rfl

/-- The hypotheses of `boot_otel_file_cut` are met, whichever writes fail; a run over a file of three records returns. -/
example (os : Nat → Option Nat) : ∃ code x l tr, loadStages (refusingWorld code (fun _ => true) os).env { regs := bootRegs } (setManifest Whole.demoManifest [] (filterTo "file".toList)) = .done l ∧
    ∃ s : PSt ResourceLogs (((refusingWorld code (fun _ => true) os).setup (filterTo1 "file".toList) x ()).someFileNet os),
    PExec id _ (oneFile (fun j _ => j) demoLogs (fun _ => true) (List.replicate 3 demoLogs)) tr s ∧ s.status = some false ∧
    ∃ messages, CompleteFor ((refusingWorld code (fun _ => true) os).setup (filterTo1 "file".toList) x ()) (fun _ => [[.rule hostRule]]) (List.replicate 3 demoLogs) messages ∧
      ToFile os x.eventBuffer messages (((refusingWorld code (fun _ => true) os).setup (filterTo1 "file".toList) x ()).done (Exporter.fileTransport os) Exporter.newFile s.net) := by
  obtain ⟨code, ok⟩ := demoRun_ok 1 (by decide)
  obtain ⟨e, u⟩ := filterTo_usual "file".toList
  obtain ⟨x, hr, ht⟩ := filterTo_ready (fun _ => true) os code (dest := "file".toList) List.mem_cons_self
  rw [if_pos rfl] at ht
  have p2 := (filterTo_settings "file".toList List.mem_cons_self).2.1
  have hok : (refusingWorld code (fun _ => true) os).Ok (filterTo1 "file".toList) (fun _ => [[.rule hostRule]]) := ⟨ok.str, ok.texts, ok.acyclic, ok.foreign, ok.code, ok.actions, ok.order, by rw [p2]; decide⟩
  obtain ⟨l, h1, -, -, h4⟩ := boot_otel_file_cut (refusingWorld code (fun _ => true) os) e u hr ht hok
  have ok' := setup_ok (refusingWorld code (fun _ => true) os) hok x ()
  obtain ⟨hT, hC⟩ := netWith_ok ((refusingWorld code (fun _ => true) os).setup (filterTo1 "file".toList) x ()) (Exporter.fileTransport os) Exporter.newFile ok'.workers ok'.cap
  obtain ⟨body, ho, _⟩ := one_file (fun (j _ : ResourceLogs) => j) demoLogs (fun _ => true) (List.replicate 3 demoLogs)
  obtain ⟨tr, s, hx, he⟩ := complete_run hT hC ho id
  obtain ⟨-, rls, ms, -, h5, h6, h7⟩ := h4 (fun (j _ : ResourceLogs) => j) demoLogs (fun _ => true) (List.replicate 3 demoLogs) (given_copies 3) tr s hx _ he
  rw [h5 (fun _ => rfl), List.map_id'] at h6
  exact ⟨code, x, l, tr, h1, s, hx, he, ms, h6, h7⟩

/-- The hypotheses of `boot_otel_printed` are met; a run over a file of three records returns. -/
example : ∃ code x l tr, loadStages (refusingWorld code (fun _ => true) (fun _ => none)).env { regs := bootRegs } (setManifest Whole.demoManifest [] (filterTo "terminal".toList)) = .done l ∧
    ∃ s : PSt ResourceLogs ((refusingWorld code (fun _ => true) (fun _ => none)).setup (filterTo1 "terminal".toList) x ()).printNet,
    PExec id _ (oneFile (fun j _ => j) demoLogs (fun _ => true) (List.replicate 3 demoLogs)) tr s ∧ s.status = some false ∧
    ∃ messages, CompleteFor ((refusingWorld code (fun _ => true) (fun _ => none)).setup (filterTo1 "terminal".toList) x ()) (fun _ => [[.rule hostRule]]) (List.replicate 3 demoLogs) messages ∧
      ToTerminal messages (((refusingWorld code (fun _ => true) (fun _ => none)).setup (filterTo1 "terminal".toList) x ()).done Exporter.terminal [] s.net) := by
  obtain ⟨code, ok⟩ := demoRun_ok 1 (by decide)
  obtain ⟨e, u⟩ := filterTo_usual "terminal".toList
  have hd : "terminal".toList ∈ ["file".toList, "terminal".toList] := List.mem_cons_of_mem _ List.mem_cons_self
  obtain ⟨x, hr, ht⟩ := filterTo_ready (fun _ => true) (fun _ => none) code hd
  rw [if_neg (by decide)] at ht
  have p2 := (filterTo_settings "terminal".toList hd).2.1
  have hok : (refusingWorld code (fun _ => true) (fun _ => none)).Ok (filterTo1 "terminal".toList) (fun _ => [[.rule hostRule]]) :=
    ⟨ok.str, ok.texts, ok.acyclic, ok.foreign, ok.code, ok.actions, ok.order, by rw [p2]; decide⟩
  obtain ⟨l, h1, -, -, h4⟩ := boot_otel_printed (refusingWorld code (fun _ => true) (fun _ => none)) e u hr ht hok
  have ok' := setup_ok (refusingWorld code (fun _ => true) (fun _ => none)) hok x ()
  obtain ⟨hT, hC⟩ := netWith_ok ((refusingWorld code (fun _ => true) (fun _ => none)).setup (filterTo1 "terminal".toList) x ()) Exporter.terminal [] ok'.workers ok'.cap
  obtain ⟨body, ho, _⟩ := one_file (fun (j _ : ResourceLogs) => j) demoLogs (fun _ => true) (List.replicate 3 demoLogs)
  obtain ⟨tr, s, hx, he⟩ := complete_run hT hC ho id
  obtain ⟨-, rls, ms, -, h5, h6, h7⟩ := h4 (fun (j _ : ResourceLogs) => j) demoLogs (fun _ => true) (List.replicate 3 demoLogs) (given_copies 3) tr s hx _ he
  rw [h5 (fun _ => rfl), List.map_id'] at h6
  exact ⟨code, x, l, tr, h1, s, hx, he, ms, h6, h7⟩

end Verif.OtelRun
