import Verif.Whole.SigmaOut
import Verif.Whole.Moments
import Verif.Pipeline.ReloadMoment
/-
C128: what has come out of the exporter at every moment of a run beside a policy directory that changes at any time.
Sources: /repo/driver/pipeline/pipeline.go:199-200, 286-294, /repo/core/policyengine/policyengine.go:101-167, 221-234, /repo/core/policyengine/monitor/localpolicymonitor.go:51-231, /repo/core/exporter/exporter.go:104-160,
/repo/core/exporter/transports/file.go:60-84, terminal.go:45-56, syslog.go:67-82, elastic.go:81-139
-/
namespace Verif.Whole
open Verif.Decimal (Str)
open Verif.Exporter (Bytes GetsThrough KeptOf RequestsFor)
open Verif.FlatRecord
open Verif.Policy
open Verif.Falco (Benign Decl)
open Verif.Sigma (RuleFile ConfigFile FieldMappings SigmaRule Supported Configures)
open Verif.Processor (Rec HCall OlderParents)
open Verif.Flattener (eventsAfter StoresEvent)
open Verif.Pipeline
open Verif.Pipeline.Process
open Verif.Pipeline.Drain (driven rootClosed Waited sync engine exporter chain)
open Verif.Config (XConf XVal XConfig ConfEnv EngineConfig createConfigX createEngineConfig createFlattenerConfig engineInit)

variable {P : Type}

/-! ### Specification -/

/-- The policy sets `as` begin with those the engine has taken so far and are the first of those pushed so far. -/
def TakenSoFar (mo : List (Monitor.Live.Obs Str P)) (as : List P) : Prop := Monitor.Live.adopted mo <+: as ∧ as <+: Monitor.Live.pushed mo

/-! ### Proofs -/

/-- At every moment of a run beside a changing policy directory, what has come out of the exporter is the beginning of what has come out at the end of a completed run over the records sent so far, with the
directory's history so far and the policy sets pushed so far. -/
theorem reload_completes {C X D α : Type} [DecidableEq C] (S : Setup P) (hwork : 0 < S.workers) (hcap : 0 < S.cap) (cd : Exporter.Codec Msg D) (T : Exporter.Transport X D) (x0 : X) (g : X → List α)
    (hg : ∀ x ds, g x <+: g (T.send x ds).1) (hp : S.pending = []) {sha : Str → C} {comp : List (Str × Option Str) → Option P}
    {d : List (Monitor.FileEnt Str)} {tr : List (Drain.Obs Msg)} {mo : List (Monitor.Live.Obs Str P)} {x : Drain.St (S.netWith cd T x0) × Monitor.Live.LSt Str C P}
    (h : Reload.Exec (S.engineIn hp cd T x0) sha comp d tr mo x) :
    ∃ tr' mo' y, Reload.Exec (S.engineIn hp cd T x0) sha comp d tr' mo' y ∧ Waited y.1 ∧ driven tr' = driven tr ∧ Monitor.Live.pushed mo' = Monitor.Live.pushed mo ∧ Reload.dirsOf d mo' = Reload.dirsOf d mo ∧
      (∀ as, as ++ y.2.chan = Monitor.Live.pushed mo → TakenSoFar mo as) ∧
      g (show Exporter.State X Msg D × Bool from x.1.st 2).1.tr <+: g (show Exporter.State X Msg D × Bool from y.1.st 2).1.tr := by
  obtain ⟨hT, hC⟩ := netWith_ok S cd T x0 hwork hcap
  obtain ⟨tr', ms, y, h1, h2, h3, h4, h5⟩ := Reload.completes_beside hT hC h
  refine ⟨tr', mo ++ ms, y, h1, h2, h3, ?_, Reload.dirs_taken d mo h4.obs, ?_, ?_⟩
  · rw [Monitor.Live.pushed_append, Reload.pushed_taken h4.obs, List.append_nil]
  · intro as has
    refine ⟨?_, ⟨_, has⟩⟩
    obtain ⟨hm, -, -⟩ := Reload.run_engine h
    have hin := (Monitor.Live.in_order hm).1
    have p1 : Monitor.Live.adopted mo <+: Monitor.Live.pushed mo := ⟨_, hin⟩
    have p2 : as <+: Monitor.Live.pushed mo := ⟨_, has⟩
    refine List.prefix_of_prefix_length_le p1 p2 ?_
    have e1 := congrArg List.length hin
    have e2 := congrArg List.length has
    rw [List.length_append] at e1 e2
    have := h4.chan
    omega
  · obtain ⟨a, b, e1, e2, e3⟩ := Drain.exporter_later (C := (S.netWith cd T x0).comp 2) rfl g hg (h5 2)
    cases e1
    cases e2
    exact e3

/-! ### C128 -/

/-- Data for a transport, whatever the policies mean. -/
theorem reload_moment_as {C X α : Type} [DecidableEq C] (S : Setup P) (hwork : 0 < S.workers) (hcap : 0 < S.cap) (hdedup : S.dedup = false) {Want : P → Event → Prop} {Alert : P → Event → Msg → Prop}
    (hstep : ∀ p x fr, StoresEvent S.F x fr → (¬ Want p x → S.proc p (.flat fr) = none) ∧ (Want p x → ∃ m, S.proc p (.flat fr) = some m ∧ Alert p x m))
    {enc : Msg → Option Exporter.Datum} {Line : P → Event → Bytes → Prop} (henc : EncodesAs enc Alert Line) {T : Exporter.Transport X Exporter.Datum} {x0 : X} {Result : List Bytes → X → Prop}
    (hT : Delivers S enc T x0 Result) (g : X → List α) (hg : ∀ x ds, g x <+: g (T.send x ds).1) (hp : S.pending = []) {sha : Str → C}
    {comp : List (Str × Option Str) → Option P} {d : List (Monitor.FileEnt Str)} {rs : List Rec} {rd : Processor.State} {cs : List HCall} (hrun : Processor.run false S.fuel .init rs = some (rd, cs))
    {tr : List (Drain.Obs Msg)} {mo : List (Monitor.Live.Obs Str P)} {x : Drain.St (S.outNet enc T x0) × Monitor.Live.LSt Str C P} (h : OutReloadRun S hp enc T x0 sha comp d tr mo x)
    (hd : driven tr = rs.map Msg.sf) :
    ∃ as ms full, MessagesAs S Want Line (S.policies :: as) (eventsAfter [] rs) ms ∧ Result ms full ∧ g (S.outOf x.1) <+: g full ∧ TakenSoFar mo as ∧ ∀ p ∈ as, CompiledFrom comp (Reload.dirsOf d mo) p := by
  obtain ⟨tr', mo', y, h1, h2, h3, h4, h5, h6, h7⟩ := reload_completes S hwork hcap (Exporter.allOrNone enc) T x0 g hg hp h
  obtain ⟨as, ms, k1, k2, k3, k4⟩ := reload_result_as S hwork hcap hdedup hstep henc hT hp hrun h1 h2 (h3.trans hd)
  rw [h4] at k3
  rw [h5] at k4
  exact ⟨as, ms, _, k1, k2, h7, h6 as k3, k4⟩

/-- **C128** Falco policies: at every moment, what has come out (`g`: as much of it as only grows) is the beginning of what comes out for messages complete for the events of the records sent so far, under the
first policies and then policy sets that begin with those taken so far and are the first of those pushed so far, each of them compiled from files as they were in the directory. -/
theorem reload_at_every_moment {C X α : Type} [DecidableEq C] (S : Setup P) (dss : P → List (List Decl)) (ok : S.Ok dss) {enc : Msg → Option Exporter.Datum} {Line : List (List Decl) → Event → Bytes → Prop}
    (henc : Encodes S enc Line) {T : Exporter.Transport X Exporter.Datum} {x0 : X} {Result : List Bytes → X → Prop} (hT : Delivers S enc T x0 Result) (g : X → List α)
    (hg : ∀ x ds, g x <+: g (T.send x ds).1) (hp : S.pending = []) {sha : Str → C}
    {comp : List (Str × Option Str) → Option P} {d : List (Monitor.FileEnt Str)} {rs : List Rec} {rd : Processor.State} {cs : List HCall} (hrun : Processor.run false S.fuel .init rs = some (rd, cs))
    {tr : List (Drain.Obs Msg)} {mo : List (Monitor.Live.Obs Str P)} {x : Drain.St (S.outNet enc T x0) × Monitor.Live.LSt Str C P} (h : OutReloadRun S hp enc T x0 sha comp d tr mo x)
    (hd : driven tr = rs.map Msg.sf) :
    ∃ as ms full, MessagesUnder S dss Line (S.policies :: as) (eventsAfter [] rs) ms ∧ Result ms full ∧ g (S.outOf x.1) <+: g full ∧ TakenSoFar mo as ∧ ∀ p ∈ as, CompiledFrom comp (Reload.dirsOf d mo) p :=
  reload_moment_as S ok.workers ok.cap ok.dedup (engine_step S dss ok.toCore) (fun p x m a b => henc (dss p) x m a b) hT g hg hp hrun h hd

/-- **C128** Sigma rules: the same. -/
theorem sigma_reload_at_every_moment {C X α : Type} [DecidableEq C] (S : Setup P) (Q : P → SigmaPolicy) (cfg : P → ConfigFile) (ok : S.SigmaOk Q cfg) (hdedup : S.dedup = false) {enc : Msg → Option Exporter.Datum}
    {Line : P → Event → Bytes → Prop} (henc : EncodesAs enc (fun p => AlertWith S (sigmaVerdict S.L (Q p))) Line) {T : Exporter.Transport X Exporter.Datum} {x0 : X} {Result : List Bytes → X → Prop}
    (hT : Delivers S enc T x0 Result) (g : X → List α) (hg : ∀ x ds, g x <+: g (T.send x ds).1) (hp : S.pending = []) {sha : Str → C} {comp : List (Str × Option Str) → Option P}
    {d : List (Monitor.FileEnt Str)} {rs : List Rec} {rd : Processor.State} {cs : List HCall} (hrun : Processor.run false S.fuel .init rs = some (rd, cs))
    {tr : List (Drain.Obs Msg)} {mo : List (Monitor.Live.Obs Str P)} {x : Drain.St (S.outNet enc T x0) × Monitor.Live.LSt Str C P} (h : OutReloadRun S hp enc T x0 sha comp d tr mo x)
    (hd : driven tr = rs.map Msg.sf) :
    ∃ as ms full, SigmaMessages S Q Line (S.policies :: as) (eventsAfter [] rs) ms ∧ Result ms full ∧ g (S.outOf x.1) <+: g full ∧ TakenSoFar mo as ∧ ∀ p ∈ as, CompiledFrom comp (Reload.dirsOf d mo) p := by
  obtain ⟨tr', mo', y, h1, h2, h3, h4, h5, h6, h7⟩ := reload_completes S ok.workers ok.cap (Exporter.allOrNone enc) T x0 g hg hp h
  obtain ⟨as, ms, k1, k2, k3, k4⟩ := sigma_reload_out S Q cfg ok hdedup henc hT hp hrun h1 h2 (h3.trans hd)
  rw [h4] at k3
  rw [h5] at k4
  exact ⟨as, ms, _, k1, k2, h7, h6 as k3, k4⟩

/-- **C128** The log of JSON records: at every moment it is the beginning of a log that is complete for the events of the records sent so far, under such policy sets. -/
theorem reload_log_at_every_moment {C : Type} [DecidableEq C] (S : Setup P) (dss : P → List (List Decl)) (ok : S.Ok dss) (hp : S.pending = []) {sha : Str → C} {comp : List (Str × Option Str) → Option P}
    {d : List (Monitor.FileEnt Str)} {rs : List Rec} {rd : Processor.State} {cs : List HCall} (hrun : Processor.run false S.fuel .init rs = some (rd, cs))
    {tr : List (Drain.Obs Msg)} {mo : List (Monitor.Live.Obs Str P)} {x : Drain.St S.net × Monitor.Live.LSt Str C P} (h : ReloadRun S hp sha comp d tr mo x) (hd : driven tr = rs.map Msg.sf) :
    ∃ as full, LoggedUnder S dss (S.policies :: as) rs full ∧ S.log x.1 <+: full ∧ TakenSoFar mo as ∧ ∀ p ∈ as, CompiledFrom comp (Reload.dirsOf d mo) p := by
  obtain ⟨tr', mo', y, h1, h2, h3, h4, h5, h6, h7⟩ := reload_completes S ok.workers ok.cap (Exporter.allOrNone S.enc) (Exporter.fileTransport (fun _ => none)) Exporter.newFile Exporter.OutFile.contents
    (fun f ds => fileExport_grows _ ds f) hp h
  obtain ⟨as, k1, k3, k4⟩ := reload_run S dss ok hp hrun h1 h2 (h3.trans hd)
  rw [h4] at k3
  rw [h5] at k4
  exact ⟨as, _, k1, h7, h6 as k3, fun p hp => by obtain ⟨got, -, g2, g3⟩ := k4 p hp; exact ⟨got, g2, g3⟩⟩

/-- **C128** Elastic: at every moment the requests made so far are the first of those made for documents complete for the events of the records sent so far, under such policy sets. -/
theorem reload_requests_at_every_moment {C : Type} [DecidableEq C] (S : Setup P) (E : EcsSide S) (dss : P → List (List Decl)) (ok : S.Ok dss) (hn : KindNames S.L) (calls : Nat → Bool) (hp : S.pending = [])
    {sha : Str → C} {comp : List (Str × Option Str) → Option P} {d : List (Monitor.FileEnt Str)} {rs : List Rec} {rd : Processor.State} {cs : List HCall}
    (hrun : Processor.run false S.fuel .init rs = some (rd, cs)) {tr : List (Drain.Obs Msg)} {mo : List (Monitor.Live.Obs Str P)} {x : Drain.St (E.elasticWith calls) × Monitor.Live.LSt Str C P}
    (h : E.ReloadRun calls hp sha comp d tr mo x) (hd : driven tr = rs.map Msg.sf) :
    ∃ as docs parts ops n, SentUnder S E dss (S.policies :: as) (eventsAfter [] rs) docs ∧ RequestsFor calls S.buffer docs ops n parts ∧ (E.bulkOf x.1).ops <+: ops ∧ TakenSoFar mo as ∧
      ∀ p ∈ as, CompiledFrom comp (Reload.dirsOf d mo) p := by
  obtain ⟨tr', mo', y, h1, h2, h3, h4, h5, h6, h7⟩ := reload_completes S ok.workers ok.cap (Exporter.allOrNone E.toElastic) (Exporter.elastic calls) ⟨[], 0⟩ Exporter.Bulk.ops
    (fun f ds => elasticExport_grows _ f ds) hp h
  obtain ⟨as, docs, parts, k1, k2, k3, k4⟩ := reload_elastic S E dss ok hn calls hp hrun h1 h2 (h3.trans hd)
  rw [h4] at k3
  rw [h5] at k4
  exact ⟨as, docs, parts, _, _, k1, k2, h7, h6 as k3, fun p hp => by obtain ⟨got, -, g2, g3⟩ := k4 p hp; exact ⟨got, g2, g3⟩⟩

/-- **C128** Elastic, under Sigma rules: the same. -/
theorem sigma_requests_at_every_moment {C : Type} [DecidableEq C] (S : Setup P) (E : EcsSide S) (Q : P → SigmaPolicy) (cfg : P → ConfigFile) (ok : S.SigmaOk Q cfg) (hn : KindNames S.L) (hdedup : S.dedup = false)
    (calls : Nat → Bool) (hp : S.pending = []) {sha : Str → C} {comp : List (Str × Option Str) → Option P} {d : List (Monitor.FileEnt Str)}
    {rs : List Rec} {rd : Processor.State} {cs : List HCall} (hrun : Processor.run false S.fuel .init rs = some (rd, cs))
    {tr : List (Drain.Obs Msg)} {mo : List (Monitor.Live.Obs Str P)} {x : Drain.St (E.elasticWith calls) × Monitor.Live.LSt Str C P} (h : E.ReloadRun calls hp sha comp d tr mo x)
    (hd : driven tr = rs.map Msg.sf) :
    ∃ as docs parts ops n, SigmaSent S E Q (S.policies :: as) (eventsAfter [] rs) docs ∧ RequestsFor calls S.buffer docs ops n parts ∧ (E.bulkOf x.1).ops <+: ops ∧ TakenSoFar mo as ∧
      ∀ p ∈ as, CompiledFrom comp (Reload.dirsOf d mo) p := by
  obtain ⟨tr', mo', y, h1, h2, h3, h4, h5, h6, h7⟩ := reload_completes S ok.workers ok.cap (Exporter.allOrNone E.toElastic) (Exporter.elastic calls) ⟨[], 0⟩ Exporter.Bulk.ops
    (fun f ds => elasticExport_grows _ f ds) hp h
  obtain ⟨as, docs, parts, k1, k2, k3, k4⟩ := sigma_reload_elastic S E Q cfg ok hn hdedup calls hp hrun h1 h2 (h3.trans hd)
  rw [h4] at k3
  rw [h5] at k4
  exact ⟨as, docs, parts, _, _, k1, k2, h7, h6 as k3, k4⟩

end Verif.Whole
