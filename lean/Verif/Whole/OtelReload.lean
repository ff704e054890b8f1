import Verif.Whole.OtelBoot
import Verif.Whole.Reload
/-
C108: in the build for OpenTelemetry logs: from the policy directory to the messages, and a directory that changes while the program runs.
Sources: /repo/core/policyengine/policyengine.go:76-206, 221-234, /repo/core/policyengine/policyengine_otel.go:26-36, /repo/core/policyengine/monitor/localpolicymonitor.go:51-231,
/repo/core/policyengine/policy/falco/compiler.go:69-129
-/
namespace Verif.OtelRun
open Verif.Decimal (Str)
open Verif.Exporter (Bytes)
open Verif.Policy
open Verif.Otel
open Verif.Falco (Decl GPolicy ltokens StrRule Cyclic MentionsE sites asRule siteCond)
open Verif.Pipeline
open Verif.Pipeline.Process
open Verif.Pipeline.Drain (Net Comp sync engine exporter chain driven rootClosed Exec Waited emitted)
open Verif.Config (XConf XVal XConfig ConfEnv EngineConfig createConfigX createEngineConfig createFlattenerConfig engineInit)
open Verif.Whole (Factory bootRegs xconf engineConf seconds chanSize Dir PolicySetOf PolicyFiles initPolicies compileRead compileRead_some FromHistory policySet_good policy_texts_compile initPolicies_finds
  initPolicies_built initPolicies_unique decls_of_ok)

variable {P : Type}

/-! ### Model -/

open Classical in
/-- The world in which the policies are what is below the configured path, in the build for OpenTelemetry logs: see `Verif.Whole.World.withDirs` (policyengine.go:92-114). -/
noncomputable def World.withDirs (W : World Unit) (fs : Str → Dir) (later : List (PolicySetOf (otelOps W.L) W.str)) : World (PolicySetOf (otelOps W.L) W.str) where
  L := W.L
  json := W.json
  proto := W.proto
  str := W.str
  texts := PolicySetOf.texts
  code := PolicySetOf.code
  order := W.order
  policyAt ec := if h : ec.language = .falco ∧ ∃ p : PolicySetOf (otelOps W.L) W.str, ∃ n, initPolicies (otelOps W.L) W.str n (ec.monitor == .loc) (fs ec.policiesPath) = some (some (p.texts, p.code))
    then some h.2.choose else none
  pending := later
  builtIn := W.builtIn
  user := W.user
  opens := W.opens
  producer := W.producer
  writes := W.writes
  sends := W.sends
  secrets := W.secrets
  load := W.load
  loadHandler := W.loadHandler
  start := W.start

/-- The policy engine is the first of the two stages (pipeline.otel.json; policyengine.go:119-234); nothing is pending when the monitor starts (policyengine.go:101-114). -/
def Setup.engineIn {X : Type} (S : Setup P) (hp : S.pending = []) (T : Exporter.Transport X Exporter.Datum) (x0 : X) : Reload.EngineIn (S.netWith T x0) S.cfg S.policies S.start where
  i := 0
  st s := s
  lab l := l
  push p := .push p
  init := by
    change Engine.Swap.init S.cfg S.policies S.start S.pending = _
    rw [hp]
  step _ _ _ _ h := h
  pushes _ := rfl
  owns l h := by
    change Drain.isPush l = false at h
    cases l <;> first | rfl | cases h
  stage := (show 0 < 2 by decide)
  accepts s p h := by
    refine ⟨{ (show Engine.Swap.St P ResourceLogs from s) with pending := (show Engine.Swap.St P ResourceLogs from s).pending ++ [p] }, ?_, rfl⟩
    change Drain.engineStep S.cfg s (.push p) = _
    unfold Drain.engineStep Engine.Swap.step
    dsimp only
    rw [if_pos h]
    rfl

/-- Runs of the program for OpenTelemetry logs, producing to Kafka, beside a policy directory, at first `d`, that changes at any time, and its monitor. `sha`: checksum of a file. `comp`: the compiler. -/
abbrev ReloadRun {C : Type} [DecidableEq C] (S : Setup P) (hp : S.pending = []) (sha : Str → C) (comp : List (Str × Option Str) → Option P) (d : List (Monitor.FileEnt Str)) :=
  Reload.Exec (S.engineIn hp (Exporter.kafka (fun _ => true)) ([], 0)) sha comp d

/-! ### Specification -/

/-- No rule of the policies reads what the processor itself writes into records. -/
def ReadsOnlyInput (dss : List (List Decl)) : Prop := ∀ x ∈ (sites dss).filterMap asRule, ∀ k, MentionsE x.2 k x.1.cond → Foreign k

/-! ### Proofs -/

/-- A run beside a changing policy directory, with any transport: what the exporter has received and done when `Wait` returns. -/
theorem reload_delivers {C X : Type} [DecidableEq C] (S : Setup P) (hn : 0 < S.workers) (hcap : 0 < S.cap) (hp : S.pending = []) (T : Exporter.Transport X Exporter.Datum) (x0 : X) {sha : Str → C}
    {comp : List (Str × Option Str) → Option P} {d : List (Monitor.FileEnt Str)} {tr : List (Drain.Obs ResourceLogs)} {mo : List (Monitor.Live.Obs Str P)}
    {x : Drain.St (S.netWith T x0) × Monitor.Live.LSt Str C P} (h : Reload.Exec (S.engineIn hp T x0) sha comp d tr mo x) (hw : Waited x.1) :
    ∃ as segs es, segs.map Drain.Segment.pol = S.policies :: as ∧ Drain.EngineDelivers S.cfg S.policies (driven tr) (Exporter.received es) segs ∧ Exporter.closed es = true ∧
      (show Exporter.State X ResourceLogs Exporter.Datum × Bool from x.1.st 1).1 = Exporter.run (Exporter.perRecord S.enc) T S.buffer (Exporter.init x0 S.start) es ∧
      as ++ x.2.chan = Monitor.Live.pushed mo ∧
      ∀ p ∈ as, ∃ got, Monitor.Live.Obs.attempted got (some p) true ∈ mo ∧ comp got = some p ∧ ∀ f v, (f, v) ∈ got → Reload.PolicyName f ∧ ∃ e ∈ Reload.dirsOf d mo, v = (Monitor.Live.look e f).join := by
  obtain ⟨hm, hc, tr1, h1, h2, h3, h4⟩ := Reload.run_engine h
  have hx : Engine.Swap.Exec S.cfg S.policies S.start S.pending tr1 (show Engine.Swap.St P ResourceLogs from x.1.st 0) := by rw [hp]; exact h1
  have hdone : Engine.Swap.taken (show Engine.Swap.St P ResourceLogs from x.1.st 0).phase = [] := by
    have hw1 : Drain.phaseReturned (show Engine.Swap.St P ResourceLogs from x.1.st 0).phase = true := hw 0 (show 0 < 2 by decide)
    revert hw1
    generalize (show Engine.Swap.St P ResourceLogs from x.1.st 0).phase = ph
    cases ph <;> intro h <;> first | rfl | cases h
  have hall : Engine.Swap.adoptions tr1 ++ x.2.chan = Monitor.Live.pushed mo := by
    rw [← h4, hc]
    change _ = _ ++ Engine.Swap.taken (show Engine.Swap.St P ResourceLogs from x.1.st 0).phase ++ _
    rw [hdone, List.append_nil]
  obtain ⟨segs, es, g1, g2, g3, g4⟩ := two_stages_along S T x0 hn hcap tr x.1 (Reload.run_net h) hw hx h2 (h3 0)
  exact ⟨_, segs, es, g1, g2, g3, g4, hall, fun p hpa => Reload.pushed_compiled hm (by rw [← hall]; exact List.mem_append_left _ hpa)⟩

theorem sound_segments {S : Setup P} {dss : P → List (List Decl)} {segs : List (Drain.Segment P ResourceLogs)} {as : List P} (hs : ∀ p ∈ S.policies :: as, S.Sound dss p)
    (h : segs.map Drain.Segment.pol = S.policies :: as) : ∀ g ∈ segs, S.Sound dss g.pol := by
  intro g hg
  refine hs _ ?_
  rw [← h]
  exact List.mem_map.2 ⟨g, hg, rfl⟩

/-- **C108** A run of the program for OpenTelemetry logs, producing to Kafka, beside a changing policy directory. When `Wait` returns, the messages are complete under the first policies and then those adopted,
if these policies are sound (see `Setup.Sound`); those adopted are the first of those pushed by the monitor, all of them if none is left waiting; and each of these is what the compiler made of files read,
with contents that the directory's files had at some time. -/
theorem otel_reload_run {C : Type} [DecidableEq C] (S : Setup P) (dss : P → List (List Decl)) (ok : S.Common) (hp : S.pending = []) {sha : Str → C} {comp : List (Str × Option Str) → Option P}
    {d : List (Monitor.FileEnt Str)} {tr : List (Drain.Obs ResourceLogs)} {mo : List (Monitor.Live.Obs Str P)} {x : Drain.St S.kafkaNet × Monitor.Live.LSt Str C P} (h : ReloadRun S hp sha comp d tr mo x)
    (hw : Waited x.1) (hg : ∀ rl ∈ driven tr, Given rl) :
    ∃ as, ((∀ p ∈ S.policies :: as, S.Sound dss p) → CompleteUnder S dss (S.policies :: as) (driven tr) (S.messages x.1)) ∧ as ++ x.2.chan = Monitor.Live.pushed mo ∧
      ∀ p ∈ as, ∃ got, Monitor.Live.Obs.attempted got (some p) true ∈ mo ∧ comp got = some p ∧ ∀ f v, (f, v) ∈ got → Reload.PolicyName f ∧ ∃ e ∈ Reload.dirsOf d mo, v = (Monitor.Live.look e f).join := by
  obtain ⟨as, segs, es, g1, g2, g3, g4, g5, g6⟩ := reload_delivers S ok.workers ok.cap hp _ _ h hw
  refine ⟨as, fun hs => ?_, g5, g6⟩
  have := complete_under S dss ok _ _ hg segs (sound_segments hs g1) g2
  rw [g1, ← kafka_messages S _ g3 g4] at this
  exact this

/-- **C108** The same with a log file, in an encoding without newlines. -/
theorem otel_reload_file {C : Type} [DecidableEq C] (S : Setup P) (dss : P → List (List Decl)) (ok : S.Common) (hline : ∀ rl b, S.encode rl = some b → Exporter.newline ∉ b) (hp : S.pending = [])
    {sha : Str → C} {comp : List (Str × Option Str) → Option P} {d : List (Monitor.FileEnt Str)} {tr : List (Drain.Obs ResourceLogs)} {mo : List (Monitor.Live.Obs Str P)}
    {x : Drain.St S.fileNet × Monitor.Live.LSt Str C P} (h : Reload.Exec (S.engineIn hp (Exporter.fileTransport (fun _ => none)) Exporter.newFile) sha comp d tr mo x)
    (hw : Waited x.1) (hg : ∀ rl ∈ driven tr, Given rl) :
    ∃ as, ((∀ p ∈ S.policies :: as, S.Sound dss p) → CompleteUnder S dss (S.policies :: as) (driven tr) (Exporter.linesOf [] (S.log x.1)) ∧
        S.log x.1 = (Exporter.linesOf [] (S.log x.1)).flatMap (fun l => l ++ [Exporter.newline])) ∧ as ++ x.2.chan = Monitor.Live.pushed mo := by
  obtain ⟨as, segs, es, g1, g2, g3, g4, g5, -⟩ := reload_delivers S ok.workers ok.cap hp _ _ h hw
  refine ⟨as, fun hs => ?_, g5⟩
  obtain ⟨e1, e2⟩ := file_lines S hline _ g3 g4
  have := complete_under S dss ok _ _ hg segs (sound_segments hs g1) g2
  rw [g1, ← e1] at this
  exact ⟨this, e2⟩

/-- **C108** If moreover the directory has stopped changing and the monitor has come to rest, having been told of a change, with every change reported and readable files that never went back to an earlier
content, and nothing is left waiting: then the policies in force at the end are those of the directory as it is, if they compile and the channel had room. -/
theorem otel_reload_settled {C : Type} [DecidableEq C] (S : Setup P) (dss : P → List (List Decl)) (ok : S.Common) (hp : S.pending = []) {sha : Str → C} {comp : List (Str × Option Str) → Option P}
    {d : List (Monitor.FileEnt Str)} {tr : List (Drain.Obs ResourceLogs)} {mo : List (Monitor.Live.Obs Str P)} {x : Drain.St S.kafkaNet × Monitor.Live.LSt Str C P} (h : ReloadRun S hp sha comp d tr mo x)
    (hw : Waited x.1) (hg : ∀ rl ∈ driven tr, Given rl) {age : Str → Option (Option Str) → Nat} (hpl : Monitor.Live.Plain d) (hreg : Monitor.Live.Regular age mo)
    (inj : ∀ p x y, age p x = age p y → x = y) (hsha : ∀ b b', sha b = sha b' → b = b') (hr : Monitor.Live.Running x.2) (hset : Monitor.Live.Settled sha comp x.2) (hu : Monitor.Live.Usable x.2.dir)
    (ht : Monitor.Live.Told mo) (hch : x.2.chan = []) :
    ∃ as, ((∀ p ∈ S.policies :: as, S.Sound dss p) → CompleteUnder S dss (S.policies :: as) (driven tr) (S.messages x.1)) ∧
      ∃ got room, Monitor.Live.lastAttempt mo = some (got, comp got, room) ∧ Monitor.Live.ReadFrom x.2.dir got ∧ ∀ p, comp got = some p → room = true → as.getLast? = some p := by
  obtain ⟨as, h1, h2, -⟩ := otel_reload_run S dss ok hp h hw hg
  obtain ⟨hm, -, -⟩ := Reload.run_engine h
  refine ⟨as, h1, ?_⟩
  have := Monitor.Live.settles hm hpl hreg inj hsha hr (ls := []) (fun l h => by cases h) rfl
  rw [List.append_nil] at this
  obtain ⟨got, room, hla, hrf, -⟩ := this.2.2 hset hu ht
  refine ⟨got, room, hla, hrf, fun p hc hroom => ?_⟩
  rw [hc, hroom] at hla
  have hl := Monitor.Live.latest_pushed hm hla
  rw [(Monitor.Live.in_order hm).1, ← h2, hch, List.append_nil] at hl
  exact hl

/-- Policy files below the configured path whose texts compile are the engine's first policies. -/
theorem withDirs_policyAt (W : World Unit) (fs : Str → Dir) (later : List (PolicySetOf (otelOps W.L) W.str)) (ec : EngineConfig) (hl : ec.language = .falco) {d : List (Monitor.FileEnt Str)} {ts : List Str}
    (hd : fs ec.policiesPath = some d) (hf : PolicyFiles (ec.monitor == .loc) d ts) {n : Nat} {c : List (Rule ResourceLogs) × List (Filter ResourceLogs)}
    (hc : Falco.compile (otelOps W.L) n (ts.map (Falco.fileOf W.str)) = some (some c)) :
    ∃ p, (W.withDirs fs later).policyAt ec = some p ∧ p.texts = ts ∧ p.code = c := by
  have hex : ec.language = .falco ∧ ∃ p : PolicySetOf (otelOps W.L) W.str, ∃ n, initPolicies (otelOps W.L) W.str n (ec.monitor == .loc) (fs ec.policiesPath) = some (some (p.texts, p.code)) :=
    ⟨hl, ⟨ts, c, n, hc⟩, n, by rw [hd]; exact initPolicies_finds hf hc⟩
  refine ⟨hex.2.choose, ?_, ?_⟩
  · unfold World.withDirs
    dsimp only
    rw [dif_pos hex]
  · obtain ⟨k, hk⟩ := hex.2.choose_spec
    exact initPolicies_unique hf hc ((congrArg (initPolicies (otelOps W.L) W.str k (ec.monitor == .loc)) hd).symm.trans hk)

/-- **C108** Policies, directory and start. With the Falco language, a usual configuration whose other settings are in order is loaded exactly if the files below the policy path with the suffix .yaml or
.yml (with the local monitor, one with .yaml directly below it) can all be read and are policies of the rule language, without cyclic definitions. -/
theorem otel_directory_starts_iff (W : World Unit) (fs : Str → Dir) (later : List (PolicySetOf (otelOps W.L) W.str)) {c1 c2 : Pipeline.Conf} {a b : Str} (u : Usual c1 c2 a b) (hs : StrRule W.str)
    (hp : (engineConf c1).policiesPath ≠ []) (hl : (engineConf c1).language = .falco) (hw : 0 ≤ (engineConf c1).concurrency) {x : XConfig} (hx : createConfigX W.secrets (xconf c2) = some x)
    (ho : W.exports x = true) :
    (∃ l, loadStages (W.withDirs fs later).env { regs := bootRegs } [c1, c2] = .done l) ↔
      ∃ files texts dss, fs (engineConf c1).policiesPath = some files ∧ PolicyFiles ((engineConf c1).monitor == .loc) files texts ∧
        List.Forall₂ (fun s ds => GPolicy (ltokens W.str s) ds) texts dss ∧ ∀ y ∈ sites dss, ∀ e, siteCond y = some e → ¬ Cyclic y.2 e := by
  constructor
  · rintro ⟨l, h⟩
    apply Classical.byContradiction
    intro hno
    have hnone : (W.withDirs fs later).policyAt (engineConf c1) = none := by
      unfold World.withDirs
      dsimp only
      rw [dif_neg]
      rintro ⟨-, p, n, hc⟩
      obtain ⟨h1, files, h2, h3⟩ := initPolicies_built hc
      obtain ⟨g1, g2⟩ := policySet_good hs p
      exact hno ⟨files, p.texts, _, h2, h3, g1, g2⟩
    have he : (W.withDirs fs later).env.init .engine c1 bootRegs = .err := by
      have e : engineInit (Config.toConf (xconf c1)) ((W.withDirs fs later).policyAt (engineConf c1)).isSome = .error := by
        rw [hnone]
        unfold engineInit
        change (if (engineConf c1).policiesPath = [] then _ else if false = true then (if (engineConf c1).concurrency < 0 then _ else _) else _) = _
        rw [if_neg hp, if_neg (by decide)]
      unfold World.env
      dsimp only
      rw [e]
    unfold loadStages loadStage at h
    rw [show strAt c1 kProc = _ from u.engine] at h
    dsimp only at h
    rw [show (W.withDirs fs later).env.getProc bootRegs _ = _ from boot_engine _] at h
    dsimp only at h
    rw [he] at h
    cases h
  · rintro ⟨files, texts, dss, h1, h2, h3, h4⟩
    obtain ⟨-, n, c, hc⟩ := policy_texts_compile (otelOps W.L) hs h3 h4
    obtain ⟨p, hp1, -, -⟩ := withDirs_policyAt W fs later (engineConf c1) hl h1 h2 hc
    obtain ⟨l, hl, -⟩ := otel_boots (W.withDirs fs later) u (x := x) (p := p) ⟨hp, hp1, hw, hx, ho⟩
    exact ⟨l, hl⟩

/-- A policy set of the directory is sound if its rules read only input. -/
theorem dir_sound {W : World Unit} {fs : Str → Dir} {later : List (PolicySetOf (otelOps W.L) W.str)} (hs : StrRule W.str) (c1 : Pipeline.Conf) (x : XConfig) (p q : PolicySetOf (otelOps W.L) W.str)
    (hq : ReadsOnlyInput q.decls) : ((W.withDirs fs later).setup c1 x p).Sound PolicySetOf.decls q := by
  obtain ⟨g1, g2⟩ := policySet_good hs q
  exact ⟨g1, g2, hq, q.built⟩

/-- **C108** From the configuration and the policy directory, through its changes, to the messages. With a usual configuration producing to Kafka, with the local policy monitor, in a world that is in order,
and with policy files in the directory: the program starts with the policies in these files; in every run over records without holes that have not been processed before, when `Wait` returns, the messages
are complete under these policies and then those of policy sets adopted later, if the rules of all of these read only input, and all their texts are those of files the directory had at some time; and there is such a
run from wherever the driver is done. -/
theorem otel_hot_reload {C : Type} [DecidableEq C] (W : World Unit) (fs : Str → Dir) {m : Manifest} {env : List Str} {cs : List Pipeline.Conf} {c1 c2 : Pipeline.Conf} {a b : Str}
    (hm : setManifest m env cs = [c1, c2]) (u : Usual c1 c2 a b) (hs : StrRule W.str)
    (hp : (engineConf c1).policiesPath ≠ []) (hl : (engineConf c1).language = .falco) (hmon : (engineConf c1).monitor = .loc) (hw : 0 < (engineConf c1).concurrency)
    {x : XConfig} (hx : createConfigX W.secrets (xconf c2) = some x) (ho : W.producer x.kafka = true) (hf : x.format = .otel) (ht : x.transport = .kafka) (hwr : ∀ k, W.sends k = true)
    (hact : ∀ a f, (W.builtIn a = some f ∨ W.user a = some f) → ∀ r, (f r).1 = r) (hord : ∀ l, (W.order l).Perm l)
    {files : List (Monitor.FileEnt Str)} {texts : List Str} {dss : List (List Decl)} (h1 : fs (engineConf c1).policiesPath = some files)
    (h2 : PolicyFiles true files texts) (h3 : List.Forall₂ (fun s ds => GPolicy (ltokens W.str s) ds) texts dss)
    (h4 : ∀ y ∈ sites dss, ∀ e, siteCond y = some e → ¬ Cyclic y.2 e) :
    ∃ (l : Load Factory) (S : Setup (PolicySetOf (otelOps W.L) W.str)) (hp : S.pending = []), loadStages (W.withDirs fs []).env { regs := bootRegs } (setManifest m env cs) = .done l ∧
      (∃ d, Whole.otelDriverChannel l = .ok d ∧ l.stages.head?.map (·.ins) = some [d]) ∧
      netOf (W.withDirs fs []).comp (setManifest m env cs) l chanSize = S.kafkaNet ∧ S.policies.texts = texts ∧ S.policies.decls = dss ∧ S.monitor = true ∧ S.cap = chanSize ∧ S.Common ∧
      (∀ p, ReadsOnlyInput p.decls → S.Sound PolicySetOf.decls p) ∧
      ∀ (sha : Str → C) (tr : List (Drain.Obs ResourceLogs)) (mo : List (Monitor.Live.Obs Str (PolicySetOf (otelOps W.L) W.str))) (y : Drain.St S.kafkaNet × Monitor.Live.LSt Str C (PolicySetOf (otelOps W.L) W.str)),
        ReloadRun S hp sha (compileRead (otelOps W.L) W.str) files tr mo y →
        (Waited y.1 → (∀ rl ∈ driven tr, Given rl) →
          ∃ as, ((∀ p ∈ S.policies :: as, ReadsOnlyInput p.decls) → CompleteUnder S PolicySetOf.decls (S.policies :: as) (driven tr) (S.messages y.1)) ∧ as ++ y.2.chan = Monitor.Live.pushed mo ∧
            ∀ p ∈ as, FromHistory (Reload.dirsOf files mo) p.texts) ∧
        (rootClosed tr = true → ∃ tr' ms y', ReloadRun S hp sha (compileRead (otelOps W.L) W.str) files tr' (mo ++ ms) y' ∧ Waited y'.1 ∧ driven tr' = driven tr ∧ y'.2.dir = y.2.dir ∧ Monitor.Live.pushed ms = []) := by
  obtain ⟨hfiles, n, c, hc⟩ := policy_texts_compile (otelOps W.L) hs h3 h4
  obtain ⟨p, hp1, hp2, hp3⟩ := withDirs_policyAt W fs [] (engineConf c1) hl h1 (by rw [hmon]; exact h2) hc
  have hdecls : p.decls = dss := by
    unfold PolicySetOf.decls
    rw [hp2]
    exact (decls_of_ok hs _ _ hfiles).2
  have hready : (W.withDirs fs []).Ready c1 c2 x p := by
    refine ⟨hp, hp1, Int.le_of_lt hw, hx, ?_⟩
    unfold World.exports
    rw [hf, ht, show (W.withDirs fs []).producer x.kafka = true from ho]
    rfl
  obtain ⟨l, k1, -, k3, k4⟩ := otel_boots (W.withDirs fs []) u hready
  have ok : ((W.withDirs fs []).setup c1 x p).Common := by
    refine ⟨hs, hact, hord, ?_, ?_⟩
    · change 0 < (engineConf c1).concurrency.toNat
      omega
    · change 0 < 100000
      decide
  rw [hm]
  refine ⟨l, (W.withDirs fs []).setup c1 x p, rfl, k1, k3, k4.trans (otel_kafka_net (W.withDirs fs []) c1 ht hwr), hp2, hdecls, by change (_ == _) = true; rw [hmon]; rfl, rfl, ok,
    fun q hq => dir_sound hs c1 x p q hq, ?_⟩
  intro sha tr mo y hrun
  obtain ⟨hT, hC⟩ := netWith_ok ((W.withDirs fs []).setup c1 x p) (Exporter.kafka (fun _ => true)) ([], 0) ok.workers ok.cap
  refine ⟨fun hwait hg => ?_, fun hroot => Reload.can_finish hT hC hrun hroot⟩
  obtain ⟨as, g1, g2, g3⟩ := otel_reload_run _ PolicySetOf.decls ok rfl hrun hwait hg
  refine ⟨as, fun hro => g1 (fun q hq => dir_sound hs c1 x p q (hro q hq)), g2, fun q hq t htx => ?_⟩
  obtain ⟨got, -, hcomp, hread⟩ := g3 q hq
  have hsnd := compileRead_some.1 hcomp
  have : some t ∈ got.map Prod.snd := by rw [hsnd]; exact List.mem_map.2 ⟨t, htx, rfl⟩
  obtain ⟨⟨f, v⟩, hfv, hv'⟩ := List.mem_map.1 this
  cases hv'
  obtain ⟨hname, e, he, hlook⟩ := hread f _ hfv
  refine ⟨e, he, f, hname, ?_⟩
  revert hlook
  generalize Monitor.Live.look e f = o
  intro hlook
  match o, hlook with
  | some (some _), rfl => rfl

/-! ### A concrete case -/

/-- The configuration of the example: the policies of a directory, with the local monitor; export to Kafka. -/
def otelWatchConfs : List Pipeline.Conf :=
  [(otelConfs [("policies".toList, .str "p".toList), ("monitor".toList, .str "local".toList)] [] []).1, (otelConfs [] "otel".toList "kafka".toList).2]

def otelWatchConfs' : List Pipeline.Conf := setManifest Whole.demoManifest ["CLUSTER_ID=x".toList] otelWatchConfs

theorem otelWatch_usual : ∃ c1 c2, setManifest Whole.demoManifest ["CLUSTER_ID=x".toList] otelWatchConfs = [c1, c2] ∧ Usual c1 c2 "o".toList "e".toList ∧
    c1 = otelWatchConfs'[0]'(by decide +kernel) ∧ c2 = otelWatchConfs'[1]'(by decide +kernel) := by
  obtain ⟨c1, c2, h1, h2, -⟩ := usual_manifest (c1 := otelWatchConfs[0]) (c2 := otelWatchConfs[1]) (a := "o".toList) (b := "e".toList) Whole.demoManifest ["CLUSTER_ID=x".toList]
    ⟨rfl, rfl, ⟨_, rfl, by decide +kernel⟩, ⟨_, rfl, by decide +kernel⟩, ⟨_, "x".toList, rfl, by decide +kernel⟩, rfl, by decide⟩
  have e : otelWatchConfs' = [c1, c2] := h1
  refine ⟨c1, c2, h1, h2, ?_, ?_⟩ <;> simp only [e] <;> rfl

theorem otelWatch_settings : (engineConf (otelWatchConfs'[0]'(by decide +kernel))).policiesPath = "p".toList ∧ (engineConf (otelWatchConfs'[0]'(by decide +kernel))).concurrency = 5 ∧
    (engineConf (otelWatchConfs'[0]'(by decide +kernel))).monitor = .loc ∧ (engineConf (otelWatchConfs'[0]'(by decide +kernel))).language = .falco ∧
    (createConfigX ⟨fun _ => none, fun _ => none⟩ (xconf (otelWatchConfs'[1]'(by decide +kernel)))).map (fun x => (x.format, x.transport)) = some (.otel, .kafka) := by
  decide +kernel

/-- The directory: one policy file. -/
def hostDir (t : Str) : List (Monitor.FileEnt Str) := [⟨"p/a.yaml".toList, 0, some t⟩]

theorem host_policyFiles : PolicyFiles true (hostDir hostText) [hostText] := by
  refine ⟨List.cons_ne_nil _ _, ?_, fun _ => ⟨_, List.mem_cons_self, rfl, by decide +kernel⟩⟩
  have e : (hostDir hostText).filter (fun f => decide (".yaml".toList <:+ f.path ∨ ".yml".toList <:+ f.path)) = hostDir hostText := by
    unfold hostDir
    rw [List.filter_cons_of_pos (by decide +kernel)]
    rfl
  rw [e]
  rfl

open Classical in
/-- The hypotheses of `otel_hot_reload` are met: the program starts with the policies of the directory; the monitor starts, the directory is watched and its file gets another text; the driver sends a record to
which a rule applies; the run ends; if nothing has been adopted whose rules read what the processor writes, the messages are complete. -/
example (t : Str) : ∃ (l : Load Factory) (S : Setup (PolicySetOf (otelOps (otelWorld ([], [])).L) Falco.simpleStr)) (hp : S.pending = []),
    loadStages ((otelWorld ([], [])).withDirs (fun s => if s = "p".toList then some (hostDir hostText) else none) []).env { regs := bootRegs }
      (setManifest Whole.demoManifest ["CLUSTER_ID=x".toList] otelWatchConfs) = .done l ∧ S.policies.decls = [[.rule hostRule]] ∧ S.Sound PolicySetOf.decls S.policies ∧
    ∃ tr mo y, ReloadRun S hp (id : Str → Str) (compileRead (otelOps (otelWorld ([], [])).L) Falco.simpleStr) (hostDir hostText) tr mo y ∧ Waited y.1 ∧ driven tr = [demoLogs] ∧ y.2.dir = hostDir t ∧
      ∃ as, (∀ p ∈ as, ReadsOnlyInput p.decls) → CompleteUnder S PolicySetOf.decls (S.policies :: as) [demoLogs] (S.messages y.1) := by
  obtain ⟨c1, c2, hm, hu, e1, e2⟩ := otelWatch_usual
  obtain ⟨s1, s2, s3, s6, s5⟩ := otelWatch_settings
  rw [← e1] at s1 s2 s3 s6
  rw [← e2] at s5
  obtain ⟨x, hx, hs⟩ := Option.map_eq_some_iff.1 s5
  simp only [Prod.mk.injEq] at hs
  obtain ⟨f1, f2⟩ := hs
  obtain ⟨l, S, hp, h1, -, hnet, -, h2, -, -, -, hsound, h3⟩ := otel_hot_reload (C := Str) (otelWorld ([], [])) (fun s => if s = "p".toList then some (hostDir hostText) else none) hm hu Falco.simple_rule
    (by rw [s1]; decide) s6 s3 (by rw [s2]; decide) hx rfl f1 f2 (fun _ => rfl) (fun a f hf => by rcases hf with hf | hf <;> cases hf) (fun l => .refl l)
    (by rw [if_pos s1]) host_policyFiles (.cons host_parses .nil) host_acyclic
  have hfirst : ReadsOnlyInput S.policies.decls := by rw [h2]; exact host_foreign
  have e0 : ReloadRun S hp (id : Str → Str) (compileRead (otelOps (otelWorld ([], [])).L) Falco.simpleStr) (hostDir hostText) [] [] (Drain.St.start S.kafkaNet, Monitor.Live.init (hostDir hostText)) := .nil
  have hls : ∀ l ∈ ([.start, .add, .change (hostDir t) [⟨"p/a.yaml".toList, 2⟩]] : List (Monitor.Live.Label Str)), Monitor.Joint.shared l = false := by
    intro l hl
    simp only [List.mem_cons, List.not_mem_nil, or_false] at hl
    rcases hl with rfl | rfl | rfl <;> rfl
  obtain ⟨t1, x1, e1, n1, b1, k1, d1, -, -⟩ := Reload.lift_run e0 rfl hls rfl
  have hbuf : ∀ c, x1.buf c = [] := fun c => by rw [b1]; rfl
  have hcl : ∀ c, x1.closed c = false := fun c => by rw [k1]; rfl
  obtain ⟨t2, ms2, x2, e2, r2, d2, g2⟩ := Reload.drive_and_close e1 n1 (hcl _) [demoLogs] (by rw [hbuf]; refine Nat.le_trans ?_ (Nat.le_of_eq (congrArg Drain.Net.cap hnet)); change 0 + 1 ≤ 100000; decide)
  obtain ⟨a1, a2⟩ := h3 (id : Str → Str) _ _ _ e2
  obtain ⟨t3, ms3, y, e4, w4, d4, g4, -⟩ := a2 r2
  have hdr : driven t3 = [demoLogs] := by rw [d4, d2, List.nil_append, d1]; rfl
  obtain ⟨as, ha, -⟩ := (h3 (id : Str → Str) _ _ _ e4).1 w4 (by rw [hdr]; intro rl hrl; rw [List.mem_singleton.1 hrl]; exact ⟨demo_whole, demo_fresh⟩)
  refine ⟨l, S, hp, h1, h2, hsound _ hfirst, t3, _, y, e4, w4, hdr, g4.trans (g2.trans rfl), as, fun hro => ?_⟩
  rw [← hdr]
  refine ha fun p hpm => ?_
  rcases List.mem_cons.1 hpm with rfl | hpm
  · exact hfirst
  · exact hro p hpm

end Verif.OtelRun
