import Verif.Whole.OtelReload
import Verif.Whole.OtelRuns
import Verif.Whole.ReloadMoments
/-
C129: in the build for OpenTelemetry logs: what has come out at every moment of a run beside a policy directory that changes at any time.
Sources: /repo/core/policyengine/policyengine.go:101-167, 221-234, /repo/core/policyengine/monitor/localpolicymonitor.go:51-231, /repo/core/exporter/exporter.go:104-160,
/repo/core/exporter/transports/kafka.go:59-103, file.go:60-84
-/
namespace Verif.OtelRun
open Verif.Decimal (Str)
open Verif.Exporter (Bytes)
open Verif.Policy
open Verif.Otel
open Verif.Falco (Decl GPolicy ltokens StrRule Cyclic MentionsE sites asRule siteCond)
open Verif.Pipeline
open Verif.Pipeline.Process
open Verif.Pipeline.Drain (Net Comp sync engine exporter chain driven rootClosed Waited emitted)
open Verif.Config (XConf XVal XConfig ConfEnv EngineConfig createConfigX createEngineConfig createFlattenerConfig engineInit)
open Verif.Whole (Factory bootRegs xconf engineConf seconds chanSize Dir PolicySetOf PolicyFiles initPolicies compileRead compileRead_some FromHistory policySet_good policy_texts_compile TakenSoFar)

variable {P : Type}

/-! ### Proofs -/

/-- At every moment of a run beside a changing policy directory, what has come out of the exporter is the beginning of what has come out at the end of a completed run over the records delivered so far, with the
directory's history so far and the policy sets pushed so far. -/
theorem otel_reload_completes {C X α : Type} [DecidableEq C] (S : Setup P) (hwork : 0 < S.workers) (hcap : 0 < S.cap) (T : Exporter.Transport X Exporter.Datum) (x0 : X) (g : X → List α)
    (hg : ∀ x ds, g x <+: g (T.send x ds).1) (hp : S.pending = []) {sha : Str → C} {comp : List (Str × Option Str) → Option P}
    {d : List (Monitor.FileEnt Str)} {tr : List (Drain.Obs ResourceLogs)} {mo : List (Monitor.Live.Obs Str P)} {x : Drain.St (S.netWith T x0) × Monitor.Live.LSt Str C P}
    (h : Reload.Exec (S.engineIn hp T x0) sha comp d tr mo x) :
    ∃ tr' mo' y, Reload.Exec (S.engineIn hp T x0) sha comp d tr' mo' y ∧ Waited y.1 ∧ driven tr' = driven tr ∧ Monitor.Live.pushed mo' = Monitor.Live.pushed mo ∧ Reload.dirsOf d mo' = Reload.dirsOf d mo ∧
      (∀ as, as ++ y.2.chan = Monitor.Live.pushed mo → TakenSoFar mo as) ∧
      g (show Exporter.State X ResourceLogs Exporter.Datum × Bool from x.1.st 1).1.tr <+: g (show Exporter.State X ResourceLogs Exporter.Datum × Bool from y.1.st 1).1.tr := by
  obtain ⟨hT, hC⟩ := netWith_ok S T x0 hwork hcap
  obtain ⟨tr', ms, y, h1, h2, h3, h4, h5⟩ := Reload.completes_beside hT hC h
  refine ⟨tr', mo ++ ms, y, h1, h2, h3, ?_, Reload.dirs_taken d mo h4.obs, ?_, ?_⟩
  · rw [Monitor.Live.pushed_append, Reload.pushed_taken h4.obs, List.append_nil]
  · intro as has
    refine ⟨?_, ⟨_, has⟩⟩
    obtain ⟨hm, -, -⟩ := Reload.run_engine h
    have hin := (Monitor.Live.in_order hm).1
    have p1 : Monitor.Live.adopted mo <+: Monitor.Live.pushed mo := ⟨_, hin⟩
    have p2 : as <+: Monitor.Live.pushed mo := ⟨_, has⟩
    refine List.prefix_of_prefix_length_le p1 p2 ?_
    have e1 := congrArg List.length hin
    have e2 := congrArg List.length has
    rw [List.length_append] at e1 e2
    have := h4.chan
    omega
  · obtain ⟨a, b, e1, e2, e3⟩ := Drain.exporter_later (C := (S.netWith T x0).comp 1) rfl g hg (h5 1)
    cases e1
    cases e2
    exact e3

/-- What holds of every completed run beside a changing directory holds, at every moment of a run, of something that what has come out is the beginning of. -/
theorem otel_moment_of {C X α : Type} [DecidableEq C] (S : Setup P) (hwork : 0 < S.workers) (hcap : 0 < S.cap) (T : Exporter.Transport X Exporter.Datum) (x0 : X) (g : X → List α)
    (hg : ∀ x ds, g x <+: g (T.send x ds).1) (hp : S.pending = []) {sha : Str → C} {comp : List (Str × Option Str) → Option P} {d : List (Monitor.FileEnt Str)} {R : List P → X → Prop}
    {H : List (List (Monitor.FileEnt Str)) → P → Prop} {a : List ResourceLogs}
    (k : ∀ (tr : List (Drain.Obs ResourceLogs)) (mo : List (Monitor.Live.Obs Str P)) (y : Drain.St (S.netWith T x0) × Monitor.Live.LSt Str C P), Reload.Exec (S.engineIn hp T x0) sha comp d tr mo y →
      Waited y.1 → driven tr = a → ∃ as, R as (show Exporter.State X ResourceLogs Exporter.Datum × Bool from y.1.st 1).1.tr ∧ as ++ y.2.chan = Monitor.Live.pushed mo ∧ ∀ p ∈ as, H (Reload.dirsOf d mo) p)
    {tr : List (Drain.Obs ResourceLogs)} {mo : List (Monitor.Live.Obs Str P)} {x : Drain.St (S.netWith T x0) × Monitor.Live.LSt Str C P} (h : Reload.Exec (S.engineIn hp T x0) sha comp d tr mo x)
    (hd : driven tr = a) :
    ∃ as full, R as full ∧ g (show Exporter.State X ResourceLogs Exporter.Datum × Bool from x.1.st 1).1.tr <+: g full ∧ TakenSoFar mo as ∧ ∀ p ∈ as, H (Reload.dirsOf d mo) p := by
  obtain ⟨tr', mo', y, h1, h2, h3, h4, h5, h6, h7⟩ := otel_reload_completes S hwork hcap T x0 g hg hp h
  obtain ⟨as, k1, k2, k3⟩ := k tr' mo' y h1 h2 (h3.trans hd)
  rw [h4] at k2
  rw [h5] at k3
  exact ⟨as, _, k1, h7, h6 as k2, k3⟩

/-! ### C129 -/

/-- **C129** Messages to Kafka: at every moment they are the first of a sequence complete for the records delivered so far, under the first policies and then policy sets that begin with those taken so far and are
the first of those pushed so far, if these are sound; each of them is what the compiler made of files read, with contents that the directory's files had at some time. -/
theorem otel_reload_at_every_moment {C : Type} [DecidableEq C] (S : Setup P) (dss : P → List (List Decl)) (ok : S.Common) (hp : S.pending = []) {sha : Str → C} {comp : List (Str × Option Str) → Option P}
    {d : List (Monitor.FileEnt Str)} {tr : List (Drain.Obs ResourceLogs)} {mo : List (Monitor.Live.Obs Str P)} {x : Drain.St S.kafkaNet × Monitor.Live.LSt Str C P} (h : ReloadRun S hp sha comp d tr mo x)
    (hg : ∀ rl ∈ driven tr, Given rl) :
    ∃ as all, ((∀ p ∈ S.policies :: as, S.Sound dss p) → CompleteUnder S dss (S.policies :: as) (driven tr) all) ∧ S.messages x.1 <+: all ∧ TakenSoFar mo as ∧
      ∀ p ∈ as, ∃ got, comp got = some p ∧ ∀ f v, (f, v) ∈ got → Reload.PolicyName f ∧ ∃ e ∈ Reload.dirsOf d mo, v = (Monitor.Live.look e f).join := by
  obtain ⟨as, full, k1, k2, k3, k4⟩ := otel_moment_of S ok.workers ok.cap (Exporter.kafka (fun _ => true)) ([], 0) Prod.fst (fun x ds => kafkaExport_grows _ ds x) hp
    (R := fun as o => (∀ p ∈ S.policies :: as, S.Sound dss p) → CompleteUnder S dss (S.policies :: as) (driven tr) o.1)
    (H := fun ds p => ∃ got, comp got = some p ∧ ∀ f v, (f, v) ∈ got → Reload.PolicyName f ∧ ∃ e ∈ ds, v = (Monitor.Live.look e f).join) (a := driven tr) (fun tr' mo' y hr hw hdr => by
      obtain ⟨as, q1, q2, q3⟩ := otel_reload_run S dss ok hp hr hw (by rw [hdr]; exact hg)
      rw [hdr] at q1
      exact ⟨as, q1, q2, fun p hp => by obtain ⟨got, -, g2, g3⟩ := q3 p hp; exact ⟨got, g2, g3⟩⟩) h rfl
  exact ⟨as, full.1, k1, k2, k3, k4⟩

/-- **C129** A log file, in an encoding without newlines: at every moment, whatever first part of what has been written is there has as its lines the first of such messages, the last perhaps cut short. -/
theorem otel_reload_file_at_every_moment {C : Type} [DecidableEq C] (S : Setup P) (dss : P → List (List Decl)) (ok : S.Common) (hline : ∀ rl b, S.encode rl = some b → Exporter.newline ∉ b) (hp : S.pending = [])
    {sha : Str → C} {comp : List (Str × Option Str) → Option P} {d : List (Monitor.FileEnt Str)} {tr : List (Drain.Obs ResourceLogs)} {mo : List (Monitor.Live.Obs Str P)}
    {x : Drain.St S.fileNet × Monitor.Live.LSt Str C P} (h : Reload.Exec (S.engineIn hp (Exporter.fileTransport (fun _ => none)) Exporter.newFile) sha comp d tr mo x) (hg : ∀ rl ∈ driven tr, Given rl) :
    ∃ as all, ((∀ p ∈ S.policies :: as, S.Sound dss p) → CompleteUnder S dss (S.policies :: as) (driven tr) all ∧
      ∀ b, b <+: S.log x.1 → b <+: all.flatMap (fun l => l ++ [Exporter.newline]) ∧ Exporter.linesOf [] b <+: all) ∧ TakenSoFar mo as := by
  obtain ⟨as, full, k1, k2, k3, -⟩ := otel_moment_of S ok.workers ok.cap (Exporter.fileTransport (fun _ => none)) Exporter.newFile Exporter.OutFile.contents (fun x ds => Whole.fileExport_grows _ ds x) hp
    (R := fun as o => (∀ p ∈ S.policies :: as, S.Sound dss p) → CompleteUnder S dss (S.policies :: as) (driven tr) (Exporter.linesOf [] o.contents) ∧
      o.contents = (Exporter.linesOf [] o.contents).flatMap (fun l => l ++ [Exporter.newline]))
    (H := fun _ _ => True) (a := driven tr) (fun tr' mo' y hr hw hdr => by
      obtain ⟨as, q1, q2⟩ := otel_reload_file S dss ok hline hp hr hw (by rw [hdr]; exact hg)
      rw [hdr] at q1
      exact ⟨as, q1, q2, fun _ _ => True.intro⟩) h rfl
  refine ⟨as, Exporter.linesOf [] full.contents, fun hs => ?_, k3⟩
  obtain ⟨c1, c2⟩ := k1 hs
  refine ⟨c1, fun b hb => ?_⟩
  have hbf := hb.trans k2
  rw [← c2]
  exact ⟨hbf, Whole.linesOf_prefix hbf []⟩

/-- **C129** From the configuration and the policy directory, through its changes, to Kafka: at every moment of a run, the messages produced are the first of a sequence complete for the records delivered so far, under the
policies at the start and then those of texts that the files of the directory have had, if the rules of all of these read only input. -/
theorem otel_moments {C : Type} [DecidableEq C] (W : World Unit) (fs : Str → Dir) {m : Manifest} {env : List Str} {cs : List Pipeline.Conf} {c1 c2 : Pipeline.Conf} {a b : Str}
    (hm : setManifest m env cs = [c1, c2]) (u : Usual c1 c2 a b) (hs : StrRule W.str)
    (hp : (engineConf c1).policiesPath ≠ []) (hl : (engineConf c1).language = .falco) (hmon : (engineConf c1).monitor = .loc) (hw : 0 < (engineConf c1).concurrency)
    {x : XConfig} (hx : createConfigX W.secrets (xconf c2) = some x) (ho : W.producer x.kafka = true) (hf : x.format = .otel) (ht : x.transport = .kafka) (hwr : ∀ k, W.sends k = true)
    (hact : ∀ a f, (W.builtIn a = some f ∨ W.user a = some f) → ∀ r, (f r).1 = r) (hord : ∀ l, (W.order l).Perm l)
    {files : List (Monitor.FileEnt Str)} {texts : List Str} {dss : List (List Decl)} (h1 : fs (engineConf c1).policiesPath = some files)
    (h2 : PolicyFiles true files texts) (h3 : List.Forall₂ (fun s ds => GPolicy (ltokens W.str s) ds) texts dss)
    (h4 : ∀ y ∈ sites dss, ∀ e, siteCond y = some e → ¬ Cyclic y.2 e) :
    ∃ (l : Load Factory) (S : Setup (PolicySetOf (otelOps W.L) W.str)) (hp : S.pending = []), loadStages (W.withDirs fs []).env { regs := bootRegs } (setManifest m env cs) = .done l ∧
      (∃ d, Whole.otelDriverChannel l = .ok d ∧ l.stages.head?.map (·.ins) = some [d]) ∧
      netOf (W.withDirs fs []).comp (setManifest m env cs) l chanSize = S.kafkaNet ∧ S.policies.texts = texts ∧ S.policies.decls = dss ∧ S.monitor = true ∧ S.cap = chanSize ∧ S.Common ∧
      (∀ p, ReadsOnlyInput p.decls → S.Sound PolicySetOf.decls p) ∧
      ∀ (sha : Str → C) (tr : List (Drain.Obs ResourceLogs)) (mo : List (Monitor.Live.Obs Str (PolicySetOf (otelOps W.L) W.str))) (y : Drain.St S.kafkaNet × Monitor.Live.LSt Str C (PolicySetOf (otelOps W.L) W.str)),
        ReloadRun S hp sha (compileRead (otelOps W.L) W.str) files tr mo y →
        (∀ rl ∈ driven tr, Given rl) →
          ∃ as all, ((∀ p ∈ S.policies :: as, ReadsOnlyInput p.decls) → CompleteUnder S PolicySetOf.decls (S.policies :: as) (driven tr) all) ∧ S.messages y.1 <+: all ∧ TakenSoFar mo as ∧
            ∀ p ∈ as, FromHistory (Reload.dirsOf files mo) p.texts:= by
  obtain ⟨l, S, hpend, i1, i2, i3, i4, i5, i6, i7, ok, i9, k⟩ := otel_hot_reload (C := C) W fs hm u hs hp hl hmon hw hx ho hf ht hwr hact hord h1 h2 h3 h4
  refine ⟨l, S, hpend, i1, i2, i3, i4, i5, i6, i7, ok, i9, fun sha tr mo y hrun hg => ?_⟩
  obtain ⟨as, full, e1, e2, e3, e4⟩ := otel_moment_of S ok.workers ok.cap _ _ Prod.fst (fun x ds => kafkaExport_grows _ ds x) _
    (R := fun as o => (∀ p ∈ S.policies :: as, ReadsOnlyInput p.decls) → CompleteUnder S PolicySetOf.decls (S.policies :: as) (driven tr) o.1)
    (H := fun ds q => FromHistory ds q.texts) (a := driven tr) (fun tr' mo' y' hr hwt hdr => by
      obtain ⟨as, q1, q2, q3⟩ := (k sha tr' mo' y' hr).1 hwt (by rw [hdr]; exact hg)
      rw [hdr] at q1
      exact ⟨as, q1, q2, q3⟩) hrun rfl
  exact ⟨as, full.1, e1, e2, e3, e4⟩

open Classical in
/-- The hypotheses of `otel_moments` are met: the program starts with the policies of the directory; the monitor starts, the directory is watched and its file gets another text; the driver sends a record to
which a rule applies, and nothing more has happened. -/
example (t : Str) : ∃ (l : Load Factory) (S : Setup (PolicySetOf (otelOps (otelWorld ([], [])).L) Falco.simpleStr)) (hp : S.pending = []),
    loadStages ((otelWorld ([], [])).withDirs (fun s => if s = "p".toList then some (hostDir hostText) else none) []).env { regs := bootRegs }
      (setManifest Whole.demoManifest ["CLUSTER_ID=x".toList] otelWatchConfs) = .done l ∧ S.policies.decls = [[.rule hostRule]] ∧ S.Sound PolicySetOf.decls S.policies ∧
    ∃ tr mo y, ReloadRun S hp (id : Str → Str) (compileRead (otelOps (otelWorld ([], [])).L) Falco.simpleStr) (hostDir hostText) tr mo y ∧ driven tr = [demoLogs] ∧ y.2.dir = hostDir t ∧
      ∃ as all, ((∀ p ∈ as, ReadsOnlyInput p.decls) → CompleteUnder S PolicySetOf.decls (S.policies :: as) [demoLogs] all) ∧ S.messages y.1 <+: all := by
  obtain ⟨c1, c2, hm, hu, e1, e2⟩ := otelWatch_usual
  obtain ⟨s1, s2, s3, s6, s5⟩ := otelWatch_settings
  rw [← e1] at s1 s2 s3 s6
  rw [← e2] at s5
  obtain ⟨x, hx, hs⟩ := Option.map_eq_some_iff.1 s5
  simp only [Prod.mk.injEq] at hs
  obtain ⟨f1, f2⟩ := hs
  obtain ⟨l, S, hp, h1, -, hnet, -, h2, -, -, -, hsound, h3⟩ := otel_moments (C := Str) (otelWorld ([], [])) (fun s => if s = "p".toList then some (hostDir hostText) else none) hm hu Falco.simple_rule
    (by rw [s1]; decide) s6 s3 (by rw [s2]; decide) hx rfl f1 f2 (fun _ => rfl) (fun a f hf => by rcases hf with hf | hf <;> cases hf) (fun l => .refl l)
    (by rw [if_pos s1]) host_policyFiles (.cons host_parses .nil) host_acyclic
  have hfirst : ReadsOnlyInput S.policies.decls := by rw [h2]; exact host_foreign
  have e0 : ReloadRun S hp (id : Str → Str) (compileRead (otelOps (otelWorld ([], [])).L) Falco.simpleStr) (hostDir hostText) [] [] (Drain.St.start S.kafkaNet, Monitor.Live.init (hostDir hostText)) := .nil
  have hls : ∀ l ∈ ([.start, .add, .change (hostDir t) [⟨"p/a.yaml".toList, 2⟩]] : List (Monitor.Live.Label Str)), Monitor.Joint.shared l = false := by
    intro l hl
    simp only [List.mem_cons, List.not_mem_nil, or_false] at hl
    rcases hl with rfl | rfl | rfl <;> rfl
  obtain ⟨t1, x1, e1, n1, b1, k1, d1, -, -⟩ := Reload.lift_run e0 rfl hls rfl
  have hbuf : ∀ c, x1.buf c = [] := fun c => by rw [b1]; rfl
  have hcl : ∀ c, x1.closed c = false := fun c => by rw [k1]; rfl
  obtain ⟨t2, ms2, x2, e2, r2, d2, g2⟩ := Reload.drive_and_close e1 n1 (hcl _) [demoLogs] (by rw [hbuf]; refine Nat.le_trans ?_ (Nat.le_of_eq (congrArg Drain.Net.cap hnet)); change 0 + 1 ≤ 100000; decide)
  have hdr : driven t2 = [demoLogs] := by rw [d2, List.nil_append, d1]; rfl
  obtain ⟨as, all, ha, hpre, -⟩ := h3 (id : Str → Str) _ _ _ e2 (by rw [hdr]; intro rl hrl; rw [List.mem_singleton.1 hrl]; exact ⟨demo_whole, demo_fresh⟩)
  refine ⟨l, S, hp, h1, h2, hsound _ hfirst, t2, _, x2, e2, hdr, g2.trans rfl, as, all, fun hro => ?_, hpre⟩
  rw [← hdr]
  refine ha fun p hpm => ?_
  rcases List.mem_cons.1 hpm with rfl | hpm
  · exact hfirst
  · exact hro p hpm

end Verif.OtelRun
