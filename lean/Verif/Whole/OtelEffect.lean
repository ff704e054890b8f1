import Verif.Whole.OtelReload
import Verif.Whole.ReloadEffect
/-
C108: an edit of the policy directory takes effect in the build for OpenTelemetry logs: runs in which the policies of the edited file are adopted.
Sources: /repo/core/policyengine/policyengine.go:136-206, /repo/core/policyengine/policyengine_otel.go:26-36, /repo/core/policyengine/monitor/localpolicymonitor.go:157-231
-/
namespace Verif.OtelRun
open Verif.Decimal (Str)
open Verif.Exporter (Bytes)
open Verif.Policy
open Verif.Otel
open Verif.Falco (Decl GPolicy ltokens StrRule Cyclic MentionsE sites asRule siteCond)
open Verif.Pipeline
open Verif.Pipeline.Process
open Verif.Pipeline.Drain (Net Comp sync engine exporter chain driven rootClosed Exec Waited emitted)
open Verif.Config (XConf XVal XConfig ConfEnv EngineConfig createConfigX createEngineConfig createFlattenerConfig engineInit)
open Verif.Whole (Factory bootRegs xconf engineConf seconds chanSize Dir PolicySetOf PolicyFiles initPolicies compileRead compileRead_some FromHistory policySet_good policy_texts_compile initPolicies_finds
  initPolicies_built initPolicies_unique decls_of_ok sole_policyFiles edit_unshared only_taken_pushes edit_stays_regular textAge textAge_inj a_yaml)

variable {P : Type}

/-- The policy engine reads the clock when it has taken a record (policyengine.go:141-143). -/
def Setup.ticks {X : Type} (S : Setup P) (hp : S.pending = []) (T : Exporter.Transport X Exporter.Datum) (x0 : X) : Reload.Ticks (S.engineIn hp T x0) where
  clock t := .clock t
  lab _ := rfl
  accepts s t u os h := by
    refine ⟨u, ?_, rfl⟩
    change Drain.engineStep S.cfg s (.clock t) = _
    unfold Drain.engineStep
    have h' : Engine.Swap.step S.cfg (show Engine.Swap.St P ResourceLogs from s) (.clock t) = some (u, os) := h
    split
    · rename_i s' os' he
      cases he.symm.trans h'
      rfl
    · rename_i he
      cases he.symm.trans h'

/-- **C108** An edit can be adopted: with a watched directory of one policy file, an edit of the file to a text that compiles, and at least one record, there is a run of the program for OpenTelemetry logs, with
any transport, in which exactly the new policies are pushed and nothing is left waiting. When this run is over the monitor is at rest. -/
theorem otel_edit_adopted {C X : Type} [DecidableEq C] (S : Setup P) (hn : 0 < S.workers) (hcap : 0 < S.cap) (hmon : S.monitor = true) (hp : S.pending = []) (T : Exporter.Transport X Exporter.Datum) (x0 : X)
    (sha : Str → C) {comp : List (Str × Option Str) → Option P} {f : Str} (hf : Monitor.Live.Yaml f) (t0 t : Str) {p : P} (hc : comp [(f, some t)] = some p)
    {rs : List ResourceLogs} (hne : rs ≠ []) (hroom : rs.length ≤ S.cap) :
    ∃ tr mo y, Reload.Exec (S.engineIn hp T x0) sha comp (Monitor.Live.sole f t0) tr mo y ∧ Waited y.1 ∧ driven tr = rs ∧ y.2.dir = Monitor.Live.sole f t ∧
      Monitor.Live.Running y.2 ∧ Monitor.Live.Settled sha comp y.2 ∧ Monitor.Live.Told mo ∧ y.2.chan = [] ∧
      (∀ age : Str → Option (Option Str) → Nat, age f (some (some t0)) ≤ age f (some (some t)) → Monitor.Live.Regular age mo) ∧
      Monitor.Live.pushed mo = [p] := by
  obtain ⟨hT, hC⟩ := netWith_ok S T x0 hn hcap
  have e0 : Reload.Exec (S.engineIn hp T x0) sha comp (Monitor.Live.sole f t0) [] [] (Drain.St.start (S.netWith T x0), Monitor.Live.init (Monitor.Live.sole f t0)) := .nil
  obtain ⟨t1, x1, e1, n1, b1, k1, d1, -, -⟩ := Reload.lift_run e0 rfl (edit_unshared f t) (Monitor.Live.edit_run hf t0 t hc)
  have hbuf : ∀ c, x1.buf c = [] := fun c => by rw [b1]; rfl
  have hcl : ∀ c, x1.closed c = false := fun c => by rw [k1]; rfl
  have ht1 : Drain.takes (Drain.acts 0 ([] ++ t1)) = [] := by
    have I := (Drain.inv_exec hT hC (Reload.run_net e1)).root
    rw [List.nil_append, d1] at I
    exact (List.append_eq_nil_iff.1 I).1
  obtain ⟨t2, x2, e2, r2, d2, k2⟩ := Reload.drive_close_only e1 n1 (hcl _) rs (by rw [hbuf]; exact (Nat.zero_add _).symm ▸ hroom)
  have hdr : driven ([] ++ t1 ++ t2) = rs := by rw [Drain.driven_append, d2, List.nil_append, d1]; rfl
  obtain ⟨tr, ms, y, e3, w3, d3, o3, c3⟩ := Reload.can_adopt hT hC (S.ticks hp T x0) hmon e2 r2 (Nat.le_refl 1) (by
    intro tr' s' h' hw' hd' heq
    obtain ⟨-, g1, -⟩ := Drain.drained_when_wait_returns hT hC h' hw'
    change Drain.takes (Drain.acts 0 tr') = Drain.takes (Drain.acts 0 _) at heq
    rw [g1, hd', hdr, Drain.acts_append, Drain.takes_append, ht1, k2] at heq
    exact hne heq)
  have hph : y.2.phase = .idle ∧ y.2.queue = [] := by rw [o3.rest]; exact ⟨rfl, rfl⟩
  have hrun' : Monitor.Live.Running y.2 := by
    constructor <;> rw [hph.1] <;> intro h <;> cases h
  refine ⟨tr, _, y, e3, w3, d3.trans hdr, by rw [o3.rest], hrun', (Monitor.Live.settled_iff hrun').2 hph, ?_, c3, edit_stays_regular hf o3, ?_⟩
  · obtain ⟨e, he, hrest⟩ := Monitor.Live.edit_told hf t0 t p
    exact ⟨e, List.mem_append_left _ (List.mem_append_right _ he), hrest⟩
  · rw [List.nil_append, Monitor.Live.pushed_append, Monitor.Live.edit_pushed, only_taken_pushes o3]; rfl

/-- **C108** An edit takes effect: with a watched directory of one policy file, an edit of the file to a text that compiles to sound policies (see `Setup.Sound`), and at least one record, none with holes or
processed before, there is a run of the program, producing to Kafka, in which the new policies are adopted and the messages are complete under the first policies followed by the new ones. -/
theorem otel_edit_takes_effect {C : Type} [DecidableEq C] (S : Setup P) (dss : P → List (List Decl)) (ok : S.Common) (hmon : S.monitor = true) (hp : S.pending = []) (sha : Str → C)
    {comp : List (Str × Option Str) → Option P} {f : Str} (hf : Monitor.Live.Yaml f) (t0 t : Str) {p : P} (hc : comp [(f, some t)] = some p) (hs : S.Sound dss S.policies) (hs' : S.Sound dss p)
    {rs : List ResourceLogs} (hne : rs ≠ []) (hroom : rs.length ≤ S.cap) (hg : ∀ rl ∈ rs, Given rl) :
    ∃ tr mo y, ReloadRun S hp sha comp (Monitor.Live.sole f t0) tr mo y ∧ Waited y.1 ∧ driven tr = rs ∧ y.2.dir = Monitor.Live.sole f t ∧
      Monitor.Live.Running y.2 ∧ Monitor.Live.Settled sha comp y.2 ∧ Monitor.Live.Told mo ∧ y.2.chan = [] ∧
      (∀ age : Str → Option (Option Str) → Nat, age f (some (some t0)) ≤ age f (some (some t)) → Monitor.Live.Regular age mo) ∧
      CompleteUnder S dss [S.policies, p] rs (S.messages y.1) := by
  obtain ⟨tr, mo, y, e3, w3, d3, k1, k2, k3, k4, c3, k5, hpush⟩ := otel_edit_adopted S ok.workers ok.cap hmon hp (Exporter.kafka (fun _ => true)) ([], 0) sha hf t0 t hc hne hroom
  obtain ⟨as, h1, h2, -⟩ := otel_reload_run S dss ok hp e3 w3 (by rw [d3]; exact hg)
  rw [c3, List.append_nil, hpush] at h2
  rw [h2, d3] at h1
  refine ⟨tr, mo, y, e3, w3, d3, k1, k2, k3, k4, c3, k5, h1 fun q hq => ?_⟩
  rcases List.mem_cons.1 hq with rfl | hq
  · exact hs
  · rw [List.mem_singleton.1 hq]; exact hs'

/-- **C108** From the configuration, through an edit of the policy file, to the messages. With a usual configuration producing to Kafka, with the local policy monitor, in a world that is in order, a policy
directory of one file, and another text, both with policies that compile and read only input: the program starts with the first policies; and for every non-empty sequence of records without holes that have not
been processed before, that the channel has room for, there is a run in which the file is edited to the other text, the policies of that text are adopted, and the messages are complete under the first
policies and then those. -/
theorem otel_edited_policies_adopted {C : Type} [DecidableEq C] (W : World Unit) (fs : Str → Dir) {m : Manifest} {env : List Str} {cs : List Pipeline.Conf} {c1 c2 : Pipeline.Conf} {a b : Str}
    (hm : setManifest m env cs = [c1, c2]) (u : Usual c1 c2 a b) (hs : StrRule W.str)
    (hp : (engineConf c1).policiesPath ≠ []) (hl : (engineConf c1).language = .falco) (hmon : (engineConf c1).monitor = .loc) (hw : 0 < (engineConf c1).concurrency)
    {x : XConfig} (hx : createConfigX W.secrets (xconf c2) = some x) (ho : W.producer x.kafka = true) (hf : x.format = .otel) (ht : x.transport = .kafka) (hwr : ∀ k, W.sends k = true)
    (hact : ∀ a f, (W.builtIn a = some f ∨ W.user a = some f) → ∀ r, (f r).1 = r) (hord : ∀ l, (W.order l).Perm l)
    {f : Str} (hy : Monitor.Live.Yaml f) {t0 t : Str} {ds0 ds : List Decl} (h1 : fs (engineConf c1).policiesPath = some (Monitor.Live.sole f t0))
    (g0 : GPolicy (ltokens W.str t0) ds0) (a0 : ∀ y ∈ sites [ds0], ∀ e, siteCond y = some e → ¬ Cyclic y.2 e) (r0 : ReadsOnlyInput [ds0])
    (g1 : GPolicy (ltokens W.str t) ds) (a1 : ∀ y ∈ sites [ds], ∀ e, siteCond y = some e → ¬ Cyclic y.2 e) (r1 : ReadsOnlyInput [ds]) (sha : Str → C) :
    ∃ (l : Load Factory) (S : Setup (PolicySetOf (otelOps W.L) W.str)) (hp : S.pending = []) (p : PolicySetOf (otelOps W.L) W.str),
      loadStages (W.withDirs fs []).env { regs := bootRegs } (setManifest m env cs) = .done l ∧ netOf (W.withDirs fs []).comp (setManifest m env cs) l chanSize = S.kafkaNet ∧
      S.policies.texts = [t0] ∧ S.policies.decls = [ds0] ∧ p.texts = [t] ∧ p.decls = [ds] ∧
      ∀ (rs : List ResourceLogs), rs ≠ [] → rs.length ≤ chanSize → (∀ rl ∈ rs, Given rl) →
        ∃ tr mo y, ReloadRun S hp sha (compileRead (otelOps W.L) W.str) (Monitor.Live.sole f t0) tr mo y ∧ Waited y.1 ∧ driven tr = rs ∧ y.2.dir = Monitor.Live.sole f t ∧
          CompleteUnder S PolicySetOf.decls [S.policies, p] rs (S.messages y.1) := by
  obtain ⟨l, S, hp', k1, -, k2, k3, k4, k5, k6, ok, hsound, -⟩ := otel_hot_reload (C := C) W fs hm u hs hp hl hmon hw hx ho hf ht hwr hact hord h1 (sole_policyFiles hy t0) (.cons g0 .nil) a0
  obtain ⟨-, n, c, hc⟩ := policy_texts_compile (otelOps W.L) hs (.cons g1 .nil) a1
  have hdecls : (⟨[t], c, n, hc⟩ : PolicySetOf (otelOps W.L) W.str).decls = [ds] := by
    unfold PolicySetOf.decls
    exact (decls_of_ok hs _ _ (by rw [List.map_cons, List.map_cons, (Falco.policy_accepted_iff hs _ _).2 g1]; rfl)).2
  refine ⟨l, S, hp', ⟨[t], c, n, hc⟩, k1, k2, k3, k4, rfl, hdecls, ?_⟩
  intro rs hne hroom hg
  obtain ⟨tr, mo, y, e1, e2, e3, e4, -, -, -, -, -, e5⟩ := otel_edit_takes_effect S PolicySetOf.decls ok k5 hp' sha hy t0 t (comp := compileRead (otelOps W.L) W.str) (p := ⟨[t], c, n, hc⟩)
    (compileRead_some.2 rfl) (hsound _ (by rw [k4]; exact r0)) (hsound _ (by rw [hdecls]; exact r1)) hne (by rw [k6]; exact hroom) hg
  exact ⟨tr, mo, y, e1, e2, e3, e4, e5⟩

/-! ### Concrete cases -/

/-- Another policy: a rule on another attribute. -/
def levelText : Str := "- rule: s\n  desc: d\n  condition: level=5".toList

def levelRule : Falco.RuleDecl := { name := "s".toList, desc := "d".toList, cond := [[.binop .eq "level".toList "5".toList]] }

theorem level_parses : GPolicy (ltokens Falco.simpleStr levelText) [.rule levelRule] := by
  have h : ltokens Falco.simpleStr levelText =
      (⟨[], .DECL, "-".toList⟩ : Falco.LTok) :: ⟨" ".toList, .RULE, "rule".toList⟩ :: ⟨[], .DEF, ":".toList⟩ ::
        (([⟨" ".toList, .ID, "s".toList⟩] : List Falco.LTok) ++ ⟨"\n  ".toList, .DESC, "desc".toList⟩ :: ⟨[], .DEF, ":".toList⟩ ::
          (([⟨" ".toList, .ID, "d".toList⟩] : List Falco.LTok) ++ ⟨"\n  ".toList, .COND, "condition".toList⟩ :: ⟨[], .DEF, ":".toList⟩ ::
            (([⟨" ".toList, .ID, "level".toList⟩, ⟨[], .EQ, "=".toList⟩, ⟨[], .ID, "5".toList⟩] : List Falco.LTok) ++ []))) := by decide +kernel
  rw [h]
  refine .last _ _ false (.rule _ _ _ _ _ _ _ _ _ _ _ _ [] false rfl rfl rfl (by decide) (by decide +kernel) rfl rfl (by decide) (by decide +kernel) rfl rfl ?_ .nil)
  exact .exprOne _ _ (.conjOne _ _ (.binop _ _ _ .eq rfl rfl rfl))

theorem level_acyclic : ∀ x ∈ sites [[.rule levelRule]], ∀ e, siteCond x = some e → ¬ Cyclic x.2 e := by
  intro x hx e he hc
  rw [List.mem_singleton.1 (show x ∈ [(Decl.rule levelRule, (⟨[], []⟩ : Falco.Env))] from hx)] at he hc
  cases he
  obtain ⟨a, b, ⟨c, hc, t, ht, hu⟩, -, -⟩ := hc
  have hc := List.mem_singleton.1 (show c ∈ [[Falco.Term.binop .eq "level".toList "5".toList]] from hc)
  subst hc
  rw [List.mem_singleton] at ht
  subst ht
  cases hu

theorem level_foreign : ReadsOnlyInput [[.rule levelRule]] := by
  intro x hx k hk
  rw [List.mem_singleton.1 (show x ∈ [(levelRule, (⟨[], []⟩ : Falco.Env))] from hx)] at hk
  obtain ⟨c, hc, t, ht, hm⟩ := hk
  have hc := List.mem_singleton.1 (show c ∈ [[Falco.Term.binop .eq "level".toList "5".toList]] from hc)
  subst hc
  rw [List.mem_singleton] at ht
  subst ht
  cases hm
  exact ⟨by decide, by decide⟩

open Classical in
/-- The demo configuration with a monitor: the hypotheses of `otel_edited_policies_adopted` are met by the edit of the policy from one rule to another, so there is a run over two records in which the other
policy is adopted. -/
example : ∃ (l : Load Factory) (S : Setup (PolicySetOf (otelOps (otelWorld ([], [])).L) Falco.simpleStr)) (hp : S.pending = []) (p : PolicySetOf (otelOps (otelWorld ([], [])).L) Falco.simpleStr),
    loadStages ((otelWorld ([], [])).withDirs (fun s => if s = "p".toList then some (hostDir hostText) else none) []).env { regs := bootRegs }
      (setManifest Whole.demoManifest ["CLUSTER_ID=x".toList] otelWatchConfs) = .done l ∧ S.policies.decls = [[.rule hostRule]] ∧ p.decls = [[.rule levelRule]] ∧
    ∃ tr mo y, ReloadRun S hp (id : Str → Str) (compileRead (otelOps (otelWorld ([], [])).L) Falco.simpleStr) (hostDir hostText) tr mo y ∧ Waited y.1 ∧ driven tr = [demoLogs, demoLogs] ∧
      y.2.dir = hostDir levelText ∧ CompleteUnder S PolicySetOf.decls [S.policies, p] [demoLogs, demoLogs] (S.messages y.1) := by
  obtain ⟨c1, c2, hm, hu, e1, e2⟩ := otelWatch_usual
  obtain ⟨s1, s2, s3, s6, s5⟩ := otelWatch_settings
  rw [← e1] at s1 s2 s3 s6
  rw [← e2] at s5
  obtain ⟨x, hx, hs⟩ := Option.map_eq_some_iff.1 s5
  simp only [Prod.mk.injEq] at hs
  obtain ⟨f1, f2⟩ := hs
  obtain ⟨l, S, hp, p, h1, -, -, h2, -, h3, h4⟩ := otel_edited_policies_adopted (C := Str) (otelWorld ([], [])) (fun s => if s = "p".toList then some (hostDir hostText) else none) hm hu Falco.simple_rule
    (by rw [s1]; decide) s6 s3 (by rw [s2]; decide) hx rfl f1 f2 (fun _ => rfl) (fun a f hf => by rcases hf with hf | hf <;> cases hf) (fun l => .refl l)
    a_yaml (t0 := hostText) (t := levelText) (by rw [if_pos s1]; rfl) host_parses host_acyclic host_foreign level_parses level_acyclic level_foreign id
  obtain ⟨tr, mo, y, k1, k2, k3, k4, k5⟩ := h4 [demoLogs, demoLogs] (List.cons_ne_nil _ _) (by change 2 ≤ 100000; decide) (by
    intro rl hrl
    have : rl = demoLogs := by
      rcases List.mem_cons.1 hrl with h | h
      · exact h
      · exact List.mem_singleton.1 h
    rw [this]
    exact ⟨demo_whole, demo_fresh⟩)
  exact ⟨l, S, hp, p, h1, h2, h3, tr, mo, y, k1, k2, k3, k4, k5⟩

/-- The hypotheses of `otel_reload_settled` are met: in the run of `otel_edit_takes_effect`, and there the last policies adopted are those of the directory. -/
example (S : Setup P) (dss : P → List (List Decl)) (ok : S.Common) (hmon : S.monitor = true) (hp : S.pending = []) (comp : List (Str × Option Str) → Option P) (p : P)
    (hc : comp [("p/a.yaml".toList, some "b".toList)] = some p) (hs : S.Sound dss S.policies) (hs' : S.Sound dss p) :
    ∃ tr mo y, ReloadRun S hp id comp (hostDir "a".toList) tr mo y ∧ ∃ as, ((∀ p ∈ S.policies :: as, S.Sound dss p) → CompleteUnder S dss (S.policies :: as) [demoLogs] (S.messages y.1)) ∧
      ∃ got room, Monitor.Live.lastAttempt mo = some (got, comp got, room) ∧ Monitor.Live.ReadFrom (hostDir "b".toList) got ∧ ∀ p, comp got = some p → room = true → as.getLast? = some p := by
  have hg : ∀ rl ∈ [demoLogs], Given rl := fun rl hrl => by rw [List.mem_singleton.1 hrl]; exact ⟨demo_whole, demo_fresh⟩
  obtain ⟨tr, mo, y, k1, k2, k3, k4, k5, k6, k7, k8, k9, -⟩ := otel_edit_takes_effect S dss ok hmon hp (id : Str → Str) a_yaml "a".toList "b".toList hc hs hs' (rs := [demoLogs]) (List.cons_ne_nil _ _) ok.cap hg
  have hdir : Monitor.Live.Usable y.2.dir := by rw [k4]; exact Monitor.Live.sole_usable a_yaml _
  obtain ⟨as, h1, h2⟩ := otel_reload_settled S dss ok hp k1 k2 (by rw [k3]; exact hg) (age := textAge) (Monitor.Live.sole_plain a_yaml _) (k9 textAge (by decide)) textAge_inj (fun _ _ h => h) k5 k6 hdir k7 k8
  rw [k4] at h2
  rw [k3] at h1
  exact ⟨tr, mo, y, k1, as, h1, h2⟩

end Verif.OtelRun
