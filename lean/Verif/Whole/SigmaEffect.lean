import Verif.Whole.SigmaReload
import Verif.Whole.ReloadEffect
/-
C107: an edit of the directory of Sigma rules takes effect: runs of the whole program in which the rules of the edited file are adopted.
Sources: /repo/core/policyengine/policyengine.go:136-206, /repo/core/policyengine/monitor/localpolicymonitor.go:157-231, /repo/core/policyengine/policy/sigma/compiler.go:53-117
-/
namespace Verif.Whole
open Verif.Decimal (Str)
open Verif.FlatRecord
open Verif.Policy
open Verif.Falco (Benign)
open Verif.Sigma (RuleFile ConfigFile FieldMappings SigmaRule Supported Configures)
open Verif.Processor (Rec HCall OlderParents)
open Verif.Flattener (eventsAfter)
open Verif.Pipeline
open Verif.Pipeline.Drain (driven rootClosed Waited)
open Verif.Config (XConf XVal XConfig ConfEnv EngineConfig createConfigX createEngineConfig createFlattenerConfig engineInit)

variable {P : Type}

/-- **C107** An edit takes effect: with a watched directory of one rule file, an edit of the file to a text that compiles, and a stream with at least one event, there is a run of the whole program in which
the new rules are adopted, and the log is complete under the first rules followed by the new ones. When this run is over the monitor is at rest and nothing is waiting. -/
theorem sigma_edit_takes_effect {C : Type} [DecidableEq C] (S : Setup P) (Q : P → SigmaPolicy) (cfg : P → ConfigFile) (ok : S.SigmaOk Q cfg) (hlib : Json.Spec.LibOk S.L) (hver : Json.Spec.VersionOk S.version)
    (hdedup : S.dedup = false) (hmon : S.monitor = true) (hp : S.pending = []) (sha : Str → C)
    {comp : List (Str × Option Str) → Option P} {f : Str} (hf : Monitor.Live.Yaml f) (t0 t : Str) {p : P} (hc : comp [(f, some t)] = some p)
    {rs : List Rec} {rd : Processor.State} {cs : List HCall} (hrun : Processor.run false S.fuel .init rs = some (rd, cs)) (hev : eventsAfter [] rs ≠ []) (hroom : rs.length ≤ S.cap) :
    ∃ tr mo y, ReloadRun S hp sha comp (Monitor.Live.sole f t0) tr mo y ∧ Waited y.1 ∧ driven tr = rs.map Msg.sf ∧ y.2.dir = Monitor.Live.sole f t ∧
      Monitor.Live.Running y.2 ∧ Monitor.Live.Settled sha comp y.2 ∧ Monitor.Live.Told mo ∧ y.2.chan = [] ∧
      (∀ age : Str → Option (Option Str) → Nat, age f (some (some t0)) ≤ age f (some (some t)) → Monitor.Live.Regular age mo) ∧
      SigmaLoggedUnder S Q [S.policies, p] rs (S.log y.1) := by
  obtain ⟨tr, mo, y, e3, w3, d3, k1, k2, k3, k4, c3, k5, hpush⟩ := edit_adopted S _ _ _ ok.workers ok.cap hdedup hmon hp sha hf t0 t hc hrun hev hroom
  obtain ⟨as, h1, h2, -⟩ := sigma_reload_run S Q cfg ok hlib hver hdedup hp hrun e3 w3 d3
  rw [c3, List.append_nil, hpush] at h2
  rw [h2] at h1
  exact ⟨tr, mo, y, e3, w3, d3, k1, k2, k3, k4, c3, k5, h1⟩

/-- **C107** From the configuration, through an edit of the rule file, to the log. With a usual configuration of JSON export to a file and of the Sigma language, with the local policy monitor, in a world that
is in order, a directory of one rule file, and another text, both with rules that are supported under the field mappings of the configuration (or no rules at all): the program starts with the first rules; and
for every stream of at least one event, of records whose process parents are older, that the channel has room for, there is a run in which the file is edited to the other text, the rules of that text are
adopted, and the log is complete under the first rules and then those. -/
theorem edited_rules_adopted {C : Type} [DecidableEq C] (W : World Unit) (parse : Str → Option SigmaRule) (cfgAt : Str → ConfigFile) (fs : Str → Dir) {m : Manifest} {env : List Str}
    {cs : List Pipeline.Conf} {c1 c2 c3 : Pipeline.Conf} {a b d : Str} (hm : setManifest m env cs = [c1, c2, c3]) (u : Usual c1 c2 c3 a b d)
    (hparse : ∀ t r, parse t = some r → (r.searches.map (·.1)).Nodup)
    (hp : (engineConf c2).policiesPath ≠ []) (hl : (engineConf c2).language = .sigma) (hmon : (engineConf c2).monitor = .loc) (hw : 0 < (engineConf c2).concurrency)
    {x : XConfig} (hx : createConfigX W.secrets (xconf c3) = some x) (ho : W.opens x.path = true) (hf : x.format = .json) (ht : x.transport = .file) (hwr : ∀ k, W.writes k = none)
    (hb : Benign W.builtIn W.user) (hd : (createFlattenerConfig (Config.toConf (xconf c1))).1.filterOn = false) (hlib : Json.Spec.LibOk W.L) (hv : Json.Spec.VersionOk (Utf8.bytes m.jsonSchema))
    {f : Str} (hy : Monitor.Live.Yaml f) {t0 t : Str} {fm : FieldMappings} (h1 : fs (engineConf c2).policiesPath = some (Monitor.Live.sole f t0)) (h3 : Configures (cfgAt (engineConf c2).configPath) fm)
    (h4 : ∀ r, parse t0 = some r → Supported fm r) (h5 : ∀ r, parse t = some r → Supported fm r) (sha : Str → C) :
    ∃ (l : Load Factory) (S : Setup (SigmaSet W.L parse)) (hp : S.pending = []) (p : SigmaSet W.L parse), loadStages (W.withSigma parse cfgAt fs []).env { regs := bootRegs } (setManifest m env cs) = .done l ∧
      netOf (W.withSigma parse cfgAt fs []).comp (setManifest m env cs) l chanSize = S.net ∧ S.policies.policy = ⟨rulesIn parse [t0], fm⟩ ∧ p.policy = ⟨rulesIn parse [t], fm⟩ ∧
      ∀ (rs : List Rec), OlderParents rs → rs.length ≤ W.fuel → rs.length ≤ chanSize → eventsAfter [] rs ≠ [] →
        ∃ tr mo y, ReloadRun S hp sha (compileSigma W.L parse (cfgAt (engineConf c2).configPath)) (Monitor.Live.sole f t0) tr mo y ∧ Waited y.1 ∧ driven tr = rs.map Msg.sf ∧
          y.2.dir = Monitor.Live.sole f t ∧ SigmaLoggedUnder S SigmaSet.policy [S.policies, p] rs (S.log y.1) := by
  obtain ⟨l, S, hp', k1, k2, k3, k4, ok, g1, g2, g3, k6, k7, -⟩ := sigma_hot_reload (C := C) W parse cfgAt fs hm u hparse hp hl hmon hw hx ho hf ht hwr hb hd hlib hv h1 (sole_policyFiles hy t0) h3
    (fun s hs r hr => h4 r (by rw [← List.mem_singleton.1 hs]; exact hr))
  obtain ⟨p, p1, p2⟩ := compileSigma_accepts W.L parse (cfgAt (engineConf c2).configPath) h3 [(f, some t)] [t] rfl (fun s hs r hr => h5 r (by rw [← List.mem_singleton.1 hs]; exact hr))
  refine ⟨l, S, hp', p, k1, k2, k3, p2, ?_⟩
  intro rs hold hfuel hcap hev
  obtain ⟨⟨rd, hcs⟩, hr⟩ := Processor.reader_returns _ (Processor.older_parents_not_stuck _ hold) W.fuel hfuel
  obtain ⟨tr, mo, y, e1, e2, e3, e4, -, -, -, -, -, e5⟩ := sigma_edit_takes_effect S SigmaSet.policy SigmaSet.cfg ok g1 g2 g3 k4 hp' sha hy t0 t p1 (by rw [k6]; exact hr) hev (by rw [k7]; exact hcap)
  exact ⟨tr, mo, y, e1, e2, e3, e4, e5⟩

/-! ### Concrete cases -/

open Classical in
/-- The demo configuration of the Sigma language with a monitor: the hypotheses of `edited_rules_adopted` are met by an edit from a rule to a text that is no rule, so there is a run over the sample stream
after which no rule is left. -/
example : ∃ (l : Load Factory) (S : Setup (SigmaSet (demoWorld ([], [])).L demoParse)) (hp : S.pending = []) (p : SigmaSet (demoWorld ([], [])).L demoParse),
    loadStages ((demoWorld ([], [])).withSigma demoParse (fun _ => .ok lsPolicy.mappings) (fun s => if s = "p".toList then some (watchDir "ls".toList) else none) []).env { regs := bootRegs }
      (setManifest demoManifest ["CLUSTER_ID=x".toList] sigmaWatchConfs) = .done l ∧ S.policies.policy = ⟨[.ok lsSigma], lsPolicy.mappings⟩ ∧ p.policy = ⟨[.unparsable], lsPolicy.mappings⟩ ∧
    ∃ tr mo y, ReloadRun S hp (id : Str → Str) (compileSigma (demoWorld ([], [])).L demoParse (.ok lsPolicy.mappings)) (watchDir "ls".toList) tr mo y ∧ Waited y.1 ∧
      driven tr = Processor.saneStream.map Msg.sf ∧ SigmaLoggedUnder S SigmaSet.policy [S.policies, p] Processor.saneStream (S.log y.1) := by
  obtain ⟨c1, c2, c3, hm, hu, e1, e2, e3⟩ := sigmaWatch_usual
  obtain ⟨s1, s2, s3, s6, s4, s5⟩ := sigmaWatch_settings
  rw [← e2] at s1 s2 s3 s6
  rw [← e1] at s4
  rw [← e3] at s5
  obtain ⟨x, hx, hs⟩ := Option.map_eq_some_iff.1 s5
  simp only [Prod.mk.injEq] at hs
  obtain ⟨f1, f2, f3⟩ := hs
  have hpar : ∀ t r, demoParse t = some r → r = lsSigma := by
    intro t r h
    unfold demoParse at h
    split at h
    · exact (Option.some.inj h).symm
    · cases h
  obtain ⟨l, S, hp, p, h1, -, h2, h3, h4⟩ := edited_rules_adopted (C := Str) (demoWorld ([], [])) demoParse (fun _ => .ok lsPolicy.mappings)
    (fun s => if s = "p".toList then some (watchDir "ls".toList) else none) hm hu
    (fun t r h => by rw [hpar t r h]; decide) (by rw [s1]; decide) s6 s3 (by rw [s2]; decide) hx rfl f1 f2 (fun _ => rfl) (fun a f hf => by rcases hf with hf | hf <;> cases hf) s4 Json.demo_ok
    Json.demo_version a_yaml (t0 := "ls".toList) (t := "?".toList) (by rw [if_pos s1]; rfl) (.inr rfl) (fun r h => by rw [hpar _ r h]; exact lsSigma_supported)
    (fun r h => by rw [hpar _ r h]; exact lsSigma_supported) id
  obtain ⟨tr, mo, y, k1, k2, k3, -, k4⟩ := h4 Processor.saneStream Processor.sane_older (by change 7 ≤ 10; decide) (by change 7 ≤ 100000; decide) (by
    intro h
    have : (eventsAfter [] Processor.saneStream).length = 0 := by rw [h]; rfl
    revert this
    decide)
  have r1 : rulesIn demoParse ["ls".toList] = [.ok lsSigma] := by
    unfold rulesIn demoParse
    rw [List.map_cons, List.map_nil, if_pos rfl]
  have r2 : rulesIn demoParse ["?".toList] = [.unparsable] := by
    unfold rulesIn demoParse
    rw [List.map_cons, List.map_nil, if_neg (by decide)]
  exact ⟨l, S, hp, p, h1, by rw [h2, r1], by rw [h3, r2], tr, mo, y, k1, k2, k3, k4⟩

/-- The hypotheses of `sigma_reload_settled` are met: in the run of `sigma_edit_takes_effect`, and there the last rules adopted are those of the directory. -/
example (S : Setup P) (Q : P → SigmaPolicy) (cfg : P → ConfigFile) (ok : S.SigmaOk Q cfg) (hlib : Json.Spec.LibOk S.L) (hver : Json.Spec.VersionOk S.version) (hdedup : S.dedup = false)
    (hmon : S.monitor = true) (hp : S.pending = []) (comp : List (Str × Option Str) → Option P) (p : P)
    (hc : comp [("p/a.yaml".toList, some "b".toList)] = some p) {rs : List Rec} {rd : Processor.State} {cs : List HCall} (hrun : Processor.run false S.fuel .init rs = some (rd, cs))
    (hev : eventsAfter [] rs ≠ []) (hroom : rs.length ≤ S.cap) :
    ∃ tr mo y, ReloadRun S hp id comp (watchDir "a".toList) tr mo y ∧ ∃ as, SigmaLoggedUnder S Q (S.policies :: as) rs (S.log y.1) ∧
      ∃ got room, Monitor.Live.lastAttempt mo = some (got, comp got, room) ∧ Monitor.Live.ReadFrom (watchDir "b".toList) got ∧ ∀ p, comp got = some p → room = true → as.getLast? = some p := by
  obtain ⟨tr, mo, y, k1, k2, k3, k4, k5, k6, k7, k8, k9, -⟩ := sigma_edit_takes_effect S Q cfg ok hlib hver hdedup hmon hp (id : Str → Str) a_yaml "a".toList "b".toList hc hrun hev hroom
  have hdir : Monitor.Live.Usable y.2.dir := by rw [k4]; exact Monitor.Live.sole_usable a_yaml _
  obtain ⟨as, h1, h2⟩ := sigma_reload_settled S Q cfg ok hlib hver hdedup hp hrun k1 k2 k3 (age := textAge) (Monitor.Live.sole_plain a_yaml _) (k9 textAge (by decide)) textAge_inj (fun _ _ h => h) k5 k6 hdir k7 k8
  rw [k4] at h2
  exact ⟨tr, mo, y, k1, as, h1, h2⟩

end Verif.Whole
