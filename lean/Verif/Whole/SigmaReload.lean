import Verif.Whole.Reload
import Verif.Whole.ReloadExamples
import Verif.Whole.SigmaDirectory
/-
C107: the whole program with a directory of Sigma rules that changes while it runs.
Sources: /repo/core/policyengine/policyengine.go:76-206, 221-234, /repo/core/policyengine/monitor/localpolicymonitor.go:51-231, /repo/core/policyengine/policy/sigma/compiler.go:53-117
-/
namespace Verif.Whole
open Verif.Decimal (Str)
open Verif.Exporter (Bytes)
open Verif.FlatRecord
open Verif.Policy
open Verif.Falco (Benign)
open Verif.Sigma (RuleFile ConfigFile FieldMappings SigmaRule Supported Configures)
open Verif.Processor (Rec HCall OlderParents)
open Verif.Flattener (eventsAfter)
open Verif.Pipeline
open Verif.Pipeline.Drain (driven rootClosed Waited)
open Verif.Config (XConf XVal XConfig ConfEnv EngineConfig createConfigX createEngineConfig createFlattenerConfig engineInit)

variable {P : Type}

/-! ### Model -/

open Classical in
/-- `createPolicyInterpreter` for the Sigma language on the files read, by their paths and contents (policyengine.go:183-206, sigma/compiler.go:63-117): `none` if one cannot be read, the configuration file
cannot be parsed, or a rule is not supported. Simplification: the compiler's panics count as errors; the configuration file, read again each time, stays as it is. -/
noncomputable def compileSigma (L : Lib) (parse : Str → Option SigmaRule) (cfg : ConfigFile) (got : List (Str × Option Str)) : Option (SigmaSet L parse) :=
  if h : ∃ p : SigmaSet L parse, p.cfg = cfg ∧ ∃ texts, got.map Prod.snd = texts.map some ∧ p.files = rulesIn parse texts then some h.choose else none

/-! ### Specification -/

/-- The log of a run is complete under a sequence of Sigma rule sets: the events of the stream fall into consecutive stretches, one for each of these sets in order, and the lines of a stretch are one for
each of its events of which some condition of its rules is true (each of its events, in enrich mode), carrying these rules; with one worker, in order. -/
def SigmaLoggedUnder (S : Setup P) (Q : P → SigmaPolicy) (pols : List P) (rs : List Rec) (log : Bytes) : Prop :=
  CompleteUnder S pols (fun p => SigmaLogged S (Q p)) (fun p => SigmaLine S (Q p)) (eventsAfter [] rs) log

/-! ### Proofs -/

theorem sigmaSet_ext {L : Lib} {parse : Str → Option SigmaRule} {p q : SigmaSet L parse} (h1 : p.files = q.files) (h2 : p.cfg = q.cfg) : p = q := by
  obtain ⟨f, c, m, r, hc, hp, hb⟩ := p
  obtain ⟨f', c', m', r', hc', hp', hb'⟩ := q
  cases h1
  cases h2
  cases configures_unique hc hc'
  cases hb.symm.trans hb'
  rfl

/-- What the compiler makes of files: the rules in them, with the field mappings of the configuration. -/
theorem compileSigma_some {L : Lib} {parse : Str → Option SigmaRule} {cfg : ConfigFile} {got : List (Str × Option Str)} {p : SigmaSet L parse} :
    compileSigma L parse cfg got = some p ↔ p.cfg = cfg ∧ ∃ texts, got.map Prod.snd = texts.map some ∧ p.files = rulesIn parse texts := by
  unfold compileSigma
  constructor
  · intro h
    split at h
    · rename_i hx
      cases h
      exact hx.choose_spec
    · cases h
  · intro h
    have hx : ∃ p : SigmaSet L parse, p.cfg = cfg ∧ ∃ texts, got.map Prod.snd = texts.map some ∧ p.files = rulesIn parse texts := ⟨p, h⟩
    rw [dif_pos hx]
    obtain ⟨k1, t, k2, k3⟩ := hx.choose_spec
    obtain ⟨h1, t', h2, h3⟩ := h
    refine congrArg some (sigmaSet_ext ?_ (k1.trans h1.symm))
    rw [k3, h3]
    exact congrArg _ (List.map_injective_iff.2 (fun _ _ h => Option.some.inj h) (k2.symm.trans h2))

theorem rulesIn_supported {parse : Str → Option SigmaRule} {texts : List Str} {fm : FieldMappings} (h : ∀ t ∈ texts, ∀ r, parse t = some r → Supported fm r) :
    ∀ r, .ok r ∈ rulesIn parse texts → Supported fm r := by
  intro r hr
  unfold rulesIn at hr
  obtain ⟨t, htm, hr⟩ := List.mem_map.1 hr
  cases hp : parse t with
  | none => rw [hp] at hr; cases hr
  | some q =>
    rw [hp] at hr
    cases hr
    exact h t htm _ hp

/-- **C107** Files that can be read, whose rules are supported under the field mappings of a configuration that can be read, compile to these rules. -/
theorem compileSigma_accepts (L : Lib) (parse : Str → Option SigmaRule) (cfg : ConfigFile) {fm : FieldMappings} (hc : Configures cfg fm) (got : List (Str × Option Str)) (texts : List Str)
    (hg : got.map Prod.snd = texts.map some) (hs : ∀ t ∈ texts, ∀ r, parse t = some r → Supported fm r) :
    ∃ p, compileSigma L parse cfg got = some p ∧ p.policy = ⟨rulesIn parse texts, fm⟩ := by
  obtain ⟨rules, hb⟩ := Sigma.sigma_compiles L.toCaseLib (flatOps L getMappers) Sigma.pathMatch (rulesIn parse texts) cfg fm (rulesIn_readable _ _) hc (rulesIn_supported hs)
  exact ⟨⟨rulesIn parse texts, cfg, fm, rules, hc, fun r hr => rulesIn_parsed hr, hb⟩, compileSigma_some.2 ⟨rfl, texts, hg, rfl⟩, rfl⟩

/-- **C107** A run of the whole program with Sigma rules beside a changing directory of rules. When `Wait` returns, the log is complete under the first rules and then those adopted; those adopted are the
first of those pushed by the monitor, all of them if none is left waiting; and each of these is what the compiler made of files read, with contents that the directory's files had at some time. -/
theorem sigma_reload_run {C : Type} [DecidableEq C] (S : Setup P) (Q : P → SigmaPolicy) (cfg : P → ConfigFile) (ok : S.SigmaOk Q cfg) (hlib : Json.Spec.LibOk S.L) (hver : Json.Spec.VersionOk S.version)
    (hdedup : S.dedup = false) (hp : S.pending = []) {sha : Str → C} {comp : List (Str × Option Str) → Option P}
    {d : List (Monitor.FileEnt Str)} {rs : List Rec} {rd : Processor.State} {cs : List HCall} (hrun : Processor.run false S.fuel .init rs = some (rd, cs))
    {tr : List (Drain.Obs Msg)} {mo : List (Monitor.Live.Obs Str P)} {x : Drain.St S.net × Monitor.Live.LSt Str C P} (h : ReloadRun S hp sha comp d tr mo x)
    (hw : Waited x.1) (hd : driven tr = rs.map Msg.sf) :
    ∃ as, SigmaLoggedUnder S Q (S.policies :: as) rs (S.log x.1) ∧ as ++ x.2.chan = Monitor.Live.pushed mo ∧
      ∀ p ∈ as, ∃ got, Monitor.Live.Obs.attempted got (some p) true ∈ mo ∧ comp got = some p ∧ ∀ f v, (f, v) ∈ got → Reload.PolicyName f ∧ ∃ e ∈ Reload.dirsOf d mo, v = (Monitor.Live.look e f).join :=
  reload_with S ok.workers ok.cap hdedup _ _ (sigma_step S Q cfg ok) (fun p => SigmaLine S (Q p)) (fun _ y m g1 g2 => json_lines_with S hlib hver _ y m g1 g2) hp hrun h hw hd

/-- **C107** If moreover the directory has stopped changing and the monitor has come to rest, having been told of a change, with every change reported and readable files that never went back to an earlier
content, and nothing is left waiting: then the rules in force at the end, under which the last stretch was logged, are those of the directory as it is, if they compile and the channel had room. -/
theorem sigma_reload_settled {C : Type} [DecidableEq C] (S : Setup P) (Q : P → SigmaPolicy) (cfg : P → ConfigFile) (ok : S.SigmaOk Q cfg) (hlib : Json.Spec.LibOk S.L) (hver : Json.Spec.VersionOk S.version)
    (hdedup : S.dedup = false) (hp : S.pending = []) {sha : Str → C} {comp : List (Str × Option Str) → Option P}
    {d : List (Monitor.FileEnt Str)} {rs : List Rec} {rd : Processor.State} {cs : List HCall} (hrun : Processor.run false S.fuel .init rs = some (rd, cs))
    {tr : List (Drain.Obs Msg)} {mo : List (Monitor.Live.Obs Str P)} {x : Drain.St S.net × Monitor.Live.LSt Str C P} (h : ReloadRun S hp sha comp d tr mo x)
    (hw : Waited x.1) (hd : driven tr = rs.map Msg.sf) {age : Str → Option (Option Str) → Nat} (hpl : Monitor.Live.Plain d) (hreg : Monitor.Live.Regular age mo)
    (inj : ∀ p x y, age p x = age p y → x = y) (hsha : ∀ b b', sha b = sha b' → b = b') (hr : Monitor.Live.Running x.2) (hset : Monitor.Live.Settled sha comp x.2) (hu : Monitor.Live.Usable x.2.dir)
    (ht : Monitor.Live.Told mo) (hch : x.2.chan = []) :
    ∃ as, SigmaLoggedUnder S Q (S.policies :: as) rs (S.log x.1) ∧
      ∃ got room, Monitor.Live.lastAttempt mo = some (got, comp got, room) ∧ Monitor.Live.ReadFrom x.2.dir got ∧ ∀ p, comp got = some p → room = true → as.getLast? = some p := by
  obtain ⟨as, h1, h2, -⟩ := sigma_reload_run S Q cfg ok hlib hver hdedup hp hrun h hw hd
  exact ⟨as, h1, settled_with h hpl hreg inj hsha hr hset hu ht hch h2⟩

/-- **C107** From the configuration and the directory of Sigma rules, through its changes, to the log. With a usual configuration of JSON export to a file and of the Sigma language, with the local policy
monitor, in a world that is in order, and with rule files whose rules (where the texts are rules) are supported: the program starts with exactly these rules; in every run over records whose process parents
are older, when `Wait` returns, the log is complete under these rules and then those of rule sets adopted later, all of which are the rules in texts that the directory's files had at some time, with the
field mappings of the configuration; and there is such a run from wherever the driver is done. -/
theorem sigma_hot_reload {C : Type} [DecidableEq C] (W : World Unit) (parse : Str → Option SigmaRule) (cfgAt : Str → ConfigFile) (fs : Str → Dir) {m : Manifest} {env : List Str}
    {cs : List Pipeline.Conf} {c1 c2 c3 : Pipeline.Conf} {a b d : Str} (hm : setManifest m env cs = [c1, c2, c3]) (u : Usual c1 c2 c3 a b d)
    (hparse : ∀ t r, parse t = some r → (r.searches.map (·.1)).Nodup)
    (hp : (engineConf c2).policiesPath ≠ []) (hl : (engineConf c2).language = .sigma) (hmon : (engineConf c2).monitor = .loc) (hw : 0 < (engineConf c2).concurrency)
    {x : XConfig} (hx : createConfigX W.secrets (xconf c3) = some x) (ho : W.opens x.path = true) (hf : x.format = .json) (ht : x.transport = .file) (hwr : ∀ k, W.writes k = none)
    (hb : Benign W.builtIn W.user) (hd : (createFlattenerConfig (Config.toConf (xconf c1))).1.filterOn = false) (hlib : Json.Spec.LibOk W.L) (hv : Json.Spec.VersionOk (Utf8.bytes m.jsonSchema))
    {files : List (Monitor.FileEnt Str)} {texts : List Str} {fm : FieldMappings} (h1 : fs (engineConf c2).policiesPath = some files)
    (h2 : PolicyFiles true files texts) (h3 : Configures (cfgAt (engineConf c2).configPath) fm)
    (h4 : ∀ t ∈ texts, ∀ r, parse t = some r → Supported fm r) :
    ∃ (l : Load Factory) (S : Setup (SigmaSet W.L parse)) (hp : S.pending = []), loadStages (W.withSigma parse cfgAt fs []).env { regs := bootRegs } (setManifest m env cs) = .done l ∧
      netOf (W.withSigma parse cfgAt fs []).comp (setManifest m env cs) l chanSize = S.net ∧ S.policies.policy = ⟨rulesIn parse texts, fm⟩ ∧ S.monitor = true ∧
      S.SigmaOk SigmaSet.policy SigmaSet.cfg ∧ Json.Spec.LibOk S.L ∧ Json.Spec.VersionOk S.version ∧ S.dedup = false ∧ S.fuel = W.fuel ∧ S.cap = chanSize ∧
      ∀ (sha : Str → C) (rs : List Rec), OlderParents rs → rs.length ≤ W.fuel →
      ∀ (tr : List (Drain.Obs Msg)) (mo : List (Monitor.Live.Obs Str (SigmaSet W.L parse))) (y : Drain.St S.net × Monitor.Live.LSt Str C (SigmaSet W.L parse)),
        ReloadRun S hp sha (compileSigma W.L parse (cfgAt (engineConf c2).configPath)) files tr mo y →
        (Waited y.1 → driven tr = rs.map Msg.sf →
          ∃ as, SigmaLoggedUnder S SigmaSet.policy (S.policies :: as) rs (S.log y.1) ∧ as ++ y.2.chan = Monitor.Live.pushed mo ∧
            ∀ p ∈ as, ∃ ts, p.policy = ⟨rulesIn parse ts, fm⟩ ∧ FromHistory (Reload.dirsOf files mo) ts) ∧
        (rootClosed tr = true → ∃ tr' ms y', ReloadRun S hp sha (compileSigma W.L parse (cfgAt (engineConf c2).configPath)) files tr' (mo ++ ms) y' ∧ Waited y'.1 ∧ driven tr' = driven tr ∧
          y'.2.dir = y.2.dir ∧ Monitor.Live.pushed ms = []) := by
  obtain ⟨rules, hc⟩ := Sigma.sigma_compiles W.L.toCaseLib (flatOps W.L getMappers) Sigma.pathMatch (rulesIn parse texts) (cfgAt (engineConf c2).configPath) fm (rulesIn_readable _ _) h3 (rulesIn_supported h4)
  obtain ⟨p, p1, p2, p3, p4⟩ := withSigma_policyAt W parse cfgAt fs [] (engineConf c2) hl h1 (by rw [hmon]; exact h2) h3 hc
  have hready : (W.withSigma parse cfgAt fs []).Ready c2 c3 x p := by
    refine ⟨hp, p1, Int.le_of_lt hw, hx, ?_⟩
    unfold World.exports
    rw [hf, ht]
    rw [show (W.withSigma parse cfgAt fs []).opens x.path = true from ho]
    rfl
  obtain ⟨l, k1, -, -, k4⟩ := usual_boots (W.withSigma parse cfgAt fs []) u hready
  have hver : x.jsonSchemaVersion = m.jsonSchema := build_version (W.withSigma parse cfgAt fs []) hm u hready.conf
  have hworkers : 0 < ((W.withSigma parse cfgAt fs []).setup c1 c2 x p).workers := by
    change 0 < (engineConf c2).concurrency.toNat
    omega
  have hcap : 0 < ((W.withSigma parse cfgAt fs []).setup c1 c2 x p).cap := by
    change 0 < 100000
    decide
  have hok : ((W.withSigma parse cfgAt fs []).setup c1 c2 x p).SigmaOk SigmaSet.policy SigmaSet.cfg := by
    refine ⟨fun q => q.conf, fun q r hr => ?_, fun q => q.built, fun _ => rfl, hb, hworkers, hcap⟩
    obtain ⟨t, ht⟩ := q.parsed r hr
    exact hparse t r ht
  have hver' : Json.Spec.VersionOk (Utf8.bytes x.jsonSchemaVersion) := by rw [hver]; exact hv
  rw [hm]
  refine ⟨l, (W.withSigma parse cfgAt fs []).setup c1 c2 x p, rfl, k1, k4.trans (usual_file_json (W.withSigma parse cfgAt fs []) c1 c2 hf ht hwr), ?_, by change (_ == _) = true; rw [hmon]; rfl,
    hok, hlib, hver', hd, rfl, rfl, ?_⟩
  · change SigmaSet.policy p = _
    unfold SigmaSet.policy
    rw [p2, p3]
  intro sha rs hold hfuel tr mo y hrun
  obtain ⟨hT, hC⟩ := net_ok ((W.withSigma parse cfgAt fs []).setup c1 c2 x p) hworkers hcap
  refine ⟨fun hwait hdr => ?_, fun hroot => Reload.can_finish hT hC hrun hroot⟩
  obtain ⟨⟨rd, hcs⟩, hr⟩ := Processor.reader_returns _ (Processor.older_parents_not_stuck _ hold) W.fuel hfuel
  obtain ⟨as, g1, g2, g3⟩ := sigma_reload_run _ _ _ hok hlib hver' hd rfl hr hrun hwait hdr
  refine ⟨as, g1, g2, fun q hq => ?_⟩
  obtain ⟨got, -, hcomp, hread⟩ := g3 q hq
  obtain ⟨q1, ts, q2, q3⟩ := compileSigma_some.1 hcomp
  refine ⟨ts, ?_, fun t htx => ?_⟩
  · unfold SigmaSet.policy
    have hq : Configures (cfgAt (engineConf c2).configPath) q.mappings := by rw [← q1]; exact q.conf
    rw [q3, configures_unique hq h3]
  have : some t ∈ got.map Prod.snd := by rw [q2]; exact List.mem_map.2 ⟨t, htx, rfl⟩
  obtain ⟨⟨f, v⟩, hfv, hv'⟩ := List.mem_map.1 this
  cases hv'
  obtain ⟨hname, e, he, hlook⟩ := hread f _ hfv
  refine ⟨e, he, f, hname, ?_⟩
  revert hlook
  generalize Monitor.Live.look e f = o
  intro hlook
  match o, hlook with
  | some (some _), rfl => rfl

/-! ### A concrete case -/

/-- The configuration of `sigmaConfs`, with the local policy monitor. -/
def sigmaWatchConfs : List Pipeline.Conf :=
  [sigmaConfs[0],
   [(kProc, .str "policyengine".toList), (kIn, .str "flat flattenerchan".toList), (kOut, .arr [some "evt eventchan".toList]), ("policies".toList, .str "p".toList), ("concurrency".toList, .str "4".toList),
    ("language".toList, .str "sigma".toList), ("config".toList, .str "c.yml".toList), ("monitor".toList, .str "local".toList)],
   sigmaConfs[2]]

def sigmaWatchConfs' : List Pipeline.Conf := setManifest demoManifest ["CLUSTER_ID=x".toList] sigmaWatchConfs

theorem sigmaWatch_usual : ∃ c1 c2 c3, setManifest demoManifest ["CLUSTER_ID=x".toList] sigmaWatchConfs = [c1, c2, c3] ∧ Usual c1 c2 c3 "sysflow".toList "flat".toList "evt".toList ∧
    c1 = sigmaWatchConfs'[0]'(by decide +kernel) ∧ c2 = sigmaWatchConfs'[1]'(by decide +kernel) ∧ c3 = sigmaWatchConfs'[2]'(by decide +kernel) := by
  obtain ⟨c1, c2, c3, h1, h2, -⟩ := usual_manifest (c1 := sigmaWatchConfs[0]) (c2 := sigmaWatchConfs[1]) (c3 := sigmaWatchConfs[2]) (a := "sysflow".toList) (b := "flat".toList) (d := "evt".toList)
    demoManifest ["CLUSTER_ID=x".toList]
    ⟨by decide +kernel, by decide +kernel, by decide +kernel, by decide +kernel, ⟨_, rfl, by decide +kernel⟩, ⟨_, rfl, by decide +kernel⟩, ⟨_, "flattenerchan".toList, rfl, by decide +kernel⟩,
      ⟨_, rfl, by decide +kernel⟩, ⟨_, "eventchan".toList, rfl, by decide +kernel⟩, by decide +kernel, by decide, by decide, by decide⟩
  have e : sigmaWatchConfs' = [c1, c2, c3] := h1
  refine ⟨c1, c2, c3, h1, h2, ?_, ?_, ?_⟩ <;> simp only [e] <;> rfl

theorem sigmaWatch_settings : (engineConf (sigmaWatchConfs'[1]'(by decide +kernel))).policiesPath = "p".toList ∧ (engineConf (sigmaWatchConfs'[1]'(by decide +kernel))).concurrency = 4 ∧
    (engineConf (sigmaWatchConfs'[1]'(by decide +kernel))).monitor = .loc ∧ (engineConf (sigmaWatchConfs'[1]'(by decide +kernel))).language = .sigma ∧
    (createFlattenerConfig (Config.toConf (xconf (sigmaWatchConfs'[0]'(by decide +kernel))))).1.filterOn = false ∧
    (createConfigX ⟨fun _ => none, fun _ => none⟩ (xconf (sigmaWatchConfs'[2]'(by decide +kernel)))).map (fun x => (x.format, x.transport, x.eventBuffer)) = some (.json, .file, 3) := by
  decide +kernel

/-- One rule and a text that is no rule compile to this rule; a file that cannot be read is an error. -/
example (L : Lib) : (∃ p, compileSigma L demoParse (.ok lsPolicy.mappings) [("p/a.yaml".toList, some "ls".toList), ("p/b.yml".toList, some "?".toList)] = some p ∧
      p.policy = ⟨rulesIn demoParse ["ls".toList, "?".toList], lsPolicy.mappings⟩) ∧ compileSigma L demoParse (.ok lsPolicy.mappings) [("p/a.yaml".toList, none)] = none := by
  refine ⟨compileSigma_accepts L _ _ (.inr rfl) _ _ rfl (fun t _ r h => ?_), ?_⟩
  · unfold demoParse at h
    split at h
    · cases h; exact lsSigma_supported
    · cases h
  · cases h : compileSigma L demoParse (.ok lsPolicy.mappings) [("p/a.yaml".toList, none)] with
    | none => rfl
    | some p =>
      obtain ⟨-, ts, h2, -⟩ := compileSigma_some.1 h
      cases ts with
      | nil => cases h2
      | cons t ts => cases h2

open Classical in
/-- The demo configuration of the Sigma language with a monitor starts with the rules of the directory; the monitor starts, the directory is watched and loses its second file; the driver sends the records; the
run ends; the log is complete. -/
example : ∃ (l : Load Factory) (S : Setup (SigmaSet (demoWorld ([], [])).L demoParse)) (hp : S.pending = []),
    loadStages ((demoWorld ([], [])).withSigma demoParse (fun _ => .ok lsPolicy.mappings) (fun s => if s = "p".toList then some sigmaDir else none) []).env { regs := bootRegs }
      (setManifest demoManifest ["CLUSTER_ID=x".toList] sigmaWatchConfs) = .done l ∧ S.policies.policy = ⟨[.ok lsSigma, .unparsable], lsPolicy.mappings⟩ ∧
    ∃ tr mo y, ReloadRun S hp (id : Str → Str) (compileSigma (demoWorld ([], [])).L demoParse (.ok lsPolicy.mappings)) sigmaDir tr mo y ∧ Waited y.1 ∧
      driven tr = Processor.saneStream.map Msg.sf ∧ y.2.dir = sigmaDir.take 1 ∧ ∃ as, SigmaLoggedUnder S SigmaSet.policy (S.policies :: as) Processor.saneStream (S.log y.1) := by
  obtain ⟨c1, c2, c3, hm, hu, e1, e2, e3⟩ := sigmaWatch_usual
  obtain ⟨s1, s2, s3, s6, s4, s5⟩ := sigmaWatch_settings
  rw [← e2] at s1 s2 s3 s6
  rw [← e1] at s4
  rw [← e3] at s5
  obtain ⟨x, hx, hs⟩ := Option.map_eq_some_iff.1 s5
  simp only [Prod.mk.injEq] at hs
  obtain ⟨f1, f2, f3⟩ := hs
  have hpar : ∀ t r, demoParse t = some r → r = lsSigma := by
    intro t r h
    unfold demoParse at h
    split at h
    · exact (Option.some.inj h).symm
    · cases h
  obtain ⟨l, S, hp, h1, hnet, h2, -, -, -, -, -, -, -, h3⟩ := sigma_hot_reload (C := Str) (demoWorld ([], [])) demoParse (fun _ => .ok lsPolicy.mappings) (fun s => if s = "p".toList then some sigmaDir else none) hm hu
    (fun t r h => by rw [hpar t r h]; decide) (by rw [s1]; decide) s6 s3 (by rw [s2]; decide) hx rfl f1 f2 (fun _ => rfl) (fun a f hf => by rcases hf with hf | hf <;> cases hf) s4 Json.demo_ok
    Json.demo_version (by rw [if_pos s1]) (sigma_policyFiles _) (.inr rfl) (fun t _ r h => by rw [hpar t r h]; exact lsSigma_supported)
  have hrules : rulesIn demoParse ["ls".toList, "?".toList] = [.ok lsSigma, .unparsable] := by
    unfold rulesIn demoParse
    rw [List.map_cons, List.map_cons, List.map_nil, if_pos rfl, if_neg (by decide)]
  have e0 : ReloadRun S hp (id : Str → Str) (compileSigma (demoWorld ([], [])).L demoParse (.ok lsPolicy.mappings)) sigmaDir [] [] (Drain.St.start S.net, Monitor.Live.init sigmaDir) := .nil
  have hls : ∀ l ∈ ([.start, .add, .change (sigmaDir.take 1) [⟨"p/sub/b.yml".toList, 4⟩]] : List (Monitor.Live.Label Str)), Monitor.Joint.shared l = false := by
    intro l hl
    simp only [List.mem_cons, List.not_mem_nil, or_false] at hl
    rcases hl with rfl | rfl | rfl <;> rfl
  obtain ⟨t1, x1, e1, n1, b1, k1, d1, -, -⟩ := Reload.lift_run e0 rfl hls rfl
  have hbuf : ∀ c, x1.buf c = [] := fun c => by rw [b1]; rfl
  have hcl : ∀ c, x1.closed c = false := fun c => by rw [k1]; rfl
  obtain ⟨t2, ms2, x2, e2, r2, d2, g2⟩ := Reload.drive_and_close e1 n1 (hcl _) (Processor.saneStream.map Msg.sf) (by rw [hbuf]; refine Nat.le_trans ?_ (Nat.le_of_eq (congrArg Drain.Net.cap hnet)); change 0 + 7 ≤ 100000; decide)
  obtain ⟨a1, a2⟩ := h3 (id : Str → Str) Processor.saneStream Processor.sane_older (by change 7 ≤ 10; decide) _ _ _ e2
  obtain ⟨t3, ms3, y, e4, w4, d4, g4, -⟩ := a2 r2
  have hdr : driven t3 = Processor.saneStream.map Msg.sf := by rw [d4, d2, List.nil_append, d1]; rfl
  obtain ⟨as, ha, -⟩ := (h3 (id : Str → Str) Processor.saneStream Processor.sane_older (by change 7 ≤ 10; decide) _ _ _ e4).1 w4 hdr
  exact ⟨l, S, hp, h1, h2.trans (by rw [hrules]), t3, _, y, e4, w4, hdr, g4.trans (g2.trans rfl), as, ha⟩

end Verif.Whole
