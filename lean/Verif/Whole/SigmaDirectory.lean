import Verif.Whole.Directory
import Verif.Whole.Sigma
/-
C102: from a directory of Sigma rules to the log.
Sources: /repo/core/policyengine/policyengine.go:76-117, 171-206, /repo/core/policyengine/monitor/localpolicymonitor.go:51-66, 209-231, /repo/core/policyengine/policy/sigma/compiler.go:53-117
-/
namespace Verif.Whole
open Verif.Decimal (Str)
open Verif.Exporter (Bytes)
open Verif.FlatRecord
open Verif.Policy
open Verif.Falco (Benign)
open Verif.Sigma (RuleFile ConfigFile FieldMappings SigmaRule Supported Configures)
open Verif.Processor (Rec HCall OlderParents reader_returns older_parents_not_stuck)
open Verif.Flattener (eventsAfter)
open Verif.Pipeline
open Verif.Pipeline.Process
open Verif.Config (XConf XVal XConfig ConfEnv EngineConfig createConfigX createEngineConfig createFlattenerConfig engineInit)

/-! ### Model -/

/-- A rule file as the compiler reads it (sigma/compiler.go:65-77); `parse` is `sigma.ParseRule` of the library. -/
def ruleFileAt (parse : Str → Option SigmaRule) (f : Monitor.FileEnt Str) : RuleFile :=
  match f.content with
  | none => .unreadable
  | some t =>
    match parse t with
    | none => .unparsable
    | some r => .ok r

/-- `createPolicyInterpreter` for the Sigma language (policyengine.go:171-206). Outer `none`: a panic. Inner `none`: an error. The files are kept beside the rules. -/
def createSigma (L : Lib) (parse : Str → Option SigmaRule) (cfg : ConfigFile) (dir : Dir) : Option (Option (List RuleFile × List (Rule Record))) :=
  match dir with
  | none => some none
  | some d =>
    let fs := Monitor.listRecursiveFilePaths d
    if fs.isEmpty then some none
    else (Sigma.compile L.toCaseLib (flatOps L getMappers) Sigma.pathMatch (fs.map (ruleFileAt parse)) cfg).map (Option.map (fun c => (fs.map (ruleFileAt parse), c)))

/-- How `Init` gets its first interpreter (policyengine.go:92-114); see `initPolicies`. -/
def initSigma (L : Lib) (parse : Str → Option SigmaRule) (cfg : ConfigFile) (monitored : Bool) (dir : Dir) : Option (Option (List RuleFile × List (Rule Record))) :=
  if monitored then
    match dir with
    | none => some none
    | some d => if (Monitor.listFilePaths d).isEmpty then some none else createSigma L parse cfg (some d)
  else createSigma L parse cfg dir

/-- What the engine holds after compiling: the rule files, the configuration and its field mappings, and the rules compiled from them. -/
structure SigmaSet (L : Lib) (parse : Str → Option SigmaRule) where
  files : List RuleFile
  cfg : ConfigFile
  mappings : FieldMappings
  rules : List (Rule Record)
  conf : Configures cfg mappings
  parsed : ∀ r, .ok r ∈ files → ∃ t, parse t = some r
  built : Sigma.compile L.toCaseLib (flatOps L getMappers) Sigma.pathMatch files cfg = some (some rules)

/-- The policies of a compiled set. -/
def SigmaSet.policy {L : Lib} {parse : Str → Option SigmaRule} (p : SigmaSet L parse) : SigmaPolicy := ⟨p.files, p.mappings⟩

open Classical in
/-- The world in which the policies are the Sigma rules below the configured path, with the configuration file at the configured path (policyengine.go:92-114): `fs`: what is below each path, `cfgAt`: the
configuration file at each path. `W` supplies everything else; `later`: what the policy monitor builds while the program runs. Simplification: only the Sigma language is covered here; and a panic of the
compiler counts as an error (the program does not start either way). -/
noncomputable def World.withSigma (W : World Unit) (parse : Str → Option SigmaRule) (cfgAt : Str → ConfigFile) (fs : Str → Dir) (later : List (SigmaSet W.L parse)) : World (SigmaSet W.L parse) where
  F := W.F
  E := W.E
  ecs := W.ecs
  str := W.str
  texts := fun _ => []
  code p := (p.rules, [])
  policyAt ec := if h : ec.language = .sigma ∧ ∃ p : SigmaSet W.L parse, p.cfg = cfgAt ec.configPath ∧
      initSigma W.L parse (cfgAt ec.configPath) (ec.monitor == .loc) (fs ec.policiesPath) = some (some (p.files, p.rules))
    then some h.2.choose else none
  pending := later
  builtIn := W.builtIn
  user := W.user
  sipAlias := W.sipAlias
  opens := W.opens
  connects := W.connects
  writes := W.writes
  sends := W.sends
  secrets := W.secrets
  load := W.load
  loadHandler := W.loadHandler
  fuel := W.fuel
  clock := W.clock
  start := W.start

/-! ### Specification -/

/-- The rule files with the given texts: a text that is no rule says nothing. -/
def rulesIn (parse : Str → Option SigmaRule) (texts : List Str) : List RuleFile :=
  texts.map (fun t => match parse t with
    | none => .unparsable
    | some r => .ok r)

/-! ### Proofs -/

theorem ruleFileAt_texts (parse : Str → Option SigmaRule) : ∀ (fs : List (Monitor.FileEnt Str)) (ts : List Str), fs.map (·.content) = ts.map Option.some →
    fs.map (ruleFileAt parse) = rulesIn parse ts
  | [], [], _ => rfl
  | [], _ :: _, h => by cases h
  | f :: fs, [], h => by cases h
  | f :: fs, t :: ts, h => by
    rw [List.map_cons, List.map_cons, List.cons.injEq] at h
    have i := ruleFileAt_texts parse fs ts h.2
    unfold rulesIn at i ⊢
    rw [List.map_cons, List.map_cons, i]
    congr 1
    unfold ruleFileAt
    rw [h.1]

theorem ruleFileAt_readable (parse : Str → Option SigmaRule) : ∀ (fs : List (Monitor.FileEnt Str)), .unreadable ∉ fs.map (ruleFileAt parse) →
    fs.map (·.content) = (fs.filterMap (·.content)).map Option.some
  | [], _ => rfl
  | f :: fs, h => by
    rw [List.map_cons, List.mem_cons, not_or] at h
    have i := ruleFileAt_readable parse fs h.2
    cases hc : f.content with
    | none => exact absurd (by unfold ruleFileAt; rw [hc]) h.1
    | some t => rw [List.filterMap_cons_some hc, List.map_cons, List.map_cons, hc, i]

theorem rulesIn_parsed {parse : Str → Option SigmaRule} {ts : List Str} {r : SigmaRule} (h : .ok r ∈ rulesIn parse ts) : ∃ t, parse t = some r := by
  unfold rulesIn at h
  obtain ⟨t, -, ht⟩ := List.mem_map.1 h
  cases hp : parse t with
  | none => rw [hp] at ht; cases ht
  | some q => rw [hp] at ht; cases ht; exact ⟨t, hp⟩

theorem rulesIn_readable (parse : Str → Option SigmaRule) (ts : List Str) : .unreadable ∉ rulesIn parse ts := by
  unfold rulesIn
  intro h
  obtain ⟨t, -, ht⟩ := List.mem_map.1 h
  cases hp : parse t with
  | none => rw [hp] at ht; cases ht
  | some q => rw [hp] at ht; cases ht

theorem createSigma_built {L : Lib} {parse : Str → Option SigmaRule} {cfg : ConfigFile} {dir : Dir} {fl : List RuleFile} {c : List (Rule Record)}
    (h : createSigma L parse cfg dir = some (some (fl, c))) :
    Sigma.compile L.toCaseLib (flatOps L getMappers) Sigma.pathMatch fl cfg = some (some c) ∧ ∃ d ts, dir = some d ∧ PolicyFiles false d ts ∧ fl = rulesIn parse ts := by
  cases dir with
  | none => cases h
  | some d =>
    unfold createSigma at h
    dsimp only at h
    split at h
    · cases h
    · rename_i hne
      rw [Option.map_eq_some_iff] at h
      obtain ⟨o, h1, h2⟩ := h
      rw [Option.map_eq_some_iff] at h2
      obtain ⟨c', rfl, h3⟩ := h2
      cases h3
      have hr : .unreadable ∉ (Monitor.listRecursiveFilePaths d).map (ruleFileAt parse) := by
        intro hm
        have := (Sigma.sigma_errors L.toCaseLib (flatOps L getMappers) Sigma.pathMatch _ cfg).2 (.inl hm)
        rw [h1] at this
        cases this
      have k1 := ruleFileAt_readable parse _ hr
      refine ⟨h1, d, (Monitor.listRecursiveFilePaths d).filterMap (·.content), rfl, ⟨?_, ?_, fun h => by cases h⟩, ruleFileAt_texts parse _ _ k1⟩
      · intro he
        rw [he] at k1
        rw [List.map_eq_nil_iff.1 k1] at hne
        exact hne rfl
      · rw [← listRecursive_filter]; exact k1

theorem initSigma_built {L : Lib} {parse : Str → Option SigmaRule} {cfg : ConfigFile} {b : Bool} {dir : Dir} {fl : List RuleFile} {c : List (Rule Record)}
    (h : initSigma L parse cfg b dir = some (some (fl, c))) :
    Sigma.compile L.toCaseLib (flatOps L getMappers) Sigma.pathMatch fl cfg = some (some c) ∧ ∃ d ts, dir = some d ∧ PolicyFiles b d ts ∧ fl = rulesIn parse ts := by
  cases b with
  | false => exact createSigma_built h
  | true =>
    unfold initSigma at h
    rw [if_pos rfl] at h
    cases dir with
    | none => cases h
    | some d =>
      dsimp only at h
      split at h
      · cases h
      · rename_i hne
        obtain ⟨h1, d', ts, hd, h2, h3⟩ := createSigma_built h
        cases hd
        refine ⟨h1, d, ts, rfl, ⟨h2.some, h2.read, fun _ => ?_⟩, h3⟩
        cases hl : Monitor.listFilePaths d with
        | nil => rw [hl] at hne; exact absurd rfl hne
        | cons f l =>
          have hf : f ∈ Monitor.listFilePaths d := by rw [hl]; exact List.mem_cons_self
          unfold Monitor.listFilePaths Monitor.hasSuffix at hf
          rw [List.mem_filter, Bool.and_eq_true, List.isSuffixOf_iff_suffix, beq_iff_eq] at hf
          exact ⟨f, hf.1, hf.2.1, hf.2.2⟩

theorem initSigma_finds {L : Lib} {parse : Str → Option SigmaRule} {cfg : ConfigFile} {b : Bool} {d : List (Monitor.FileEnt Str)} {ts : List Str} {c : List (Rule Record)}
    (hf : PolicyFiles b d ts) (hc : Sigma.compile L.toCaseLib (flatOps L getMappers) Sigma.pathMatch (rulesIn parse ts) cfg = some (some c)) :
    initSigma L parse cfg b (some d) = some (some (rulesIn parse ts, c)) := by
  have hcr : createSigma L parse cfg (some d) = some (some (rulesIn parse ts, c)) := by
    have hr := hf.read
    rw [← listRecursive_filter] at hr
    have k := ruleFileAt_texts parse _ _ hr
    unfold createSigma
    dsimp only
    rw [if_neg, k, hc]
    · rfl
    · intro he
      rw [List.isEmpty_iff] at he
      rw [he] at hr
      exact hf.some (List.map_eq_nil_iff.1 hr.symm)
  cases b with
  | false => exact hcr
  | true =>
    unfold initSigma
    rw [if_pos rfl]
    dsimp only
    obtain ⟨f, h1, h2, h3⟩ := hf.top rfl
    rw [if_neg, hcr]
    intro he
    rw [List.isEmpty_iff] at he
    have : f ∈ Monitor.listFilePaths d := by
      unfold Monitor.listFilePaths Monitor.hasSuffix
      rw [List.mem_filter, Bool.and_eq_true, List.isSuffixOf_iff_suffix, beq_iff_eq]
      exact ⟨h1, h2, h3⟩
    rw [he] at this
    cases this

theorem configures_unique {cfg : ConfigFile} {a b : FieldMappings} (ha : Configures cfg a) (hb : Configures cfg b) : a = b := by
  rcases ha with ⟨rfl, rfl⟩ | rfl
  · rcases hb with ⟨-, rfl⟩ | h
    · rfl
    · cases h
  · rcases hb with ⟨h, -⟩ | h
    · cases h
    · cases h; rfl

/-- Rule files below the configured path that compile are the engine's first policies. -/
theorem withSigma_policyAt (W : World Unit) (parse : Str → Option SigmaRule) (cfgAt : Str → ConfigFile) (fs : Str → Dir) (later : List (SigmaSet W.L parse)) (ec : EngineConfig) (hl : ec.language = .sigma)
    {d : List (Monitor.FileEnt Str)} {ts : List Str} (hd : fs ec.policiesPath = some d) (hf : PolicyFiles (ec.monitor == .loc) d ts) {fm : FieldMappings} (hcfg : Configures (cfgAt ec.configPath) fm)
    {c : List (Rule Record)} (hc : Sigma.compile W.L.toCaseLib (flatOps W.L getMappers) Sigma.pathMatch (rulesIn parse ts) (cfgAt ec.configPath) = some (some c)) :
    ∃ p, (W.withSigma parse cfgAt fs later).policyAt ec = some p ∧ p.files = rulesIn parse ts ∧ p.mappings = fm ∧ p.rules = c := by
  have hex : ec.language = .sigma ∧ ∃ p : SigmaSet W.L parse, p.cfg = cfgAt ec.configPath ∧
      initSigma W.L parse (cfgAt ec.configPath) (ec.monitor == .loc) (fs ec.policiesPath) = some (some (p.files, p.rules)) :=
    ⟨hl, ⟨rulesIn parse ts, cfgAt ec.configPath, fm, c, hcfg, fun r hr => rulesIn_parsed hr, hc⟩, rfl, by rw [hd]; exact initSigma_finds hf hc⟩
  obtain ⟨k1, k2⟩ := hex.2.choose_spec
  refine ⟨hex.2.choose, ?_, ?_, ?_, ?_⟩
  · unfold World.withSigma
    dsimp only
    rw [dif_pos hex]
  all_goals
    have k3 := k2.symm.trans ((congrArg (initSigma W.L parse (cfgAt ec.configPath) (ec.monitor == .loc)) hd).trans (initSigma_finds hf hc))
    simp only [Option.some.injEq, Prod.mk.injEq] at k3
  · exact k3.1
  · have h' := hex.2.choose.conf
    rw [k1] at h'
    exact configures_unique h' hcfg
  · exact k3.2

/-- **C102** What must be there to start. With the Sigma language, a usual configuration whose other settings are in order is loaded only if there are files with the suffix .yaml or .yml below the policy path
(with the local monitor, one with .yaml directly below it), all of which can be read, and the configuration file is absent or can be parsed. -/
theorem sigma_directory_needs (W : World Unit) (parse : Str → Option SigmaRule) (cfgAt : Str → ConfigFile) (fs : Str → Dir) (later : List (SigmaSet W.L parse)) {c1 c2 c3 : Pipeline.Conf} {a b d : Str}
    (u : Usual c1 c2 c3 a b d) (hp : (engineConf c2).policiesPath ≠ []) {l : Load Factory} (h : loadStages (W.withSigma parse cfgAt fs later).env { regs := bootRegs } [c1, c2, c3] = .done l) :
    ∃ files texts fm, fs (engineConf c2).policiesPath = some files ∧ PolicyFiles ((engineConf c2).monitor == .loc) files texts ∧ Configures (cfgAt (engineConf c2).configPath) fm := by
  apply Classical.byContradiction
  intro hno
  have hnone : (W.withSigma parse cfgAt fs later).policyAt (engineConf c2) = none := by
    unfold World.withSigma
    dsimp only
    rw [dif_neg]
    rintro ⟨-, p, hc, hi⟩
    obtain ⟨-, files, texts, h2, h3, -⟩ := initSigma_built hi
    exact hno ⟨files, texts, p.mappings, h2, h3, hc ▸ p.conf⟩
  have he : (W.withSigma parse cfgAt fs later).env.init .engine c2 fullRegs = .err := by
    have e : engineInit (Config.toConf (xconf c2)) ((W.withSigma parse cfgAt fs later).policyAt (engineConf c2)).isSome = .error := by
      rw [hnone]
      unfold engineInit
      change (if (engineConf c2).policiesPath = [] then _ else if false = true then (if (engineConf c2).concurrency < 0 then _ else _) else _) = _
      rw [if_neg hp, if_neg (by decide)]
    unfold World.env
    dsimp only
    rw [e]
  rw [loadStages_cons (usual_first _ u)] at h
  unfold loadStages loadStage at h
  rw [show strAt c2 kProc = _ from u.engine] at h
  dsimp only at h
  rw [show (W.withSigma parse cfgAt fs later).env.getProc (afterReader a b).regs _ = _ from full_engine _] at h
  dsimp only at h
  rw [he] at h
  cases h

/-- **C102** From the directory of Sigma rules to the log. With a usual configuration of JSON export to a file and of the Sigma language, in a world that is in order, with rule files as above whose rules (where
the texts are rules) are supported: the program starts with exactly these rules and the field mappings of the configuration file, and every run of the file driver over files that can be opened with records whose
process parents are older ends without an error and with a complete log; and there is such a run. -/
theorem sigma_directory_to_log (W : World Unit) (parse : Str → Option SigmaRule) (cfgAt : Str → ConfigFile) (fs : Str → Dir) (later : List (SigmaSet W.L parse)) {m : Manifest} {env : List Str}
    {cs : List Pipeline.Conf} {c1 c2 c3 : Pipeline.Conf} {a b d : Str} (hm : setManifest m env cs = [c1, c2, c3]) (u : Usual c1 c2 c3 a b d)
    (hparse : ∀ t r, parse t = some r → (r.searches.map (·.1)).Nodup)
    (hp : (engineConf c2).policiesPath ≠ []) (hl : (engineConf c2).language = .sigma) (hw : 0 < (engineConf c2).concurrency)
    {x : XConfig} (hx : createConfigX W.secrets (xconf c3) = some x) (ho : W.opens x.path = true) (hf : x.format = .json) (ht : x.transport = .file) (hwr : ∀ k, W.writes k = none)
    (hb : Benign W.builtIn W.user) (hd : (createFlattenerConfig (Config.toConf (xconf c1))).1.filterOn = false) (hlib : Json.Spec.LibOk W.L) (hv : Json.Spec.VersionOk (Utf8.bytes m.jsonSchema))
    {files : List (Monitor.FileEnt Str)} {texts : List Str} {fm : FieldMappings} (h1 : fs (engineConf c2).policiesPath = some files)
    (h2 : PolicyFiles ((engineConf c2).monitor == .loc) files texts) (h3 : Configures (cfgAt (engineConf c2).configPath) fm)
    (h4 : ∀ t ∈ texts, ∀ r, parse t = some r → Supported fm r) :
    ∃ (l : Load Factory) (p : SigmaSet W.L parse) (S : Setup (SigmaSet W.L parse)), loadStages (W.withSigma parse cfgAt fs later).env { regs := bootRegs } (setManifest m env cs) = .done l ∧
      netOf (W.withSigma parse cfgAt fs later).comp (setManifest m env cs) l chanSize = S.net ∧ S.policies = p ∧ p.policy = ⟨rulesIn parse texts, fm⟩ ∧ S.pending = later ∧
      ∀ ds : List (FileData Rec), (∀ f ∈ ds, f ≠ .noOpen) → OlderParents (recordsIn ds) → (recordsIn ds).length ≤ W.fuel →
        (∀ (tr : List (Drain.Obs Msg)) (s : PSt Rec S.net), PExec Msg.sf S.net (fileDriver (fun _ => true) (some ds)) tr s → ∀ e, s.status = some e →
          e = false ∧ SigmaComplete S SigmaSet.policy (SigmaLine S) (eventsAfter [] (recordsIn ds)) (S.log s.net)) ∧
        ∃ (tr : List (Drain.Obs Msg)) (s : PSt Rec S.net), PExec Msg.sf S.net (fileDriver (fun _ => true) (some ds)) tr s ∧ s.status = some false := by
  have hsup : ∀ r, .ok r ∈ rulesIn parse texts → Supported fm r := by
    intro r hr
    unfold rulesIn at hr
    obtain ⟨t, htm, hr⟩ := List.mem_map.1 hr
    cases hp : parse t with
    | none => rw [hp] at hr; cases hr
    | some q =>
      rw [hp] at hr
      cases hr
      exact h4 t htm _ hp
  obtain ⟨rules, hc⟩ := Sigma.sigma_compiles W.L.toCaseLib (flatOps W.L getMappers) Sigma.pathMatch (rulesIn parse texts) (cfgAt (engineConf c2).configPath) fm (rulesIn_readable _ _) h3 hsup
  obtain ⟨p, p1, p2, p3, p4⟩ := withSigma_policyAt W parse cfgAt fs later (engineConf c2) hl h1 h2 h3 hc
  have hready : (W.withSigma parse cfgAt fs later).Ready c2 c3 x p := by
    refine ⟨hp, p1, Int.le_of_lt hw, hx, ?_⟩
    unfold World.exports
    rw [hf, ht]
    rw [show (W.withSigma parse cfgAt fs later).opens x.path = true from ho]
    rfl
  obtain ⟨l, k1, -, -, k4⟩ := usual_boots (W.withSigma parse cfgAt fs later) u hready
  have hver : x.jsonSchemaVersion = m.jsonSchema := build_version (W.withSigma parse cfgAt fs later) hm u hready.conf
  have hworkers : 0 < ((W.withSigma parse cfgAt fs later).setup c1 c2 x p).workers := by
    change 0 < (engineConf c2).concurrency.toNat
    omega
  have hcap : 0 < ((W.withSigma parse cfgAt fs later).setup c1 c2 x p).cap := by
    change 0 < 100000
    decide
  have hok : ((W.withSigma parse cfgAt fs later).setup c1 c2 x p).SigmaOk SigmaSet.policy SigmaSet.cfg := by
    refine ⟨fun q => q.conf, fun q r hr => ?_, fun q => q.built, fun _ => rfl, hb, hworkers, hcap⟩
    obtain ⟨t, ht⟩ := q.parsed r hr
    exact hparse t r ht
  rw [hm]
  refine ⟨l, p, (W.withSigma parse cfgAt fs later).setup c1 c2 x p, k1, k4.trans (usual_file_json (W.withSigma parse cfgAt fs later) c1 c2 hf ht hwr), rfl, ?_, rfl, ?_⟩
  · unfold SigmaSet.policy
    rw [p2, p3]
  intro ds g1 g2 g3
  constructor
  · intro tr s hxx e he
    obtain ⟨r, hr⟩ := reader_returns _ (older_parents_not_stuck _ g2) W.fuel g3
    obtain ⟨q1, rs, -, q2, q3⟩ := sigma_file_run ((W.withSigma parse cfgAt fs later).setup c1 c2 x p) _ _ hok hlib
      (show Json.Spec.VersionOk (Utf8.bytes x.jsonSchemaVersion) by rw [hver]; exact hv) hd (fun _ => true) (fun _ h => by cases h) ds g1 ⟨r, hr⟩ hxx he
    rw [q2 fun _ => rfl] at q3
    exact ⟨q1, q3⟩
  · obtain ⟨hT, hC⟩ := net_ok ((W.withSigma parse cfgAt fs later).setup c1 c2 x p) hworkers hcap
    obtain ⟨body, b1, b2, _⟩ := file_driver_delivers (fun _ => true) (fun _ h => h) ds g1
    exact complete_run hT hC ⟨b1, b2⟩ Msg.sf

/-! ### Example -/

/-- A parser that takes the text `ls` for the rule of C89 and nothing else. -/
def demoParse (t : Str) : Option SigmaRule := if t = "ls".toList then some lsSigma else none

def sigmaDir : List (Monitor.FileEnt Str) := [⟨"p/a.yaml".toList, 0, some "ls".toList⟩, ⟨"p/README".toList, 0, none⟩, ⟨"p/sub/b.yml".toList, 1, some "?".toList⟩]

def sigmaConfs : List Pipeline.Conf :=
  [demoConfs[0],
   [(kProc, .str "policyengine".toList), (kIn, .str "flat flattenerchan".toList), (kOut, .arr [some "evt eventchan".toList]), ("policies".toList, .str "p".toList), ("language".toList, .str "sigma".toList),
    ("config".toList, .str "c.yml".toList)],
   demoConfs[2]]

def sigmaConfs' : List Pipeline.Conf := setManifest demoManifest ["CLUSTER_ID=x".toList] sigmaConfs

theorem sigma_usual : ∃ c1 c2 c3, setManifest demoManifest ["CLUSTER_ID=x".toList] sigmaConfs = [c1, c2, c3] ∧ Usual c1 c2 c3 "sysflow".toList "flat".toList "evt".toList ∧
    c1 = sigmaConfs'[0]'(by decide +kernel) ∧ c2 = sigmaConfs'[1]'(by decide +kernel) ∧ c3 = sigmaConfs'[2]'(by decide +kernel) := by
  obtain ⟨c1, c2, c3, h1, h2, -⟩ := usual_manifest (c1 := sigmaConfs[0]) (c2 := sigmaConfs[1]) (c3 := sigmaConfs[2]) (a := "sysflow".toList) (b := "flat".toList) (d := "evt".toList)
    demoManifest ["CLUSTER_ID=x".toList]
    ⟨by decide +kernel, by decide +kernel, by decide +kernel, by decide +kernel, ⟨_, rfl, by decide +kernel⟩, ⟨_, rfl, by decide +kernel⟩, ⟨_, "flattenerchan".toList, rfl, by decide +kernel⟩,
      ⟨_, rfl, by decide +kernel⟩, ⟨_, "eventchan".toList, rfl, by decide +kernel⟩, by decide +kernel, by decide, by decide, by decide⟩
  have e : sigmaConfs' = [c1, c2, c3] := h1
  refine ⟨c1, c2, c3, h1, h2, ?_, ?_, ?_⟩ <;> simp only [e] <;> rfl

theorem sigma_settings : (engineConf (sigmaConfs'[1]'(by decide +kernel))).policiesPath = "p".toList ∧ (engineConf (sigmaConfs'[1]'(by decide +kernel))).concurrency = 5 ∧
    (engineConf (sigmaConfs'[1]'(by decide +kernel))).language = .sigma ∧ (engineConf (sigmaConfs'[1]'(by decide +kernel))).configPath = "c.yml".toList ∧
    (createFlattenerConfig (Config.toConf (xconf (sigmaConfs'[0]'(by decide +kernel))))).1.filterOn = false ∧
    (createConfigX ⟨fun _ => none, fun _ => none⟩ (xconf (sigmaConfs'[2]'(by decide +kernel)))).map (fun x => (x.format, x.transport, x.eventBuffer)) = some (.json, .file, 3) := by
  decide +kernel

theorem sigma_policyFiles (b : Bool) : PolicyFiles b sigmaDir ["ls".toList, "?".toList] := by
  refine ⟨List.cons_ne_nil _ _, by decide +kernel, fun _ => ⟨_, List.mem_cons_self, rfl, by decide +kernel⟩⟩

open Classical in
/-- The hypotheses of `sigma_directory_to_log` are met. -/
example : ∃ (l : Load Factory) (S : Setup (SigmaSet (demoWorld ([], [])).L demoParse)),
    loadStages ((demoWorld ([], [])).withSigma demoParse (fun _ => .ok lsPolicy.mappings) (fun s => if s = "p".toList then some sigmaDir else none) []).env { regs := bootRegs }
      (setManifest demoManifest ["CLUSTER_ID=x".toList] sigmaConfs) = .done l ∧
    S.policies.policy = ⟨[.ok lsSigma, .unparsable], lsPolicy.mappings⟩ ∧
    ∃ (tr : List (Drain.Obs Msg)) (s : PSt Rec S.net), PExec Msg.sf S.net (fileDriver (fun _ => true) (some [.data (Processor.saneStream.map .record)])) tr s ∧ s.status = some false ∧
    SigmaComplete S SigmaSet.policy (SigmaLine S) (eventsAfter [] Processor.saneStream) (S.log s.net) := by
  obtain ⟨c1, c2, c3, hm, hu, e1, e2, e3⟩ := sigma_usual
  obtain ⟨s1, s2, s3, s4, s5, s6⟩ := sigma_settings
  rw [← e2] at s1 s2 s3 s4
  rw [← e1] at s5
  rw [← e3] at s6
  obtain ⟨x, hx, hs⟩ := Option.map_eq_some_iff.1 s6
  simp only [Prod.mk.injEq] at hs
  obtain ⟨f1, f2, f3⟩ := hs
  have hpar : ∀ t r, demoParse t = some r → r = lsSigma := by
    intro t r h
    unfold demoParse at h
    split at h
    · exact (Option.some.inj h).symm
    · cases h
  obtain ⟨l, p, S, h1, h2, h3, h4, h5, h6⟩ := sigma_directory_to_log (demoWorld ([], [])) demoParse (fun _ => .ok lsPolicy.mappings) (fun s => if s = "p".toList then some sigmaDir else none) [] hm hu
    (fun t r h => by rw [hpar t r h]; decide) (by rw [s1]; decide) s3 (by rw [s2]; decide) hx rfl f1 f2 (fun _ => rfl) (fun a f hf => by rcases hf with hf | hf <;> cases hf) s5 Json.demo_ok Json.demo_version
    (by rw [if_pos s1]) (sigma_policyFiles _) (.inr rfl) (fun t _ r h => by rw [hpar t r h]; exact lsSigma_supported)
  have hopen : ∀ f ∈ [FileData.data (Processor.saneStream.map .record)], f ≠ .noOpen := by
    intro f hf
    rw [List.mem_singleton.1 hf]; intro h; cases h
  obtain ⟨r1, tr, s, r2, r3⟩ := h6 _ hopen (by change OlderParents Processor.saneStream; exact Processor.sane_older) (by change 7 ≤ 10; decide)
  refine ⟨l, S, h1, ?_, tr, s, r2, r3, (r1 tr s r2 _ r3).2⟩
  rw [h3, h4]
  have : rulesIn demoParse ["ls".toList, "?".toList] = [.ok lsSigma, .unparsable] := by
    unfold rulesIn demoParse
    rw [List.map_cons, List.map_cons, List.map_nil, if_pos rfl, if_neg (by decide)]
  rw [this]

end Verif.Whole
