import Verif.Whole.BootRuns
import Verif.Monitor.Props
/-
C93: from the policy directory to the log.
Sources: /repo/core/policyengine/policyengine.go:76-117, 171-206, /repo/core/policyengine/monitor/localpolicymonitor.go:51-66, 209-231, /repo/core/policyengine/policy/falco/compiler.go:69-129
-/
namespace Verif.Whole
open Verif.Decimal (Str)
open Verif.Exporter (Bytes)
open Verif.FlatRecord
open Verif.Policy
open Verif.Falco
open Verif.Processor (Rec HCall OlderParents)
open Verif.Pipeline
open Verif.Pipeline.Process
open Verif.Config (XConf XVal XConfig ConfEnv EngineConfig createConfigX createEngineConfig createFlattenerConfig engineInit)

/-! ### Model -/

/-- What is below a path: the files with their contents; `none`: it cannot be listed. -/
abbrev Dir := Option (List (Monitor.FileEnt Str))

/-- A policy file as the compiler reads it (compiler.go:69-118). -/
def fileAt (str : Str → Option Nat) (f : Monitor.FileEnt Str) : Falco.File :=
  match f.content with
  | none => .unreadable
  | some s => fileOf str s

/-- `createPolicyInterpreter` for the Falco language (policyengine.go:171-206). Outer `none`: recursion bound hit. Inner `none`: error. The texts of the files are kept beside the rules and filters. -/
def createInterp {R : Type} (ops : Operations R) (str : Str → Option Nat) (n : Nat) (dir : Dir) : Option (Option (List Str × (List (Rule R) × List (Filter R)))) :=
  match dir with
  | none => some none
  | some d =>
    let fs := Monitor.listRecursiveFilePaths d
    if fs.isEmpty then some none
    else (compile ops n (fs.map (fileAt str))).map (Option.map (fun c => (fs.filterMap (·.content), c)))

/-- How `Init` gets its first interpreter (policyengine.go:92-114): from `createPolicyInterpreter`, or from the local monitor, which looks for policy files directly below the path first
(localpolicymonitor.go:51-66, 209-231; its channel is empty then). -/
def initPolicies {R : Type} (ops : Operations R) (str : Str → Option Nat) (n : Nat) (monitored : Bool) (dir : Dir) : Option (Option (List Str × (List (Rule R) × List (Filter R)))) :=
  if monitored then
    match dir with
    | none => some none
    | some d => if (Monitor.listFilePaths d).isEmpty then some none else createInterp ops str n (some d)
  else createInterp ops str n dir

/-- What the engine holds after compiling: the texts of the policy files, and the rules and filters compiled from them. -/
structure PolicySetOf {R : Type} (ops : Operations R) (str : Str → Option Nat) where
  texts : List Str
  code : List (Rule R) × List (Filter R)
  built : ∃ n, compile ops n (texts.map (fileOf str)) = some (some code)

/-- The same in the build for SysFlow records. -/
abbrev PolicySet (L : Lib) (str : Str → Option Nat) := PolicySetOf (flatOps L getMappers) str

open Classical in
/-- The world in which the policies are what is below the configured path (`fs`: what is below each path): policyengine.go:92-114. `W` supplies everything else; `later`: what the policy monitor
builds while the program runs. Simplification: only the Falco language is covered here; and compiling cyclic definitions, which overflows the stack (C12), counts as an error. -/
noncomputable def World.withDirs (W : World Unit) (fs : Str → Dir) (later : List (PolicySet W.L W.str)) : World (PolicySet W.L W.str) where
  F := W.F
  E := W.E
  ecs := W.ecs
  str := W.str
  texts := PolicySetOf.texts
  code := PolicySetOf.code
  policyAt ec := if h : ec.language = .falco ∧ ∃ p : PolicySet W.L W.str, ∃ n, initPolicies (flatOps W.L getMappers) W.str n (ec.monitor == .loc) (fs ec.policiesPath) = some (some (p.texts, p.code))
    then some h.2.choose else none
  pending := later
  builtIn := W.builtIn
  user := W.user
  sipAlias := W.sipAlias
  opens := W.opens
  connects := W.connects
  writes := W.writes
  sends := W.sends
  secrets := W.secrets
  load := W.load
  loadHandler := W.loadHandler
  fuel := W.fuel
  clock := W.clock
  start := W.start

/-! ### Specification -/

/-- The declarations in the policy files. -/
def PolicySetOf.decls {R : Type} {ops : Operations R} {str : Str → Option Nat} (p : PolicySetOf ops str) : List (List Decl) := p.texts.map (fun s => (parsePolicy (ltokens str s)).getD [])

/-- The files below a path that are policy files are those with the suffix .yaml or .yml, in their order; with the local monitor there must be one with the suffix .yaml directly below the path. -/
structure PolicyFiles (monitored : Bool) (d : List (Monitor.FileEnt Str)) (texts : List Str) : Prop where
  some : texts ≠ []
  read : (d.filter (fun f => decide (".yaml".toList <:+ f.path ∨ ".yml".toList <:+ f.path))).map (·.content) = texts.map Option.some
  top : monitored = true → ∃ f ∈ d, f.depth = 0 ∧ ".yaml".toList <:+ f.path

/-! ### Proofs -/

theorem listRecursive_filter (d : List (Monitor.FileEnt Str)) :
    Monitor.listRecursiveFilePaths d = d.filter (fun f => decide (".yaml".toList <:+ f.path ∨ ".yml".toList <:+ f.path)) := by
  unfold Monitor.listRecursiveFilePaths Monitor.hasSuffix
  refine List.filter_congr fun f _ => ?_
  rw [Bool.eq_iff_iff, Bool.or_eq_true, decide_eq_true_iff, List.isSuffixOf_iff_suffix, List.isSuffixOf_iff_suffix]

theorem compile_all_ok {R : Type} (ops : Operations R) (n : Nat) (fs : List Falco.File) (c : List (Rule R) × List (Filter R)) (h : compile ops n fs = some (some c)) :
    ∃ dss : List (List Decl), fs = dss.map Falco.File.ok := by
  unfold compile at h
  rw [Option.map_eq_some_iff] at h
  obtain ⟨o, h, ho⟩ := h
  rw [Option.map_eq_some_iff] at ho
  obtain ⟨t, rfl, -⟩ := ho
  exact compileFiles_all_ok ops n fs _ t h

theorem contents_of_ok (str : Str → Option Nat) : ∀ (fs : List (Monitor.FileEnt Str)) (dss : List (List Decl)), fs.map (fileAt str) = dss.map Falco.File.ok →
    fs.map (·.content) = (fs.filterMap (·.content)).map Option.some ∧ (fs.filterMap (·.content)).map (fileOf str) = fs.map (fileAt str)
  | [], _, _ => ⟨rfl, rfl⟩
  | f :: fs, [], h => by cases h
  | f :: fs, ds :: dss, h => by
    rw [List.map_cons, List.map_cons, List.cons.injEq] at h
    obtain ⟨h1, h2⟩ := h
    obtain ⟨i1, i2⟩ := contents_of_ok str fs dss h2
    cases hc : f.content with
    | none => unfold fileAt at h1; rw [hc] at h1; cases h1
    | some s =>
      rw [List.filterMap_cons_some hc]
      refine ⟨by rw [List.map_cons, List.map_cons, hc, i1], ?_⟩
      rw [List.map_cons, List.map_cons, i2]
      unfold fileAt
      rw [hc]

/-- What `createPolicyInterpreter` returns is compiled from the texts of the policy files. -/
theorem createInterp_built {R : Type} {ops : Operations R} {str : Str → Option Nat} {n : Nat} {dir : Dir} {ts : List Str} {c : List (Rule R) × List (Filter R)}
    (h : createInterp ops str n dir = some (some (ts, c))) :
    compile ops n (ts.map (fileOf str)) = some (some c) ∧ ∃ d, dir = some d ∧ PolicyFiles false d ts := by
  cases dir with
  | none => cases h
  | some d =>
    unfold createInterp at h
    dsimp only at h
    split at h
    · cases h
    · rename_i hne
      rw [Option.map_eq_some_iff] at h
      obtain ⟨o, h1, h2⟩ := h
      rw [Option.map_eq_some_iff] at h2
      obtain ⟨c', rfl, h3⟩ := h2
      obtain ⟨dss, hd⟩ := compile_all_ok _ _ _ _ h1
      obtain ⟨k1, k2⟩ := contents_of_ok str _ dss hd
      cases h3
      refine ⟨by rw [k2]; exact h1, d, rfl, ?_, ?_, fun h => by cases h⟩
      · intro he
        rw [he] at k1
        rw [List.map_eq_nil_iff.1 k1] at hne
        exact hne rfl
      · rw [← listRecursive_filter]; exact k1

theorem initPolicies_built {R : Type} {ops : Operations R} {str : Str → Option Nat} {n : Nat} {b : Bool} {dir : Dir} {ts : List Str} {c : List (Rule R) × List (Filter R)}
    (h : initPolicies ops str n b dir = some (some (ts, c))) :
    compile ops n (ts.map (fileOf str)) = some (some c) ∧ ∃ d, dir = some d ∧ PolicyFiles b d ts := by
  cases b with
  | false => exact createInterp_built h
  | true =>
    unfold initPolicies at h
    rw [if_pos rfl] at h
    cases dir with
    | none => cases h
    | some d =>
      dsimp only at h
      split at h
      · cases h
      · rename_i hne
        obtain ⟨h1, d', hd, h2⟩ := createInterp_built h
        cases hd
        refine ⟨h1, d, rfl, h2.some, h2.read, fun _ => ?_⟩
        cases hl : Monitor.listFilePaths d with
        | nil => rw [hl] at hne; exact absurd rfl hne
        | cons f l =>
          have hf : f ∈ Monitor.listFilePaths d := by rw [hl]; exact List.mem_cons_self
          unfold Monitor.listFilePaths Monitor.hasSuffix at hf
          rw [List.mem_filter, Bool.and_eq_true, List.isSuffixOf_iff_suffix, beq_iff_eq] at hf
          exact ⟨f, hf.1, hf.2.1, hf.2.2⟩

theorem fileAt_texts (str : Str → Option Nat) : ∀ (fs : List (Monitor.FileEnt Str)) (ts : List Str), fs.map (·.content) = ts.map Option.some →
    fs.filterMap (·.content) = ts ∧ fs.map (fileAt str) = ts.map (fileOf str)
  | [], [], _ => ⟨rfl, rfl⟩
  | [], _ :: _, h => by cases h
  | f :: fs, [], h => by cases h
  | f :: fs, t :: ts, h => by
    rw [List.map_cons, List.map_cons, List.cons.injEq] at h
    obtain ⟨i1, i2⟩ := fileAt_texts str fs ts h.2
    rw [List.filterMap_cons_some h.1, i1, List.map_cons, List.map_cons, i2]
    refine ⟨rfl, ?_⟩
    unfold fileAt
    rw [h.1]

/-- Policy files whose texts compile are what `Init` finds. -/
theorem initPolicies_finds {R : Type} {ops : Operations R} {str : Str → Option Nat} {n : Nat} {b : Bool} {d : List (Monitor.FileEnt Str)} {ts : List Str} {c : List (Rule R) × List (Filter R)}
    (hf : PolicyFiles b d ts) (hc : compile ops n (ts.map (fileOf str)) = some (some c)) : initPolicies ops str n b (some d) = some (some (ts, c)) := by
  have hcr : createInterp ops str n (some d) = some (some (ts, c)) := by
    have hr := hf.read
    rw [← listRecursive_filter] at hr
    obtain ⟨k1, k2⟩ := fileAt_texts str _ _ hr
    unfold createInterp
    dsimp only
    rw [if_neg, k1, k2, hc]
    · rfl
    · intro he
      rw [List.isEmpty_iff] at he
      rw [he] at hr
      exact hf.some (List.map_eq_nil_iff.1 hr.symm)
  cases b with
  | false => exact hcr
  | true =>
    unfold initPolicies
    rw [if_pos rfl]
    dsimp only
    obtain ⟨f, h1, h2, h3⟩ := hf.top rfl
    rw [if_neg, hcr]
    intro he
    rw [List.isEmpty_iff] at he
    have : f ∈ Monitor.listFilePaths d := by
      unfold Monitor.listFilePaths Monitor.hasSuffix
      rw [List.mem_filter, Bool.and_eq_true, List.isSuffixOf_iff_suffix, beq_iff_eq]
      exact ⟨h1, h2, h3⟩
    rw [he] at this
    cases this

theorem decls_of_ok {str : Str → Option Nat} (hs : StrRule str) : ∀ (ts : List Str) (dss : List (List Decl)), ts.map (fileOf str) = dss.map Falco.File.ok →
    List.Forall₂ (fun s ds => GPolicy (ltokens str s) ds) ts dss ∧ ts.map (fun s => (parsePolicy (ltokens str s)).getD []) = dss
  | [], [], _ => ⟨.nil, rfl⟩
  | [], _ :: _, h => by cases h
  | _ :: _, [], h => by cases h
  | t :: ts, ds :: dss, h => by
    rw [List.map_cons, List.map_cons, List.cons.injEq] at h
    obtain ⟨i1, i2⟩ := decls_of_ok hs ts dss h.2
    refine ⟨.cons ((policy_accepted_iff hs t ds).1 h.1) i1, ?_⟩
    have h1 := h.1
    unfold fileOf at h1
    split at h1
    · rename_i ds' hp
      cases h1
      rw [List.map_cons, hp, i2]
      rfl
    · cases h1

theorem forall₂_asRule {R : Type} {ops : Operations R} {x : Site} {d : RuleDecl} {rs : List (Rule R)} : ∀ {ss : List Site},
    List.Forall₂ (RuleAt ops) (ss.filterMap asRule) rs → x ∈ ss → x.1 = .rule d → ∃ r, RuleAt ops (d, x.2) r := by
  intro ss h hx he
  have hm : (d, x.2) ∈ ss.filterMap asRule := by
    refine List.mem_filterMap.2 ⟨x, hx, ?_⟩
    obtain ⟨y, env⟩ := x
    cases he
    rfl
  clear hx
  generalize ss.filterMap asRule = l at h hm
  induction h with
  | nil => cases hm
  | cons h1 _ ih =>
    rcases List.mem_cons.1 hm with rfl | hm
    · exact ⟨_, h1⟩
    · exact ih hm

theorem forall₂_asFilter {R : Type} {ops : Operations R} {x : Site} {d : FilterDecl} {rs : List (Filter R)} : ∀ {ss : List Site},
    List.Forall₂ (FilterAt ops) (ss.filterMap asFilter) rs → x ∈ ss → x.1 = .filter d → ∃ r, FilterAt ops (d, x.2) r := by
  intro ss h hx he
  have hm : (d, x.2) ∈ ss.filterMap asFilter := by
    refine List.mem_filterMap.2 ⟨x, hx, ?_⟩
    obtain ⟨y, env⟩ := x
    cases he
    rfl
  clear hx
  generalize ss.filterMap asFilter = l at h hm
  induction h with
  | nil => cases hm
  | cons h1 _ ih =>
    rcases List.mem_cons.1 hm with rfl | hm
    · exact ⟨_, h1⟩
    · exact ih hm

/-- A policy set that compiled has texts that are declarations of the rule language, without cyclic definitions. -/
theorem policySet_good {R : Type} {ops : Operations R} {str : Str → Option Nat} (hs : StrRule str) (p : PolicySetOf ops str) :
    List.Forall₂ (fun s ds => GPolicy (ltokens str s) ds) p.texts p.decls ∧ ∀ x ∈ sites p.decls, ∀ e, siteCond x = some e → ¬ Cyclic x.2 e := by
  obtain ⟨n, hn⟩ := p.built
  obtain ⟨dss, hd⟩ := compile_all_ok _ _ _ _ hn
  obtain ⟨h1, h2⟩ := decls_of_ok hs _ _ hd
  have h2 : p.decls = dss := h2
  rw [h2]
  refine ⟨h1, ?_⟩
  rw [hd] at hn
  obtain ⟨k1, k2⟩ := compile_sites _ n dss _ _ hn
  intro x hx e he
  obtain ⟨d, env⟩ := x
  cases d with
  | rule d =>
    cases he
    obtain ⟨r, hr⟩ := forall₂_asRule k1 hx rfl
    exact (falco_compiles_iff_acyclic _ _ _).1 ⟨_, hr.2⟩
  | filter d =>
    cases he
    obtain ⟨r, hr⟩ := forall₂_asFilter k2 hx rfl
    exact (falco_compiles_iff_acyclic _ _ _).1 ⟨_, hr.2⟩
  | mac _ _ => cases he
  | list _ _ => cases he
  | req _ => cases he

/-- Texts of the rule language without cyclic definitions compile, whatever the operations. -/
theorem policy_texts_compile {R : Type} (ops : Operations R) {str : Str → Option Nat} (hs : StrRule str) {texts : List Str} {dss : List (List Decl)}
    (ht : List.Forall₂ (fun s ds => GPolicy (ltokens str s) ds) texts dss) (hc : ∀ x ∈ sites dss, ∀ e, siteCond x = some e → ¬ Cyclic x.2 e) :
    texts.map (fileOf str) = dss.map Falco.File.ok ∧ ∃ n c, compile ops n (texts.map (fileOf str)) = some (some c) := by
  have hfiles : texts.map (fileOf str) = dss.map Falco.File.ok := by
    clear hc
    induction ht with
    | nil => rfl
    | cons h _ ih => rw [List.map_cons, List.map_cons, ih, (policy_accepted_iff hs _ _).mpr h]
  obtain ⟨n, rules, filters, hcomp⟩ := falco_policy_terminates ops dss (by
    intro earlier before d after later e hd he
    have hsite : (d, envAt earlier (before ++ d :: after) before) ∈ sites dss := by
      rw [hd]
      unfold sites envAt
      rw [sitesFrom_append, sitesFrom, fileSites_split]
      exact List.mem_append_right _ (List.mem_append_left _ (List.mem_append_right _ List.mem_cons_self))
    refine hc _ hsite e ?_
    cases d with
    | rule r => exact he
    | filter f => exact he
    | mac n c => exact he
    | list n vs => exact he
    | req e => exact he)
  exact ⟨hfiles, n, _, by rw [hfiles]; exact hcomp⟩

theorem initPolicies_unique {R : Type} {ops : Operations R} {str : Str → Option Nat} {n m : Nat} {b : Bool} {d : List (Monitor.FileEnt Str)} {ts ts' : List Str} {c c' : List (Rule R) × List (Filter R)}
    (hf : PolicyFiles b d ts) (hc : compile ops m (ts.map (fileOf str)) = some (some c)) (h : initPolicies ops str n b (some d) = some (some (ts', c'))) : ts' = ts ∧ c' = c := by
  obtain ⟨h1, d', hd, h2⟩ := initPolicies_built h
  cases hd
  have : ts' = ts := by
    have := h2.read.symm.trans hf.read
    exact List.map_injective_iff.2 (fun _ _ h => Option.some.inj h) this
  subst this
  exact ⟨rfl, Option.some.inj (compile_unique _ _ _ _ _ _ h1 hc)⟩

/-- Policy files below the configured path whose texts compile are the engine's first policies. -/
theorem withDirs_policyAt (W : World Unit) (fs : Str → Dir) (later : List (PolicySet W.L W.str)) (ec : EngineConfig) (hl : ec.language = .falco) {d : List (Monitor.FileEnt Str)} {ts : List Str}
    (hd : fs ec.policiesPath = some d) (hf : PolicyFiles (ec.monitor == .loc) d ts) {n : Nat} {c : List (Rule Record) × List (Filter Record)}
    (hc : compile (flatOps W.L getMappers) n (ts.map (fileOf W.str)) = some (some c)) :
    ∃ p, (W.withDirs fs later).policyAt ec = some p ∧ p.texts = ts ∧ p.code = c := by
  have hex : ec.language = .falco ∧ ∃ p : PolicySet W.L W.str, ∃ n, initPolicies (flatOps W.L getMappers) W.str n (ec.monitor == .loc) (fs ec.policiesPath) = some (some (p.texts, p.code)) :=
    ⟨hl, ⟨ts, c, n, hc⟩, n, by rw [hd]; exact initPolicies_finds hf hc⟩
  refine ⟨hex.2.choose, ?_, ?_⟩
  · unfold World.withDirs
    dsimp only
    rw [dif_pos hex]
  · obtain ⟨k, hk⟩ := hex.2.choose_spec
    exact initPolicies_unique hf hc ((congrArg (initPolicies (flatOps W.L getMappers) W.str k (ec.monitor == .loc)) hd).symm.trans hk)

theorem withDirs_policyAt_none (W : World Unit) (fs : Str → Dir) (later : List (PolicySet W.L W.str)) (ec : EngineConfig)
    (h : ∀ n ts c, initPolicies (flatOps W.L getMappers) W.str n (ec.monitor == .loc) (fs ec.policiesPath) ≠ some (some (ts, c))) : (W.withDirs fs later).policyAt ec = none := by
  unfold World.withDirs
  dsimp only
  rw [dif_neg]
  rintro ⟨-, p, n, hp⟩
  exact h n _ _ hp

/-- **C93** Policies, directory and start. With the Falco language, a usual configuration whose other settings are in order is loaded exactly if the files below the policy path with the suffix .yaml or
.yml (with the local monitor, one with .yaml directly below it) can all be read and are policies of the rule language, without cyclic definitions. -/
theorem directory_starts_iff (W : World Unit) (fs : Str → Dir) (later : List (PolicySet W.L W.str)) {c1 c2 c3 : Pipeline.Conf} {a b d : Str} (u : Usual c1 c2 c3 a b d) (hs : StrRule W.str)
    (hp : (engineConf c2).policiesPath ≠ []) (hl : (engineConf c2).language = .falco) (hw : 0 ≤ (engineConf c2).concurrency) {x : XConfig} (hx : createConfigX W.secrets (xconf c3) = some x)
    (ho : W.exports x = true) :
    (∃ l, loadStages (W.withDirs fs later).env { regs := bootRegs } [c1, c2, c3] = .done l) ↔
      ∃ files texts dss, fs (engineConf c2).policiesPath = some files ∧ PolicyFiles ((engineConf c2).monitor == .loc) files texts ∧
        List.Forall₂ (fun s ds => GPolicy (ltokens W.str s) ds) texts dss ∧ ∀ y ∈ sites dss, ∀ e, siteCond y = some e → ¬ Cyclic y.2 e := by
  constructor
  · rintro ⟨l, h⟩
    apply Classical.byContradiction
    intro hno
    have hnone : (W.withDirs fs later).policyAt (engineConf c2) = none := by
      apply withDirs_policyAt_none
      intro n ts c hc
      obtain ⟨h1, files, h2, h3⟩ := initPolicies_built hc
      obtain ⟨g1, g2⟩ := policySet_good hs (⟨ts, c, n, h1⟩ : PolicySet W.L W.str)
      exact hno ⟨files, ts, _, h2, h3, g1, g2⟩
    have he : (W.withDirs fs later).env.init .engine c2 fullRegs = .err := by
      have e : engineInit (Config.toConf (xconf c2)) ((W.withDirs fs later).policyAt (engineConf c2)).isSome = .error := by
        rw [hnone]
        unfold engineInit
        change (if (engineConf c2).policiesPath = [] then _ else if false = true then (if (engineConf c2).concurrency < 0 then _ else _) else _) = _
        rw [if_neg hp, if_neg (by decide)]
      unfold World.env
      dsimp only
      rw [e]
    rw [loadStages_cons (usual_first _ u)] at h
    unfold loadStages loadStage at h
    rw [show strAt c2 kProc = _ from u.engine] at h
    dsimp only at h
    rw [show (W.withDirs fs later).env.getProc (afterReader a b).regs _ = _ from full_engine _] at h
    dsimp only at h
    rw [he] at h
    cases h
  · rintro ⟨files, texts, dss, h1, h2, h3, h4⟩
    obtain ⟨n, rules, filters, hc, -⟩ := policy_texts_to_alerts W.L hs texts dss h3 h4
    obtain ⟨p, hp1, -, -⟩ := withDirs_policyAt W fs later (engineConf c2) hl h1 h2 hc
    obtain ⟨l, hl, -⟩ := usual_boots (W.withDirs fs later) u (x := x) (p := p) ⟨hp, hp1, hw, hx, ho⟩
    exact ⟨l, hl⟩

/-- **C93** From the policy directory to the log. With a usual configuration of JSON export to a file, in a world that is in order, and with policy files as above: the program starts with exactly the
policies in these files, and every run of the file driver over files that can be opened with records whose process parents are older ends without an error and with a complete log; and there is such a run. -/
theorem directory_to_log (W : World Unit) (fs : Str → Dir) (later : List (PolicySet W.L W.str)) {m : Manifest} {env : List Str} {cs : List Pipeline.Conf} {c1 c2 c3 : Pipeline.Conf} {a b d : Str}
    (hm : setManifest m env cs = [c1, c2, c3]) (u : Usual c1 c2 c3 a b d) (hs : StrRule W.str)
    (hp : (engineConf c2).policiesPath ≠ []) (hl : (engineConf c2).language = .falco) (hw : 0 < (engineConf c2).concurrency)
    {x : XConfig} (hx : createConfigX W.secrets (xconf c3) = some x) (ho : W.opens x.path = true) (hf : x.format = .json) (ht : x.transport = .file) (hwr : ∀ k, W.writes k = none)
    (hb : Benign W.builtIn W.user) (hd : (createFlattenerConfig (Config.toConf (xconf c1))).1.filterOn = false) (hlib : Json.Spec.LibOk W.L) (hv : Json.Spec.VersionOk (Utf8.bytes m.jsonSchema))
    {files : List (Monitor.FileEnt Str)} {texts : List Str} {dss : List (List Decl)} (h1 : fs (engineConf c2).policiesPath = some files)
    (h2 : PolicyFiles ((engineConf c2).monitor == .loc) files texts) (h3 : List.Forall₂ (fun s ds => GPolicy (ltokens W.str s) ds) texts dss)
    (h4 : ∀ y ∈ sites dss, ∀ e, siteCond y = some e → ¬ Cyclic y.2 e) :
    ∃ (l : Load Factory) (p : PolicySet W.L W.str) (S : Setup (PolicySet W.L W.str)), loadStages (W.withDirs fs later).env { regs := bootRegs } (setManifest m env cs) = .done l ∧
      netOf (W.withDirs fs later).comp (setManifest m env cs) l chanSize = S.net ∧ S.policies = p ∧ p.texts = texts ∧ p.decls = dss ∧ S.pending = later ∧
      ∀ ds : List (FileData Rec), (∀ f ∈ ds, f ≠ .noOpen) → OlderParents (recordsIn ds) → (recordsIn ds).length ≤ W.fuel →
        (∀ (tr : List (Drain.Obs Msg)) (s : PSt Rec S.net), PExec Msg.sf S.net (fileDriver (fun _ => true) (some ds)) tr s → ∀ e, s.status = some e →
          e = false ∧ LogComplete S PolicySetOf.decls (recordsIn ds) (S.log s.net)) ∧
        ∃ (tr : List (Drain.Obs Msg)) (s : PSt Rec S.net), PExec Msg.sf S.net (fileDriver (fun _ => true) (some ds)) tr s ∧ s.status = some false := by
  obtain ⟨n, rules, filters, hc, -⟩ := policy_texts_to_alerts W.L hs texts dss h3 h4
  obtain ⟨p, hp1, hp2, hp3⟩ := withDirs_policyAt W fs later (engineConf c2) hl h1 h2 hc
  have hdecls : p.decls = dss := by
    unfold PolicySetOf.decls
    rw [hp2]
    have hfiles : texts.map (fileOf W.str) = dss.map Falco.File.ok := by
      clear hc hp2 h2 h4
      induction h3 with
      | nil => rfl
      | cons h _ ih => rw [List.map_cons, List.map_cons, (policy_accepted_iff hs _ _).2 h, ih]
    exact (decls_of_ok hs _ _ hfiles).2
  have hok : (W.withDirs fs later).Ok m c1 c2 PolicySetOf.decls :=
    ⟨hs, fun q => (policySet_good hs q).1, fun q => (policySet_good hs q).2, fun q => q.built, hb, hw, hd, hlib, hv⟩
  have hready : (W.withDirs fs later).Ready c2 c3 x p := by
    refine ⟨hp, hp1, Int.le_of_lt hw, hx, ?_⟩
    unfold World.exports
    rw [hf, ht]
    rw [show (W.withDirs fs later).opens x.path = true from ho]
    rfl
  obtain ⟨l, k1, k2, k3⟩ := boot_file_run (W.withDirs fs later) hm u hready hf ht hwr hok
  refine ⟨l, p, (W.withDirs fs later).setup c1 c2 x p, k1, k2, rfl, hp2, hdecls, rfl, fun ds g1 g2 g3 => ⟨k3 ds g1 g2 g3, ?_⟩⟩
  obtain ⟨hT, hC⟩ := net_ok ((W.withDirs fs later).setup c1 c2 x p) (by change 0 < (engineConf c2).concurrency.toNat; omega) (by change 0 < 100000; decide)
  obtain ⟨body, b1, b2, _⟩ := file_driver_delivers (fun _ => true) (fun _ h => h) ds g1
  exact complete_run hT hC ⟨b1, b2⟩ Msg.sf

/-! ### Example -/

/-- A directory with a policy, a text that is no policy file, and a policy below a subdirectory. -/
def demoDir : List (Monitor.FileEnt Str) :=
  [⟨"p/a.yaml".toList, 0, some lsText⟩, ⟨"p/README".toList, 0, none⟩, ⟨"p/sub/b.yml".toList, 1, some lsText⟩]

theorem demo_policyFiles (b : Bool) : PolicyFiles b demoDir [lsText, lsText] := by
  refine ⟨List.cons_ne_nil _ _, ?_, fun _ => ⟨_, List.mem_cons_self, rfl, by decide +kernel⟩⟩
  have e : demoDir.filter (fun f => decide (".yaml".toList <:+ f.path ∨ ".yml".toList <:+ f.path)) = [⟨"p/a.yaml".toList, 0, some lsText⟩, ⟨"p/sub/b.yml".toList, 1, some lsText⟩] := by
    unfold demoDir
    rw [List.filter_cons_of_pos (by decide +kernel), List.filter_cons_of_neg (by decide +kernel), List.filter_cons_of_pos (by decide +kernel)]
    rfl
  rw [e]
  rfl

theorem ls_twice_acyclic : ∀ y ∈ sites [lsDecls, lsDecls], ∀ e, siteCond y = some e → ¬ Cyclic y.2 e := by
  have h : sites [lsDecls, lsDecls] = [(.rule demoLsRule, ⟨[], []⟩), (.rule demoLsRule, ⟨[], []⟩)] := rfl
  rw [h]
  intro y hy
  refine ls_acyclic y ?_
  rw [ls_sites]
  rcases List.mem_cons.1 hy with rfl | hy
  · exact List.mem_cons_self
  · exact hy

open Classical in
/-- The hypotheses of `directory_to_log` are met. -/
example : ∃ (l : Load Factory) (S : Setup (PolicySet (demoWorld ([], [])).L simpleStr)),
    loadStages ((demoWorld ([], [])).withDirs (fun s => if s = "p".toList then some demoDir else none) []).env { regs := bootRegs }
      (setManifest demoManifest ["CLUSTER_ID=x".toList] demoConfs) = .done l ∧
    S.policies.decls = [lsDecls, lsDecls] ∧
    ∃ (tr : List (Drain.Obs Msg)) (s : PSt Rec S.net), PExec Msg.sf S.net (fileDriver (fun _ => true) (some [.data (Processor.saneStream.map .record)])) tr s ∧ s.status = some false ∧
    LogComplete S PolicySetOf.decls Processor.saneStream (S.log s.net) := by
  obtain ⟨c1, c2, c3, hm, hu, e1, e2, e3⟩ := demo_usual
  obtain ⟨s1, s2, s3, s4, s5⟩ := demo_settings
  have s6 : (engineConf (demoConfs'[1]'(by decide +kernel))).language = .falco := by decide +kernel
  rw [← e2] at s1 s2 s3 s6
  rw [← e1] at s4
  rw [← e3] at s5
  obtain ⟨x, hx, hs⟩ := Option.map_eq_some_iff.1 s5
  simp only [Prod.mk.injEq] at hs
  obtain ⟨f1, f2, f3⟩ := hs
  obtain ⟨l, p, S, h1, h2, h3, h4, h5, h6, h7⟩ := directory_to_log (demoWorld ([], [])) (fun s => if s = "p".toList then some demoDir else none) [] hm hu simple_rule
    (by rw [s1]; decide) s6 (by rw [s2]; decide) hx rfl f1 f2 (fun _ => rfl) (fun a f hf => by rcases hf with hf | hf <;> cases hf) s4 Json.demo_ok Json.demo_version
    (by rw [if_pos s1]) (demo_policyFiles _) (.cons ls_parses (.cons ls_parses .nil)) ls_twice_acyclic
  have hopen : ∀ f ∈ [FileData.data (Processor.saneStream.map .record)], f ≠ .noOpen := by
    intro f hf
    rw [List.mem_singleton.1 hf]; intro h; cases h
  obtain ⟨r1, tr, s, r2, r3⟩ := h7 _ hopen (by change OlderParents Processor.saneStream; exact Processor.sane_older) (by change 7 ≤ 10; decide)
  exact ⟨l, S, h1, (congrArg _ h3).trans h5, tr, s, r2, r3, (r1 tr s r2 _ r3).2⟩

/-- `directory_starts_iff`: without the directory, the demo configuration is not loaded. -/
example (l : Load Factory) : loadStages ((demoWorld ([], [])).withDirs (fun _ => none) []).env { regs := bootRegs } (setManifest demoManifest ["CLUSTER_ID=x".toList] demoConfs) ≠ .done l := by
  obtain ⟨c1, c2, c3, hm, hu, e1, e2, e3⟩ := demo_usual
  obtain ⟨s1, s2, s3, s4, s5⟩ := demo_settings
  have s6 : (engineConf (demoConfs'[1]'(by decide +kernel))).language = .falco := by decide +kernel
  rw [← e2] at s1 s2 s3 s6
  rw [← e3] at s5
  obtain ⟨x, hx, hs⟩ := Option.map_eq_some_iff.1 s5
  simp only [Prod.mk.injEq] at hs
  obtain ⟨f1, f2, f3⟩ := hs
  rw [hm]
  intro h
  obtain ⟨files, _, _, h1, _⟩ := (directory_starts_iff (demoWorld ([], [])) (fun _ => none) [] hu simple_rule (by rw [s1]; decide) s6 (by rw [s2]; decide) hx
    (by unfold World.exports; rw [f1, f2]; rfl)).1 ⟨l, h⟩
  cases h1

end Verif.Whole
