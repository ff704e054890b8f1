import Verif.Whole.ReloadMomentsConf
import Verif.Whole.OutReloadExamples
import Verif.Whole.ReloadEffect
/-
C128, concrete cases: moments of runs in which the first records of the sample stream have been read while the policy is edited.
-/
namespace Verif.Whole
open Verif.Decimal (Str)
open Verif.Exporter (Bytes GetsThrough KeptOf RequestsFor)
open Verif.FlatRecord
open Verif.Policy
open Verif.Falco
open Verif.Sigma (RuleFile ConfigFile FieldMappings SigmaRule Supported Configures)
open Verif.Processor (Rec HCall OlderParents)
open Verif.Flattener (eventsAfter StoresEvent)
open Verif.Pipeline
open Verif.Pipeline.Process
open Verif.Pipeline.Drain (driven rootClosed Waited sync engine exporter chain)
open Verif.Config (XConf XVal XConfig ConfEnv EngineConfig createConfigX createEngineConfig createFlattenerConfig engineInit)

variable {P : Type}


/-- The first records of the sample stream. -/
theorem sane_first (k : Nat) : OlderParents (Processor.saneStream.take k) := fun p hp => Processor.sane_older p (List.mem_of_mem_take hp)

theorem sane_short (k : Nat) : (Processor.saneStream.take k).length ≤ 10 := by
  rw [List.length_take]
  have : Processor.saneStream.length = 7 := rfl
  omega

theorem sane_has_events : eventsAfter [] Processor.saneStream ≠ [] := by
  intro h
  have : (eventsAfter [] Processor.saneStream).length = 0 := by rw [h]; rfl
  revert this
  decide

theorem sane_split (k : Nat) : Processor.saneStream.map Msg.sf = (Processor.saneStream.take k).map Msg.sf ++ (Processor.saneStream.drop k).map Msg.sf := by
  rw [← List.map_append, List.take_append_drop]

/-- The hypotheses of `terminal_moments` are met, and there is a run in which the policy is edited while the first `k` records have been read. -/
example (k : Nat) : ∃ (c1 c2 : Pipeline.Conf) (x : XConfig) (l : Load Factory) (p : PolicySet (badWorld ([], [])).L simpleStr),
    loadStages ((badWorld ([], [])).withDirs (fun s => if s = "p".toList then some (watchDir lsText) else none) []).env { regs := bootRegs } (setManifest demoManifest [] watchTermConfs) = .done l ∧ p.decls = [lsDecls] ∧
    let V := (badWorld ([], [])).withDirs (fun s => if s = "p".toList then some (watchDir lsText) else none) []
    ∃ tr mo y, OutReloadRun (V.setup c1 c2 x p) rfl (V.encode x) Exporter.terminal [] (id : Str → Str) (compileRead (flatOps (badWorld ([], [])).L getMappers) simpleStr) (watchDir lsText) tr mo y ∧
      driven tr = (Processor.saneStream.take k).map Msg.sf ∧
      ∃ as ms, MessagesUnder (V.setup c1 c2 x p) PolicySetOf.decls (V.Line c1 c2 x p) (p :: as) (eventsAfter [] (Processor.saneStream.take k)) ms ∧ ((V.setup c1 c2 x p).outOf y.1) <+: ms.flatMap (fun l => l ++ [Exporter.newline]) ∧ TakenSoFar mo as ∧
        ∀ q ∈ as, FromHistory (Reload.dirsOf (watchDir lsText) mo) q.texts := by
  obtain ⟨c1, c2, c3, hm, hu, e1, e2, e3⟩ := watchTerm_usual
  obtain ⟨s1, s2, s3, s6, s4, s5⟩ := watchTerm_settings
  rw [← e2] at s1 s2 s3 s6
  rw [← e1] at s4
  rw [← e3] at s5
  obtain ⟨x, hx, hs⟩ := Option.map_eq_some_iff.1 s5
  simp only [Prod.mk.injEq] at hs
  obtain ⟨f1, f2, f3⟩ := hs
  obtain ⟨l, p, h1, -, h2, h3, ok, henc, hmom⟩ := terminal_moments (C := Str) (badWorld ([], [])) (fun s => if s = "p".toList then some (watchDir lsText) else none) hm hu simple_rule
    (by rw [s1]; decide) s6 s3 (by rw [s2]; decide) hx (by unfold World.exports; rw [f1, f2]; rfl) f2 (fun a f hf => by rcases hf with hf | hf <;> cases hf) s4 Json.demo_ok Json.demo_version demo_names
    (by rw [if_pos s1]; rfl) (sole_policyFiles a_yaml lsText) (.cons ls_parses .nil) ls_acyclic
  obtain ⟨-, n, c, hc⟩ := policy_texts_compile (flatOps (badWorld ([], [])).L getMappers) simple_rule (.cons cat_parses .nil) cat_acyclic
  obtain ⟨⟨rd, hcs⟩, hr⟩ := Processor.reader_returns _ (Processor.older_parents_not_stuck _ Processor.sane_older) 10 (by change 7 ≤ 10; decide)
  obtain ⟨tr, mo, y, k1, -, k3, -⟩ := out_edit_takes_effect _ _ ok henc (terminal_delivers _ _) (by change (_ == _) = true; rw [s3]; rfl) rfl (id : Str → Str) a_yaml lsText catText
    (comp := compileRead (flatOps (badWorld ([], [])).L getMappers) simpleStr) (p := ⟨[catText], c, n, hc⟩) (compileRead_some.2 rfl) hr sane_has_events (by change 7 ≤ 100000; decide)
  obtain ⟨tr', mo', y', g1, g2⟩ := Reload.earlier k1 _ _ (k3.trans (sane_split k))
  obtain ⟨as, ms, r1, r2, r3, r4⟩ := hmom (id : Str → Str) (Processor.saneStream.take k) (sane_first k) (sane_short k) tr' mo' y' g1 g2
  exact ⟨c1, c2, x, l, p, h1, h3, tr', mo', y', g1, g2, as, ms, r1, r2, r3, r4⟩

/-- Those of `syslog_moments`, while every second call fails. -/
example (k : Nat) : ∃ (c1 c2 : Pipeline.Conf) (x : XConfig) (l : Load Factory) (p : PolicySet (badWorld ([], [])).L simpleStr),
    loadStages ((badWorld ([], [])).withDirs (fun s => if s = "p".toList then some (watchDir lsText) else none) []).env { regs := bootRegs } (setManifest demoManifest [] watchSysConfs) = .done l ∧ p.decls = [lsDecls] ∧
    let V := (badWorld ([], [])).withDirs (fun s => if s = "p".toList then some (watchDir lsText) else none) []
    ∃ tr mo y, OutReloadRun (V.setup c1 c2 x p) rfl (V.encode x) (Exporter.syslog (badWorld ([], [])).sends) ([], 0) (id : Str → Str) (compileRead (flatOps (badWorld ([], [])).L getMappers) simpleStr) (watchDir lsText) tr mo y ∧
      driven tr = (Processor.saneStream.take k).map Msg.sf ∧
      ∃ as ms, MessagesUnder (V.setup c1 c2 x p) PolicySetOf.decls (V.Line c1 c2 x p) (p :: as) (eventsAfter [] (Processor.saneStream.take k)) ms ∧ (∃ lines n, GetsThrough (badWorld ([], [])).sends 0 ms lines n ∧ ((V.setup c1 c2 x p).outOf y.1).1 <+: lines) ∧ TakenSoFar mo as ∧
        ∀ q ∈ as, FromHistory (Reload.dirsOf (watchDir lsText) mo) q.texts := by
  obtain ⟨c1, c2, c3, hm, hu, e1, e2, e3⟩ := watchSys_usual
  obtain ⟨s1, s2, s3, s6, s4, s5⟩ := watchSys_settings
  rw [← e2] at s1 s2 s3 s6
  rw [← e1] at s4
  rw [← e3] at s5
  obtain ⟨x, hx, hs⟩ := Option.map_eq_some_iff.1 s5
  simp only [Prod.mk.injEq] at hs
  obtain ⟨f1, f2, f3⟩ := hs
  obtain ⟨l, p, h1, -, h2, h3, ok, henc, hmom⟩ := syslog_moments (C := Str) (badWorld ([], [])) (fun s => if s = "p".toList then some (watchDir lsText) else none) hm hu simple_rule
    (by rw [s1]; decide) s6 s3 (by rw [s2]; decide) hx (by unfold World.exports; rw [f1, f2]; rfl) f2 (fun a f hf => by rcases hf with hf | hf <;> cases hf) s4 Json.demo_ok Json.demo_version demo_names
    (by rw [if_pos s1]; rfl) (sole_policyFiles a_yaml lsText) (.cons ls_parses .nil) ls_acyclic
  obtain ⟨-, n, c, hc⟩ := policy_texts_compile (flatOps (badWorld ([], [])).L getMappers) simple_rule (.cons cat_parses .nil) cat_acyclic
  obtain ⟨⟨rd, hcs⟩, hr⟩ := Processor.reader_returns _ (Processor.older_parents_not_stuck _ Processor.sane_older) 10 (by change 7 ≤ 10; decide)
  obtain ⟨tr, mo, y, k1, -, k3, -⟩ := out_edit_takes_effect _ _ ok henc (syslog_delivers _ _ (badWorld ([], [])).sends) (by change (_ == _) = true; rw [s3]; rfl) rfl (id : Str → Str) a_yaml lsText catText
    (comp := compileRead (flatOps (badWorld ([], [])).L getMappers) simpleStr) (p := ⟨[catText], c, n, hc⟩) (compileRead_some.2 rfl) hr sane_has_events (by change 7 ≤ 100000; decide)
  obtain ⟨tr', mo', y', g1, g2⟩ := Reload.earlier k1 _ _ (k3.trans (sane_split k))
  obtain ⟨as, ms, lines, n, r1, r2, r5, r3, r4⟩ := hmom (id : Str → Str) (Processor.saneStream.take k) (sane_first k) (sane_short k) tr' mo' y' g1 g2
  exact ⟨c1, c2, x, l, p, h1, h3, tr', mo', y', g1, g2, as, ms, r1, ⟨lines, n, (congrArg (fun b => GetsThrough (badWorld ([], [])).sends b ms lines n) f3).mp r2, r5⟩, r3, r4⟩

/-- Those of `file_moments`, while every third write is cut short. -/
example (k : Nat) : ∃ (c1 c2 : Pipeline.Conf) (x : XConfig) (l : Load Factory) (p : PolicySet (badWorld ([], [])).L simpleStr),
    loadStages ((badWorld ([], [])).withDirs (fun s => if s = "p".toList then some (watchDir lsText) else none) []).env { regs := bootRegs } (setManifest demoManifest [] watchFileConfs) = .done l ∧ p.decls = [lsDecls] ∧
    let V := (badWorld ([], [])).withDirs (fun s => if s = "p".toList then some (watchDir lsText) else none) []
    ∃ tr mo y, OutReloadRun (V.setup c1 c2 x p) rfl (V.encode x) (Exporter.fileTransport (badWorld ([], [])).writes) Exporter.newFile (id : Str → Str) (compileRead (flatOps (badWorld ([], [])).L getMappers) simpleStr) (watchDir lsText) tr mo y ∧
      driven tr = (Processor.saneStream.take k).map Msg.sf ∧
      ∃ as ms, MessagesUnder (V.setup c1 c2 x p) PolicySetOf.decls (V.Line c1 c2 x p) (p :: as) (eventsAfter [] (Processor.saneStream.take k)) ms ∧ (∃ full n fates, KeptOf (badWorld ([], [])).writes 3 ms full n fates ∧ ((V.setup c1 c2 x p).outOf y.1).contents <+: full) ∧ TakenSoFar mo as ∧
        ∀ q ∈ as, FromHistory (Reload.dirsOf (watchDir lsText) mo) q.texts := by
  obtain ⟨c1, c2, c3, hm, hu, e1, e2, e3⟩ := watchFile_usual
  obtain ⟨s1, s2, s3, s6, s4, s5⟩ := watchFile_settings
  rw [← e2] at s1 s2 s3 s6
  rw [← e1] at s4
  rw [← e3] at s5
  obtain ⟨x, hx, hs⟩ := Option.map_eq_some_iff.1 s5
  simp only [Prod.mk.injEq] at hs
  obtain ⟨f1, f2, f3⟩ := hs
  obtain ⟨l, p, h1, -, h2, h3, ok, henc, hmom⟩ := file_moments (C := Str) (badWorld ([], [])) (fun s => if s = "p".toList then some (watchDir lsText) else none) hm hu simple_rule
    (by rw [s1]; decide) s6 s3 (by rw [s2]; decide) hx (by unfold World.exports; rw [f1, f2]; rfl) f2 (fun a f hf => by rcases hf with hf | hf <;> cases hf) s4 Json.demo_ok Json.demo_version demo_names
    (by rw [if_pos s1]; rfl) (sole_policyFiles a_yaml lsText) (.cons ls_parses .nil) ls_acyclic
  obtain ⟨-, n, c, hc⟩ := policy_texts_compile (flatOps (badWorld ([], [])).L getMappers) simple_rule (.cons cat_parses .nil) cat_acyclic
  obtain ⟨⟨rd, hcs⟩, hr⟩ := Processor.reader_returns _ (Processor.older_parents_not_stuck _ Processor.sane_older) 10 (by change 7 ≤ 10; decide)
  obtain ⟨tr, mo, y, k1, -, k3, -⟩ := out_edit_takes_effect _ _ ok henc (file_delivers _ _ (badWorld ([], [])).writes) (by change (_ == _) = true; rw [s3]; rfl) rfl (id : Str → Str) a_yaml lsText catText
    (comp := compileRead (flatOps (badWorld ([], [])).L getMappers) simpleStr) (p := ⟨[catText], c, n, hc⟩) (compileRead_some.2 rfl) hr sane_has_events (by change 7 ≤ 100000; decide)
  obtain ⟨tr', mo', y', g1, g2⟩ := Reload.earlier k1 _ _ (k3.trans (sane_split k))
  obtain ⟨as, ms, full, n, fates, r1, r2, r5, r3, r4⟩ := hmom (id : Str → Str) (Processor.saneStream.take k) (sane_first k) (sane_short k) tr' mo' y' g1 g2
  exact ⟨c1, c2, x, l, p, h1, h3, tr', mo', y', g1, g2, as, ms, r1, ⟨full, n, fates, (congrArg (fun b => KeptOf (badWorld ([], [])).writes b ms full n fates) f3).mp r2, r5⟩, r3, r4⟩

/-- Those of `log_moments`. -/
example (k : Nat) : ∃ (l : Load Factory) (S : Setup (PolicySet (demoWorld ([], [])).L simpleStr)) (hp : S.pending = []),
    loadStages ((demoWorld ([], [])).withDirs (fun s => if s = "p".toList then some (watchDir lsText) else none) []).env { regs := bootRegs } (setManifest demoManifest ["CLUSTER_ID=x".toList] watchConfs) = .done l ∧ S.policies.decls = [lsDecls] ∧
    ∃ tr mo y, ReloadRun S hp (id : Str → Str) (compileRead (flatOps (demoWorld ([], [])).L getMappers) simpleStr) (watchDir lsText) tr mo y ∧ driven tr = (Processor.saneStream.take k).map Msg.sf ∧
      ∃ as full, LoggedUnder S PolicySetOf.decls (S.policies :: as) (Processor.saneStream.take k) full ∧ S.log y.1 <+: full ∧ TakenSoFar mo as ∧ ∀ q ∈ as, FromHistory (Reload.dirsOf (watchDir lsText) mo) q.texts := by
  obtain ⟨c1, c2, c3, hm, hu, e1, e2, e3⟩ := watch_usual
  obtain ⟨s1, s2, s3, s6, s4, s5⟩ := watch_settings
  rw [← e2] at s1 s2 s3 s6
  rw [← e1] at s4
  rw [← e3] at s5
  obtain ⟨x, hx, hs⟩ := Option.map_eq_some_iff.1 s5
  simp only [Prod.mk.injEq] at hs
  obtain ⟨f1, f2, f3⟩ := hs
  obtain ⟨l, S, hp, h1, -, -, h3, hmon, ok, hfu, hca, hmom⟩ := log_moments (C := Str) (demoWorld ([], [])) (fun s => if s = "p".toList then some (watchDir lsText) else none) hm hu simple_rule
    (by rw [s1]; decide) s6 s3 (by rw [s2]; decide) hx rfl f1 f2 (fun _ => rfl) (fun a f hf => by rcases hf with hf | hf <;> cases hf) s4 Json.demo_ok Json.demo_version
    (by rw [if_pos s1]; rfl) (sole_policyFiles a_yaml lsText) (.cons ls_parses .nil) ls_acyclic
  obtain ⟨-, n, c, hc⟩ := policy_texts_compile (flatOps (demoWorld ([], [])).L getMappers) simple_rule (.cons cat_parses .nil) cat_acyclic
  obtain ⟨⟨rd, hcs⟩, hr⟩ := Processor.reader_returns _ (Processor.older_parents_not_stuck _ Processor.sane_older) S.fuel (by rw [hfu]; change 7 ≤ 10; decide)
  obtain ⟨tr, mo, y, k1, -, k3, -⟩ := edit_takes_effect S _ ok hmon hp (id : Str → Str) a_yaml lsText catText
    (comp := compileRead (flatOps (demoWorld ([], [])).L getMappers) simpleStr) (p := ⟨[catText], c, n, hc⟩) (compileRead_some.2 rfl) hr sane_has_events (by rw [hca]; change 7 ≤ 100000; decide)
  obtain ⟨tr', mo', y', g1, g2⟩ := Reload.earlier k1 _ _ (k3.trans (sane_split k))
  exact ⟨l, S, hp, h1, h3, tr', mo', y', g1, g2, hmom (id : Str → Str) (Processor.saneStream.take k) (sane_first k) (sane_short k) tr' mo' y' g1 g2⟩

/-- Those of `elastic_moments`, while every second call fails. -/
example (k : Nat) : ∃ (l : Load Factory) (S : Setup (PolicySet (badWorld ([], [])).L simpleStr)) (E : EcsSide S) (hp : S.pending = []),
    loadStages ((badWorld ([], [])).withDirs (fun s => if s = "p".toList then some (watchDir lsText) else none) []).env { regs := bootRegs } (setManifest demoManifest [] watchElasticConfs) = .done l ∧ S.policies.decls = [lsDecls] ∧
    ∃ tr mo y, E.ReloadRun (fun i => i % 2 == 0) hp (id : Str → Str) (compileRead (flatOps (badWorld ([], [])).L getMappers) simpleStr) (watchDir lsText) tr mo y ∧ driven tr = (Processor.saneStream.take k).map Msg.sf ∧
      ∃ as docs parts ops n, SentUnder S E PolicySetOf.decls (S.policies :: as) (eventsAfter [] (Processor.saneStream.take k)) docs ∧ RequestsFor (fun i => i % 2 == 0) 2 docs ops n parts ∧
        (E.bulkOf y.1).ops <+: ops ∧ TakenSoFar mo as ∧ ∀ q ∈ as, FromHistory (Reload.dirsOf (watchDir lsText) mo) q.texts := by
  obtain ⟨c1, c2, c3, hm, hu, e1, e2, e3⟩ := watchElastic_usual
  obtain ⟨s1, s2, s3, s6, s4, s5⟩ := watchElastic_settings
  rw [← e2] at s1 s2 s3 s6
  rw [← e1] at s4
  rw [← e3] at s5
  obtain ⟨x, hx, hs⟩ := Option.map_eq_some_iff.1 s5
  simp only [Prod.mk.injEq] at hs
  obtain ⟨f1, f2, f3⟩ := hs
  obtain ⟨l, S, E, hp, h1, -, -, h3, hmon, ok, hn, hfu, hca, -, hmom⟩ := elastic_moments (C := Str) (badWorld ([], [])) (fun s => if s = "p".toList then some (watchDir lsText) else none) hm hu simple_rule
    (by rw [s1]; decide) s6 s3 (by rw [s2]; decide) hx rfl f1 f2 (fun a f hf => by rcases hf with hf | hf <;> cases hf) s4 Json.demo_ok Json.demo_version demo_names
    (by rw [if_pos s1]; rfl) (sole_policyFiles a_yaml lsText) (.cons ls_parses .nil) ls_acyclic
  obtain ⟨-, n, c, hc⟩ := policy_texts_compile (flatOps (badWorld ([], [])).L getMappers) simple_rule (.cons cat_parses .nil) cat_acyclic
  obtain ⟨⟨rd, hcs⟩, hr⟩ := Processor.reader_returns _ (Processor.older_parents_not_stuck _ Processor.sane_older) S.fuel (by rw [hfu]; change 7 ≤ 10; decide)
  obtain ⟨tr, mo, y, k1, -, k3, -⟩ := elastic_edit_takes_effect S E _ ok hn (fun i => i % 2 == 0) hmon hp (id : Str → Str) a_yaml lsText catText
    (comp := compileRead (flatOps (badWorld ([], [])).L getMappers) simpleStr) (p := ⟨[catText], c, n, hc⟩) (compileRead_some.2 rfl) hr sane_has_events (by rw [hca]; change 7 ≤ 100000; decide)
  obtain ⟨tr', mo', y', g1, g2⟩ := Reload.earlier k1 _ _ (k3.trans (sane_split k))
  rw [f3] at hmom
  exact ⟨l, S, E, hp, h1, h3, tr', mo', y', g1, g2, hmom (id : Str → Str) (Processor.saneStream.take k) (sane_first k) (sane_short k) tr' mo' y' g1 g2⟩

/-- Those of `sigma_terminal_moments`: the rules are edited to a text that is no rule. -/
example (k : Nat) : ∃ (c1 c2 : Pipeline.Conf) (x : XConfig) (l : Load Factory) (p : SigmaSet (badWorld ([], [])).L demoParse),
    let V := ((badWorld ([], [])).withSigma demoParse (fun _ => .ok lsPolicy.mappings) (fun s => if s = "p".toList then some (watchDir "ls".toList) else none) [])
    loadStages V.env { regs := bootRegs } (setManifest demoManifest [] sigmaTermConfs) = .done l ∧ p.policy = ⟨rulesIn demoParse ["ls".toList], lsPolicy.mappings⟩ ∧
    ∃ tr mo y, OutReloadRun (V.setup c1 c2 x p) rfl (V.encode x) Exporter.terminal [] (id : Str → Str) (compileSigma (badWorld ([], [])).L demoParse (.ok lsPolicy.mappings)) (watchDir "ls".toList) tr mo y ∧
      driven tr = (Processor.saneStream.take k).map Msg.sf ∧
      ∃ as ms, SigmaMessages (V.setup c1 c2 x p) SigmaSet.policy (V.SigmaMessage SigmaSet.policy c1 c2 x p) (p :: as) (eventsAfter [] (Processor.saneStream.take k)) ms ∧
        (V.setup c1 c2 x p).outOf y.1 <+: ms.flatMap (fun l => l ++ [Exporter.newline]) ∧ TakenSoFar mo as ∧
        ∀ q ∈ as, ∃ ts, q.policy = ⟨rulesIn demoParse ts, lsPolicy.mappings⟩ ∧ FromHistory (Reload.dirsOf (watchDir "ls".toList) mo) ts := by
  obtain ⟨c1, c2, c3, hm, hu, e1, e2, e3⟩ := sigmaTerm_usual
  obtain ⟨s1, s2, s3, s6, s4, s5⟩ := sigmaTerm_settings
  rw [← e2] at s1 s2 s3 s6
  rw [← e1] at s4
  rw [← e3] at s5
  obtain ⟨x, hx, hs⟩ := Option.map_eq_some_iff.1 s5
  simp only [Prod.mk.injEq] at hs
  obtain ⟨f1, f2, f3⟩ := hs
  have hparse : ∀ t r, demoParse t = some r → (r.searches.map (·.1)).Nodup := fun t r h => by rw [demoParse_only t r h]; decide
  have hsup : ∀ ts : List Str, ∀ t ∈ ts, ∀ r, demoParse t = some r → Supported lsPolicy.mappings r := fun _ t _ r h => by rw [demoParse_only t r h]; exact lsSigma_supported
  have hben : Benign (badWorld ([], [])).builtIn (badWorld ([], [])).user := fun a f hf => by rcases hf with hf | hf <;> cases hf
  obtain ⟨l, p, h1, -, h3, hmom⟩ := sigma_terminal_moments (C := Str) (badWorld ([], [])) demoParse (fun _ => .ok lsPolicy.mappings) (fun s => if s = "p".toList then some (watchDir "ls".toList) else none) hm hu
    hparse (by rw [s1]; decide) s6 s3 (by rw [s2]; decide) hx (by unfold World.exports; rw [f1, f2]; rfl) f2 hben s4 Json.demo_ok Json.demo_version demo_names (files := watchDir "ls".toList) (by rw [if_pos s1])
    (sole_policyFiles a_yaml "ls".toList) (.inr rfl) (hsup _)
  obtain ⟨p', hready, hpol, hok, henc, hdd⟩ := sigma_ready (badWorld ([], [])) demoParse (fun _ => .ok lsPolicy.mappings) (fun s => if s = "p".toList then some (watchDir "ls".toList) else none) [] hm hu
    hparse (by rw [s1]; decide) s6 (by rw [s2]; decide) hx (by unfold World.exports; rw [f1, f2]; rfl) hben s4 Json.demo_ok
    Json.demo_version demo_names (by rw [if_pos s1]) (by rw [s3]; exact sole_policyFiles a_yaml "ls".toList) (.inr rfl) (hsup _)
  obtain ⟨q, hq, hqp⟩ := compileSigma_accepts (badWorld ([], [])).L demoParse (.ok lsPolicy.mappings) (fm := lsPolicy.mappings) (.inr rfl) [("p/a.yaml".toList, some "?".toList)] ["?".toList] rfl (hsup _)
  obtain ⟨⟨rd, hcs⟩, hr⟩ := Processor.reader_returns _ (Processor.older_parents_not_stuck _ Processor.sane_older) 10 (by change 7 ≤ 10; decide)
  obtain ⟨tr, mo, y, k1, -, k3, -⟩ := sigma_out_edit_takes_effect (World.setup ((badWorld ([], [])).withSigma demoParse (fun _ => .ok lsPolicy.mappings) (fun s => if s = "p".toList then some (watchDir "ls".toList) else none) []) c1 c2 x p) SigmaSet.policy SigmaSet.cfg
    ⟨hok.config, hok.names, hok.compiled, hok.noFilters, hok.benign, hok.workers, hok.cap⟩ hdd henc (terminal_delivers _ _) (by change (_ == _) = true; rw [s3]; rfl) rfl
    (id : Str → Str) a_yaml "ls".toList "?".toList hq hr sane_has_events (by change 7 ≤ 100000; decide)
  obtain ⟨tr', mo', y', g1, g2⟩ := Reload.earlier k1 _ _ (k3.trans (sane_split k))
  exact ⟨c1, c2, x, l, p, h1, h3, tr', mo', y', g1, g2, hmom (id : Str → Str) (Processor.saneStream.take k) (sane_first k) (sane_short k) tr' mo' y' g1 g2⟩

end Verif.Whole
