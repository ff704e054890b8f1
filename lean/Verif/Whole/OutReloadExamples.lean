import Verif.Whole.OutReload
/-
C122, concrete cases: the policy is edited while ECS documents go to syslog where every second call fails, and while JSON records go to a file where every third write is cut short.
-/
namespace Verif.Whole
open Verif.Decimal (Str)
open Verif.Exporter (Bytes GetsThrough KeptOf)
open Verif.FlatRecord
open Verif.Policy
open Verif.Falco
open Verif.Processor (Rec HCall OlderParents)
open Verif.Flattener (eventsAfter StoresEvent)
open Verif.Pipeline
open Verif.Pipeline.Drain (driven rootClosed Waited sync engine exporter chain)
open Verif.Config (XConf XVal XConfig ConfEnv EngineConfig createConfigX createEngineConfig createFlattenerConfig engineInit)

/-- The demo configuration with a monitor and ECS documents sent to syslog one by one. -/
def watchSysConfs : List Pipeline.Conf := [demoConfs[0], watchConfs[1], sysConfs[2]]

def watchSysConfs' : List Pipeline.Conf := setManifest demoManifest [] watchSysConfs

theorem watchSys_usual : ∃ c1 c2 c3, setManifest demoManifest [] watchSysConfs = [c1, c2, c3] ∧ Usual c1 c2 c3 "sysflow".toList "flat".toList "evt".toList ∧
    c1 = watchSysConfs'[0]'(by decide +kernel) ∧ c2 = watchSysConfs'[1]'(by decide +kernel) ∧ c3 = watchSysConfs'[2]'(by decide +kernel) := by
  obtain ⟨c1, c2, c3, h1, h2, -⟩ := usual_manifest (c1 := watchSysConfs[0]) (c2 := watchSysConfs[1]) (c3 := watchSysConfs[2]) (a := "sysflow".toList) (b := "flat".toList) (d := "evt".toList)
    demoManifest []
    ⟨by decide +kernel, by decide +kernel, by decide +kernel, by decide +kernel, ⟨_, rfl, by decide +kernel⟩, ⟨_, rfl, by decide +kernel⟩, ⟨_, "flattenerchan".toList, rfl, by decide +kernel⟩,
      ⟨_, rfl, by decide +kernel⟩, ⟨_, "eventchan".toList, rfl, by decide +kernel⟩, by decide +kernel, by decide, by decide, by decide⟩
  have e : watchSysConfs' = [c1, c2, c3] := h1
  refine ⟨c1, c2, c3, h1, h2, ?_, ?_, ?_⟩ <;> simp only [e] <;> rfl

theorem watchSys_settings : (engineConf (watchSysConfs'[1]'(by decide +kernel))).policiesPath = "p".toList ∧ (engineConf (watchSysConfs'[1]'(by decide +kernel))).concurrency = 4 ∧
    (engineConf (watchSysConfs'[1]'(by decide +kernel))).monitor = .loc ∧ (engineConf (watchSysConfs'[1]'(by decide +kernel))).language = .falco ∧
    (createFlattenerConfig (Config.toConf (xconf (watchSysConfs'[0]'(by decide +kernel))))).1.filterOn = false ∧
    (createConfigX ⟨fun _ => none, fun _ => none⟩ (xconf (watchSysConfs'[2]'(by decide +kernel)))).map (fun x => (x.format, x.transport, x.eventBuffer)) = some (.ecs, .syslog, 0) := by
  decide +kernel

/-- With it the hypotheses of `hot_reload_syslog` are met, and there is a run in which the policy file is edited from one program to another and the other policy is adopted. -/
example : ∃ (c1 c2 : Pipeline.Conf) (x : XConfig) (l : Load Factory) (p q : PolicySet (badWorld ([], [])).L simpleStr),
    loadStages ((badWorld ([], [])).withDirs (fun s => if s = "p".toList then some (watchDir lsText) else none) []).env { regs := bootRegs } (setManifest demoManifest [] watchSysConfs) = .done l ∧
    p.decls = [lsDecls] ∧ q.texts = [catText] ∧
    let V := (badWorld ([], [])).withDirs (fun s => if s = "p".toList then some (watchDir lsText) else none) []
    ∃ tr mo y, OutReloadRun (V.setup c1 c2 x p) rfl (V.encode x) (Exporter.syslog (badWorld ([], [])).sends) ([], 0) (id : Str → Str) (compileRead (flatOps (badWorld ([], [])).L getMappers) simpleStr) (watchDir lsText) tr mo y ∧
      Waited y.1 ∧ driven tr = Processor.saneStream.map Msg.sf ∧
      ∃ ms, MessagesUnder (V.setup c1 c2 x p) PolicySetOf.decls (V.Line c1 c2 x p) [p, q] (eventsAfter [] Processor.saneStream) ms ∧ GetsThrough (badWorld ([], [])).sends 0 ms ((V.setup c1 c2 x p).outOf y.1).1 ((V.setup c1 c2 x p).outOf y.1).2 := by
  obtain ⟨c1, c2, c3, hm, hu, e1, e2, e3⟩ := watchSys_usual
  obtain ⟨s1, s2, s3, s6, s4, s5⟩ := watchSys_settings
  rw [← e2] at s1 s2 s3 s6
  rw [← e1] at s4
  rw [← e3] at s5
  obtain ⟨x, hx, hs⟩ := Option.map_eq_some_iff.1 s5
  simp only [Prod.mk.injEq] at hs
  obtain ⟨f1, f2, f3⟩ := hs
  obtain ⟨l, p, h1, -, h2, h3, ok, henc, -⟩ := hot_reload_syslog (C := Str) (badWorld ([], [])) (fun s => if s = "p".toList then some (watchDir lsText) else none) hm hu simple_rule
    (by rw [s1]; decide) s6 s3 (by rw [s2]; decide) hx (by unfold World.exports; rw [f1, f2]; rfl) f2 (fun a f hf => by rcases hf with hf | hf <;> cases hf) s4 Json.demo_ok Json.demo_version demo_names
    (by rw [if_pos s1]; rfl) (sole_policyFiles a_yaml lsText) (.cons ls_parses .nil) ls_acyclic
  obtain ⟨-, n, c, hc⟩ := policy_texts_compile (flatOps (badWorld ([], [])).L getMappers) simple_rule (.cons cat_parses .nil) cat_acyclic
  obtain ⟨⟨rd, hcs⟩, hr⟩ := Processor.reader_returns _ (Processor.older_parents_not_stuck _ Processor.sane_older) 10 (by change 7 ≤ 10; decide)
  obtain ⟨tr, mo, y, k1, k2, k3, -, ms, k4, k5⟩ := out_edit_takes_effect _ _ ok henc (syslog_delivers _ _ (badWorld ([], [])).sends) (by change (_ == _) = true; rw [s3]; rfl) rfl (id : Str → Str) a_yaml lsText catText
    (comp := compileRead (flatOps (badWorld ([], [])).L getMappers) simpleStr) (p := ⟨[catText], c, n, hc⟩) (compileRead_some.2 rfl) hr (by
      intro h
      have : (eventsAfter [] Processor.saneStream).length = 0 := by rw [h]; rfl
      revert this
      decide) (by change 7 ≤ 100000; decide)
  exact ⟨c1, c2, x, l, p, ⟨[catText], c, n, hc⟩, h1, h3, rfl, tr, mo, y, k1, k2, k3, ms, k4, (congrArg (fun n => GetsThrough (badWorld ([], [])).sends n ms _ _) f3).mp k5⟩

/-- The demo configuration with a monitor and JSON records written to a file three by three. -/
def watchFileConfs : List Pipeline.Conf := [demoConfs[0], watchConfs[1], demoConfs[2]]

def watchFileConfs' : List Pipeline.Conf := setManifest demoManifest [] watchFileConfs

theorem watchFile_usual : ∃ c1 c2 c3, setManifest demoManifest [] watchFileConfs = [c1, c2, c3] ∧ Usual c1 c2 c3 "sysflow".toList "flat".toList "evt".toList ∧
    c1 = watchFileConfs'[0]'(by decide +kernel) ∧ c2 = watchFileConfs'[1]'(by decide +kernel) ∧ c3 = watchFileConfs'[2]'(by decide +kernel) := by
  obtain ⟨c1, c2, c3, h1, h2, -⟩ := usual_manifest (c1 := watchFileConfs[0]) (c2 := watchFileConfs[1]) (c3 := watchFileConfs[2]) (a := "sysflow".toList) (b := "flat".toList) (d := "evt".toList)
    demoManifest []
    ⟨by decide +kernel, by decide +kernel, by decide +kernel, by decide +kernel, ⟨_, rfl, by decide +kernel⟩, ⟨_, rfl, by decide +kernel⟩, ⟨_, "flattenerchan".toList, rfl, by decide +kernel⟩,
      ⟨_, rfl, by decide +kernel⟩, ⟨_, "eventchan".toList, rfl, by decide +kernel⟩, by decide +kernel, by decide, by decide, by decide⟩
  have e : watchFileConfs' = [c1, c2, c3] := h1
  refine ⟨c1, c2, c3, h1, h2, ?_, ?_, ?_⟩ <;> simp only [e] <;> rfl

theorem watchFile_settings : (engineConf (watchFileConfs'[1]'(by decide +kernel))).policiesPath = "p".toList ∧ (engineConf (watchFileConfs'[1]'(by decide +kernel))).concurrency = 4 ∧
    (engineConf (watchFileConfs'[1]'(by decide +kernel))).monitor = .loc ∧ (engineConf (watchFileConfs'[1]'(by decide +kernel))).language = .falco ∧
    (createFlattenerConfig (Config.toConf (xconf (watchFileConfs'[0]'(by decide +kernel))))).1.filterOn = false ∧
    (createConfigX ⟨fun _ => none, fun _ => none⟩ (xconf (watchFileConfs'[2]'(by decide +kernel)))).map (fun x => (x.format, x.transport, x.eventBuffer)) = some (.json, .file, 3) := by
  decide +kernel

/-- With it the hypotheses of `hot_reload_kept` are met, and there is a run in which the policy file is edited from one program to another and the other policy is adopted. -/
example : ∃ (c1 c2 : Pipeline.Conf) (x : XConfig) (l : Load Factory) (p q : PolicySet (badWorld ([], [])).L simpleStr),
    loadStages ((badWorld ([], [])).withDirs (fun s => if s = "p".toList then some (watchDir lsText) else none) []).env { regs := bootRegs } (setManifest demoManifest [] watchFileConfs) = .done l ∧
    p.decls = [lsDecls] ∧ q.texts = [catText] ∧
    let V := (badWorld ([], [])).withDirs (fun s => if s = "p".toList then some (watchDir lsText) else none) []
    ∃ tr mo y, OutReloadRun (V.setup c1 c2 x p) rfl (V.encode x) (Exporter.fileTransport (badWorld ([], [])).writes) Exporter.newFile (id : Str → Str) (compileRead (flatOps (badWorld ([], [])).L getMappers) simpleStr) (watchDir lsText) tr mo y ∧
      Waited y.1 ∧ driven tr = Processor.saneStream.map Msg.sf ∧
      ∃ ms, MessagesUnder (V.setup c1 c2 x p) PolicySetOf.decls (V.Line c1 c2 x p) [p, q] (eventsAfter [] Processor.saneStream) ms ∧ ∃ fates, KeptOf (badWorld ([], [])).writes 3 ms ((V.setup c1 c2 x p).outOf y.1).contents ((V.setup c1 c2 x p).outOf y.1).writes fates := by
  obtain ⟨c1, c2, c3, hm, hu, e1, e2, e3⟩ := watchFile_usual
  obtain ⟨s1, s2, s3, s6, s4, s5⟩ := watchFile_settings
  rw [← e2] at s1 s2 s3 s6
  rw [← e1] at s4
  rw [← e3] at s5
  obtain ⟨x, hx, hs⟩ := Option.map_eq_some_iff.1 s5
  simp only [Prod.mk.injEq] at hs
  obtain ⟨f1, f2, f3⟩ := hs
  obtain ⟨l, p, h1, -, h2, h3, ok, henc, -⟩ := hot_reload_kept (C := Str) (badWorld ([], [])) (fun s => if s = "p".toList then some (watchDir lsText) else none) hm hu simple_rule
    (by rw [s1]; decide) s6 s3 (by rw [s2]; decide) hx (by unfold World.exports; rw [f1, f2]; rfl) f2 (fun a f hf => by rcases hf with hf | hf <;> cases hf) s4 Json.demo_ok Json.demo_version demo_names
    (by rw [if_pos s1]; rfl) (sole_policyFiles a_yaml lsText) (.cons ls_parses .nil) ls_acyclic
  obtain ⟨-, n, c, hc⟩ := policy_texts_compile (flatOps (badWorld ([], [])).L getMappers) simple_rule (.cons cat_parses .nil) cat_acyclic
  obtain ⟨⟨rd, hcs⟩, hr⟩ := Processor.reader_returns _ (Processor.older_parents_not_stuck _ Processor.sane_older) 10 (by change 7 ≤ 10; decide)
  obtain ⟨tr, mo, y, k1, k2, k3, -, ms, k4, k5⟩ := out_edit_takes_effect _ _ ok henc (file_delivers _ _ (badWorld ([], [])).writes) (by change (_ == _) = true; rw [s3]; rfl) rfl (id : Str → Str) a_yaml lsText catText
    (comp := compileRead (flatOps (badWorld ([], [])).L getMappers) simpleStr) (p := ⟨[catText], c, n, hc⟩) (compileRead_some.2 rfl) hr (by
      intro h
      have : (eventsAfter [] Processor.saneStream).length = 0 := by rw [h]; rfl
      revert this
      decide) (by change 7 ≤ 100000; decide)
  exact ⟨c1, c2, x, l, p, ⟨[catText], c, n, hc⟩, h1, h3, rfl, tr, mo, y, k1, k2, k3, ms, k4, (congrArg (fun n => ∃ fates, KeptOf (badWorld ([], [])).writes n ms _ _ fates) f3).mp k5⟩

end Verif.Whole
