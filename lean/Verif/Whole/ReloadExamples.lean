import Verif.Whole.Reload
/-! C103: the hypotheses of `hot_reload` are met. -/
namespace Verif.Whole
open Verif.Decimal (Str)
open Verif.Falco
open Verif.FlatRecord
open Verif.Pipeline
open Verif.Processor (Rec)
open Verif.Pipeline.Drain (driven rootClosed Waited)
open Verif.Config (XConfig createConfigX createFlattenerConfig)

/-- The configuration of `demoConfs`, with the local policy monitor. -/
def watchConfs : List Pipeline.Conf :=
  [demoConfs[0],
   [(kProc, .str "policyengine".toList), (kIn, .str "flat flattenerchan".toList), (kOut, .arr [some "evt eventchan".toList]), ("policies".toList, .str "p".toList), ("concurrency".toList, .str "4".toList),
    ("monitor".toList, .str "local".toList)],
   demoConfs[2]]

def watchConfs' : List Pipeline.Conf := setManifest demoManifest ["CLUSTER_ID=x".toList] watchConfs

theorem watch_usual : ∃ c1 c2 c3, setManifest demoManifest ["CLUSTER_ID=x".toList] watchConfs = [c1, c2, c3] ∧ Usual c1 c2 c3 "sysflow".toList "flat".toList "evt".toList ∧
    c1 = watchConfs'[0]'(by decide +kernel) ∧ c2 = watchConfs'[1]'(by decide +kernel) ∧ c3 = watchConfs'[2]'(by decide +kernel) := by
  obtain ⟨c1, c2, c3, h1, h2, -⟩ := usual_manifest (c1 := watchConfs[0]) (c2 := watchConfs[1]) (c3 := watchConfs[2]) (a := "sysflow".toList) (b := "flat".toList) (d := "evt".toList)
    demoManifest ["CLUSTER_ID=x".toList]
    ⟨by decide +kernel, by decide +kernel, by decide +kernel, by decide +kernel, ⟨_, rfl, by decide +kernel⟩, ⟨_, rfl, by decide +kernel⟩, ⟨_, "flattenerchan".toList, rfl, by decide +kernel⟩,
      ⟨_, rfl, by decide +kernel⟩, ⟨_, "eventchan".toList, rfl, by decide +kernel⟩, by decide +kernel, by decide, by decide, by decide⟩
  have e : watchConfs' = [c1, c2, c3] := h1
  refine ⟨c1, c2, c3, h1, h2, ?_, ?_, ?_⟩ <;> simp only [e] <;> rfl

theorem watch_settings : (engineConf (watchConfs'[1]'(by decide +kernel))).policiesPath = "p".toList ∧ (engineConf (watchConfs'[1]'(by decide +kernel))).concurrency = 4 ∧
    (engineConf (watchConfs'[1]'(by decide +kernel))).monitor = .loc ∧ (engineConf (watchConfs'[1]'(by decide +kernel))).language = .falco ∧
    (createFlattenerConfig (Config.toConf (xconf (watchConfs'[0]'(by decide +kernel))))).1.filterOn = false ∧
    (createConfigX ⟨fun _ => none, fun _ => none⟩ (xconf (watchConfs'[2]'(by decide +kernel)))).map (fun x => (x.format, x.transport, x.eventBuffer)) = some (.json, .file, 3) := by
  decide +kernel

/-- The directory: one policy file. -/
def watchDir (t : Str) : List (Monitor.FileEnt Str) := [⟨"p/a.yaml".toList, 0, some t⟩]

theorem watch_policyFiles : PolicyFiles true (watchDir lsText) [lsText] := by
  refine ⟨List.cons_ne_nil _ _, ?_, fun _ => ⟨_, List.mem_cons_self, rfl, by decide +kernel⟩⟩
  have e : (watchDir lsText).filter (fun f => decide (".yaml".toList <:+ f.path ∨ ".yml".toList <:+ f.path)) = watchDir lsText := by
    unfold watchDir
    rw [List.filter_cons_of_pos (by decide +kernel)]
    rfl
  rw [e]
  rfl

open Classical in
/-- The demo configuration with a monitor starts with the policies of the directory; the monitor starts, the directory is watched and its file gets another text; the driver sends the records; the run ends; the log is complete. -/
example (t : Str) : ∃ (l : Load Factory) (S : Setup (PolicySet (demoWorld ([], [])).L simpleStr)) (hp : S.pending = []),
    loadStages ((demoWorld ([], [])).withDirs (fun s => if s = "p".toList then some (watchDir lsText) else none) []).env { regs := bootRegs }
      (setManifest demoManifest ["CLUSTER_ID=x".toList] watchConfs) = .done l ∧ S.policies.decls = [lsDecls] ∧
    ∃ tr mo y, ReloadRun S hp (id : Str → Str) (compileRead (flatOps (demoWorld ([], [])).L getMappers) simpleStr) (watchDir lsText) tr mo y ∧ Waited y.1 ∧ driven tr = Processor.saneStream.map Msg.sf ∧ y.2.dir = watchDir t ∧
      ∃ as, LoggedUnder S PolicySetOf.decls (S.policies :: as) Processor.saneStream (S.log y.1) := by
  obtain ⟨c1, c2, c3, hm, hu, e1, e2, e3⟩ := watch_usual
  obtain ⟨s1, s2, s3, s6, s4, s5⟩ := watch_settings
  rw [← e2] at s1 s2 s3 s6
  rw [← e1] at s4
  rw [← e3] at s5
  obtain ⟨x, hx, hs⟩ := Option.map_eq_some_iff.1 s5
  simp only [Prod.mk.injEq] at hs
  obtain ⟨f1, f2, f3⟩ := hs
  obtain ⟨l, S, hp, h1, hnet, -, h2, -, hok, -, -, h3⟩ := hot_reload (C := Str) (demoWorld ([], [])) (fun s => if s = "p".toList then some (watchDir lsText) else none) hm hu simple_rule
    (by rw [s1]; decide) s6 s3 (by rw [s2]; decide) hx rfl f1 f2 (fun _ => rfl) (fun a f hf => by rcases hf with hf | hf <;> cases hf) s4 Json.demo_ok Json.demo_version
    (by rw [if_pos s1]) watch_policyFiles (.cons ls_parses .nil) ls_acyclic
  have e0 : ReloadRun S hp (id : Str → Str) (compileRead (flatOps (demoWorld ([], [])).L getMappers) simpleStr) (watchDir lsText) [] [] (Drain.St.start S.net, Monitor.Live.init (watchDir lsText)) := .nil
  have hls : ∀ l ∈ ([.start, .add, .change (watchDir t) [⟨"p/a.yaml".toList, 2⟩]] : List (Monitor.Live.Label Str)), Monitor.Joint.shared l = false := by
    intro l hl
    simp only [List.mem_cons, List.not_mem_nil, or_false] at hl
    rcases hl with rfl | rfl | rfl <;> rfl
  obtain ⟨t1, x1, e1, n1, b1, k1, d1, -, -⟩ := Reload.lift_run e0 rfl hls rfl
  have hbuf : ∀ c, x1.buf c = [] := fun c => by rw [b1]; rfl
  have hcl : ∀ c, x1.closed c = false := fun c => by rw [k1]; rfl
  obtain ⟨t2, ms2, x2, e2, r2, d2, g2⟩ := Reload.drive_and_close e1 n1 (hcl _) (Processor.saneStream.map Msg.sf) (by rw [hbuf]; refine Nat.le_trans ?_ (Nat.le_of_eq (congrArg Drain.Net.cap hnet)); change 0 + 7 ≤ 100000; decide)
  obtain ⟨a1, a2⟩ := h3 (id : Str → Str) Processor.saneStream Processor.sane_older (by change 7 ≤ 10; decide) _ _ _ e2
  obtain ⟨t3, ms3, y, e4, w4, d4, g4, -⟩ := a2 r2
  have hdr : driven t3 = Processor.saneStream.map Msg.sf := by rw [d4, d2, List.nil_append, d1]; rfl
  obtain ⟨as, ha, -⟩ := (h3 (id : Str → Str) Processor.saneStream Processor.sane_older (by change 7 ≤ 10; decide) _ _ _ e4).1 w4 hdr
  exact ⟨l, S, hp, h1, h2, t3, _, y, e4, w4, hdr, g4.trans (g2.trans rfl), as, ha⟩

end Verif.Whole
