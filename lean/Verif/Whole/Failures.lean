import Verif.Exporter.FileFailures
import Verif.Exporter.ElasticFailures
import Verif.Whole.Messages
/-
C106: the whole program when its destination fails at times: a log file that cannot always be written, an Elastic client whose calls fail.
Sources: /repo/core/exporter/transports/file.go:51-70, /repo/core/exporter/transports/elastic.go:81-139, and the sources of the whole program (Verif/Whole/Program.lean, Verif/Whole/Boot.lean)
-/
namespace Verif.Whole
open Verif.Decimal (Str)
open Verif.Exporter (Bytes KeptOf RequestsFor Fate)
open Verif.FlatRecord
open Verif.Policy
open Verif.Falco
open Verif.Processor (Rec HCall OlderParents)
open Verif.Flattener (FLib Known fields eventsAfter StoresEvent)
open Verif.Pipeline
open Verif.Pipeline.Process
open Verif.Pipeline.Drain (driven Exec Waited Net Comp sync engine exporter chain)
open Verif.Config (XConf XVal XConfig ConfEnv EngineConfig createConfigX createEngineConfig createFlattenerConfig engineInit)

variable {P : Type}

/-- **C106** File: when `Wait` returns, the file holds what is kept of messages complete for the events of the input. -/
theorem file_program (S : Setup P) (dss : P → List (List Decl)) (ok : S.Core dss) (hdedup : S.dedup = false) {enc : Msg → Option Exporter.Datum} {Line : List (List Decl) → Event → Bytes → Prop}
    (henc : Encodes S enc Line) (writes : Nat → Option Nat) {rs : List Rec} {rd : Processor.State} {cs : List HCall} (hrun : Processor.run false S.fuel .init rs = some (rd, cs))
    (tr : List (Drain.Obs Msg)) (s : Drain.St (S.outNet enc (Exporter.fileTransport writes) Exporter.newFile)) (h : Exec (S.outNet enc (Exporter.fileTransport writes) Exporter.newFile) tr s) (hw : Waited s)
    (hd : driven tr = rs.map Msg.sf) :
    ∃ ms fates, MessagesFor S dss Line (eventsAfter [] rs) ms ∧ KeptOf writes S.buffer ms (S.outOf s).contents (S.outOf s).writes fates := by
  obtain ⟨ms, es, h1, h2, -, h4, h5, h6⟩ := out_delivered S dss ok hdedup henc _ _ hrun tr s h hw hd
  obtain ⟨fates, hf⟩ := Exporter.file_kept enc writes S.buffer S.start es h5 h4
  refine ⟨ms, fates, h1, ?_⟩
  rw [h6, ← h2]
  exact hf

/-- **C106** Elastic: when `Wait` returns, the requests made are as they should be for documents complete for the events of the input. -/
theorem elastic_program (S : Setup P) (E : EcsSide S) (dss : P → List (List Decl)) (ok : S.Core dss) (hn : KindNames S.L) (hdedup : S.dedup = false) (calls : Nat → Bool)
    {rs : List Rec} {rd : Processor.State} {cs : List HCall} (hrun : Processor.run false S.fuel .init rs = some (rd, cs))
    (tr : List (Drain.Obs Msg)) (s : Drain.St (E.elasticWith calls)) (h : Exec (E.elasticWith calls) tr s) (hw : Waited s) (hd : driven tr = rs.map Msg.sf) :
    ∃ docs parts, SentFor S E dss (eventsAfter [] rs) docs ∧ RequestsFor calls S.buffer docs (E.bulkOf s).ops (E.bulkOf s).calls parts := by
  obtain ⟨h1, h2⟩ := reader_all S hdedup rs rd cs hrun
  obtain ⟨docs, parts, h3, h4⟩ := elastic_lossy S E dss ok hn calls tr s h hw _ _ (by rw [hd]; exact h1) h2
  exact ⟨docs, parts, h4, h3⟩

theorem usual_failing_file (W : World P) (c1 c2 : Pipeline.Conf) {x : XConfig} {p : P} (ht : x.transport = .file) :
    chain [sync (readerStep W.F W.fuel W.clock) (W.setup c1 c2 x p).reader0 1, engine (W.setup c1 c2 x p).cfg p W.start W.pending, W.exporterComp x] chanSize =
      (W.setup c1 c2 x p).outNet (W.encode x) (Exporter.fileTransport W.writes) Exporter.newFile := by
  have e3 : W.exporterComp x = exporter (Exporter.allOrNone (W.encode x)) (Exporter.fileTransport W.writes) x.eventBuffer Exporter.newFile W.start := by
    unfold World.exporterComp
    rw [ht]
  rw [e3]
  rfl

theorem usual_failing_elastic (W : World P) (c1 c2 : Pipeline.Conf) {x : XConfig} {p : P} (hf : x.format = .ecs) (ht : x.transport = .es) :
    chain [sync (readerStep W.F W.fuel W.clock) (W.setup c1 c2 x p).reader0 1, engine (W.setup c1 c2 x p).cfg p W.start W.pending, W.exporterComp x] chanSize =
      (W.ecsSide c1 c2 x p).elasticWith W.sends := by
  have e3 : W.exporterComp x = exporter (Exporter.allOrNone (W.ecsSide c1 c2 x p).toElastic) (Exporter.elastic W.sends) x.eventBuffer ⟨[], 0⟩ W.start := by
    unfold World.exporterComp
    rw [ht, (ecs_encode W c1 c2 hf (p := p)).2]
  rw [e3]
  rfl

/-- **C106** From the configuration to a file that cannot always be written: the program is loaded, and every run over files that can be opened, with records whose process parents are older, ends without an
error; the file holds what is kept of messages complete for the events of the files. -/
theorem boot_failing_file_run (W : World P) {m : Manifest} {env : List Str} {cs : List Pipeline.Conf} {c1 c2 c3 : Pipeline.Conf} {a b d : Str} (hm : setManifest m env cs = [c1, c2, c3])
    (u : Usual c1 c2 c3 a b d) {x : XConfig} {p : P} (h : W.Ready c2 c3 x p) (ht : x.transport = .file) {dss : P → List (List Decl)} (ok : W.Ok m c1 c2 dss) (hn : KindNames W.L) :
    ∃ l, loadStages W.env { regs := bootRegs } (setManifest m env cs) = .done l ∧
      netOf W.comp (setManifest m env cs) l chanSize = (W.setup c1 c2 x p).outNet (W.encode x) (Exporter.fileTransport W.writes) Exporter.newFile ∧
      ∀ fs : List (FileData Rec), (∀ f ∈ fs, f ≠ .noOpen) → OlderParents (recordsIn fs) → (recordsIn fs).length ≤ W.fuel →
      ∀ (tr : List (Drain.Obs Msg)) (s : PSt Rec ((W.setup c1 c2 x p).outNet (W.encode x) (Exporter.fileTransport W.writes) Exporter.newFile)),
        PExec Msg.sf _ (fileDriver (fun _ => true) (some fs)) tr s → ∀ e, s.status = some e →
        e = false ∧ ∃ ms fates, MessagesFor (W.setup c1 c2 x p) dss (W.Line c1 c2 x p) (eventsAfter [] (recordsIn fs)) ms ∧
          KeptOf W.writes x.eventBuffer ms ((W.setup c1 c2 x p).outOf s.net).contents ((W.setup c1 c2 x p).outOf s.net).writes fates := by
  obtain ⟨l, h1, -, -, h4⟩ := usual_boots W u h
  have hv := build_version W hm u h.conf
  have hok := setup_ok W ok hv p
  rw [hm]
  refine ⟨l, h1, h4.trans (usual_failing_file W c1 c2 ht), ?_⟩
  intro fs hopen hold hfuel tr s hx e he
  obtain ⟨k1, k2, k3, k4, rd, cs', k5⟩ := out_run _ hok.workers hok.cap fs hopen hold hfuel hx he
  exact ⟨k1, file_program _ dss hok.toCore hok.dedup (world_encodes W ok hv p hn) W.writes k5 tr s.net k2 k3 k4⟩

/-- **C106** From the configuration to an Elastic client whose calls may fail. -/
theorem boot_failing_elastic_run (W : World P) {m : Manifest} {env : List Str} {cs : List Pipeline.Conf} {c1 c2 c3 : Pipeline.Conf} {a b d : Str} (hm : setManifest m env cs = [c1, c2, c3])
    (u : Usual c1 c2 c3 a b d) {x : XConfig} {p : P} (h : W.Ready c2 c3 x p) (hf : x.format = .ecs) (ht : x.transport = .es) {dss : P → List (List Decl)} (ok : W.Ok m c1 c2 dss) (hn : KindNames W.L) :
    ∃ l, loadStages W.env { regs := bootRegs } (setManifest m env cs) = .done l ∧ netOf W.comp (setManifest m env cs) l chanSize = (W.ecsSide c1 c2 x p).elasticWith W.sends ∧
      ∀ fs : List (FileData Rec), (∀ f ∈ fs, f ≠ .noOpen) → OlderParents (recordsIn fs) → (recordsIn fs).length ≤ W.fuel →
      ∀ (tr : List (Drain.Obs Msg)) (s : PSt Rec ((W.ecsSide c1 c2 x p).elasticWith W.sends)), PExec Msg.sf _ (fileDriver (fun _ => true) (some fs)) tr s → ∀ e, s.status = some e →
        e = false ∧ ∃ docs parts, SentFor (W.setup c1 c2 x p) (W.ecsSide c1 c2 x p) dss (eventsAfter [] (recordsIn fs)) docs ∧
          RequestsFor W.sends x.eventBuffer docs ((W.ecsSide c1 c2 x p).bulkOf s.net).ops ((W.ecsSide c1 c2 x p).bulkOf s.net).calls parts := by
  obtain ⟨l, h1, -, -, h4⟩ := usual_boots W u h
  have hv := build_version W hm u h.conf
  have hok := setup_ok W ok hv p
  rw [hm]
  refine ⟨l, h1, h4.trans (usual_failing_elastic W c1 c2 hf ht), ?_⟩
  intro fs hopen hold hfuel tr s hx e he
  obtain ⟨⟨rd, cs'⟩, k5⟩ := Processor.reader_returns _ (Processor.older_parents_not_stuck _ hold) W.fuel hfuel
  obtain ⟨body, b1, b2, -, -, -⟩ := file_driver_delivers (fun _ => true) (fun _ h => h) fs hopen
  obtain ⟨hT, hC⟩ := netWith_ok (W.setup c1 c2 x p) (Exporter.allOrNone (W.ecsSide c1 c2 x p).toElastic) (Exporter.elastic W.sends) ⟨[], 0⟩ hok.workers hok.cap
  obtain ⟨k1, k2, k3, k4⟩ := run_returned hT hC ⟨b1, b2⟩ hx he
  have : Pipeline.sent (fileDriver (fun _ => true) (some fs)) = recordsIn fs := file_driver_all fs hopen
  rw [this] at k4
  exact ⟨k1, elastic_program _ _ dss hok.toCore hn hok.dedup W.sends k5 tr s.net k2 k3 k4⟩

/-! ### Examples -/

/-- The demo world, whose log file fails every third write after 7 bytes, and its Elastic client every second call. -/
def badWorld (code : List (Rule Record) × List (Filter Record)) : World Unit :=
  { demoWorld code with sends := fun i => i % 2 == 0, writes := fun i => if i % 3 = 2 then some 7 else none }

/-- The demo configuration with ECS documents sent to Elastic two by two. -/
def elasticConfs : List Pipeline.Conf :=
  [demoConfs[0], demoConfs[1],
   [(kProc, .str "exporter".toList), (kIn, .str "evt eventchan".toList), ("export".toList, .str "es".toList), ("format".toList, .str "ecs".toList), ("buffer".toList, .str "2".toList),
    ("es.addresses".toList, .str "h".toList), ("es.index".toList, .str "i".toList), ("es.username".toList, .str "u".toList), ("es.password".toList, .str "p".toList),
    ("kafka.topic".toList, .str "t".toList), ("kafka.config".toList, .map [("bootstrap.servers".toList, .str "h".toList)])]]

def elasticConfs' : List Pipeline.Conf := setManifest demoManifest [] elasticConfs

theorem elastic_usual : ∃ c1 c2 c3, setManifest demoManifest [] elasticConfs = [c1, c2, c3] ∧ Usual c1 c2 c3 "sysflow".toList "flat".toList "evt".toList ∧
    c1 = elasticConfs'[0]'(by decide +kernel) ∧ c2 = elasticConfs'[1]'(by decide +kernel) ∧ c3 = elasticConfs'[2]'(by decide +kernel) := by
  obtain ⟨c1, c2, c3, h1, h2, -⟩ := usual_manifest (c1 := elasticConfs[0]) (c2 := elasticConfs[1]) (c3 := elasticConfs[2]) (a := "sysflow".toList) (b := "flat".toList) (d := "evt".toList)
    demoManifest []
    ⟨by decide +kernel, by decide +kernel, by decide +kernel, by decide +kernel, ⟨_, rfl, by decide +kernel⟩, ⟨_, rfl, by decide +kernel⟩, ⟨_, "flattenerchan".toList, rfl, by decide +kernel⟩,
      ⟨_, rfl, by decide +kernel⟩, ⟨_, "eventchan".toList, rfl, by decide +kernel⟩, by decide +kernel, by decide, by decide, by decide⟩
  have e : elasticConfs' = [c1, c2, c3] := h1
  refine ⟨c1, c2, c3, h1, h2, ?_, ?_, ?_⟩ <;> simp only [e] <;> rfl

theorem elastic_settings : (engineConf (elasticConfs'[1]'(by decide +kernel))).policiesPath = "p".toList ∧ (engineConf (elasticConfs'[1]'(by decide +kernel))).concurrency = 4 ∧
    (createFlattenerConfig (Config.toConf (xconf (elasticConfs'[0]'(by decide +kernel))))).1.filterOn = false ∧
    (createConfigX ⟨fun _ => none, fun _ => none⟩ (xconf (elasticConfs'[2]'(by decide +kernel)))).map (fun x => (x.format, x.transport, x.eventBuffer)) = some (.ecs, .es, 2) := by
  decide +kernel

/-- The hypotheses of `boot_failing_elastic_run` are met, with every second library call failing. -/
example : ∃ code c1 c2 c3 x l tr, loadStages (badWorld code).env { regs := bootRegs } (setManifest demoManifest [] elasticConfs) = .done l ∧ setManifest demoManifest [] elasticConfs = [c1, c2, c3] ∧
    ∃ s : PSt Rec (((badWorld code).ecsSide c1 c2 x ()).elasticWith (badWorld code).sends),
    PExec Msg.sf _ (fileDriver (fun _ => true) (some [.data (Processor.saneStream.map .record)])) tr s ∧ s.status = some false ∧
    ∃ docs parts, SentFor ((badWorld code).setup c1 c2 x ()) ((badWorld code).ecsSide c1 c2 x ()) (fun _ => [lsDecls]) (eventsAfter [] Processor.saneStream) docs ∧
      RequestsFor (fun i => i % 2 == 0) 2 docs (((badWorld code).ecsSide c1 c2 x ()).bulkOf s.net).ops (((badWorld code).ecsSide c1 c2 x ()).bulkOf s.net).calls parts := by
  obtain ⟨k, rules, filters, hcomp, _⟩ := policy_texts_to_alerts demoLib simple_rule [lsText] [lsDecls] (.cons ls_parses .nil) ls_acyclic
  obtain ⟨c1, c2, c3, hm, hu, e1, e2, e3⟩ := elastic_usual
  obtain ⟨s1, s2, s4, s5⟩ := elastic_settings
  rw [← e2] at s1 s2
  rw [← e1] at s4
  rw [← e3] at s5
  obtain ⟨x, hx, hs⟩ := Option.map_eq_some_iff.1 s5
  simp only [Prod.mk.injEq] at hs
  obtain ⟨f1, f2, f3⟩ := hs
  have hready : (badWorld (rules, filters)).Ready c2 c3 x () := by
    refine ⟨by rw [s1]; decide, ?_, by rw [s2]; decide, hx, ?_⟩
    · change (if (engineConf c2).policiesPath = "p".toList then some () else none) = _
      rw [if_pos s1]
    · unfold World.exports
      rw [f1, f2]
      rfl
  have hok : (badWorld (rules, filters)).Ok demoManifest c1 c2 (fun _ => [lsDecls]) := by
    refine ⟨simple_rule, fun _ => .cons ls_parses .nil, fun _ => ls_acyclic, fun _ => ⟨k, hcomp⟩, ?_, by rw [s2]; decide, s4, Json.demo_ok, ?_⟩
    · intro a f hf
      rcases hf with hf | hf <;> cases hf
    · exact Json.demo_version
  obtain ⟨l, h1, h2, h3⟩ := boot_failing_elastic_run (badWorld (rules, filters)) hm hu hready f1 f2 hok demo_names
  have hopen : ∀ f ∈ [FileData.data (Processor.saneStream.map .record)], f ≠ .noOpen := by
    intro f hf
    rw [List.mem_singleton.1 hf]; intro h; cases h
  obtain ⟨hT, hC⟩ := netWith_ok ((badWorld (rules, filters)).setup c1 c2 x ()) (Exporter.allOrNone ((badWorld (rules, filters)).ecsSide c1 c2 x ()).toElastic) (Exporter.elastic (badWorld (rules, filters)).sends) ⟨[], 0⟩
    (by change 0 < (engineConf c2).concurrency.toNat; rw [s2]; decide) (by change 0 < 100000; decide)
  obtain ⟨body, b1, b2, _⟩ := file_driver_delivers (fun _ => true) (fun _ h => h) _ hopen
  obtain ⟨tr, s, hx, he⟩ := complete_run hT hC ⟨b1, b2⟩ Msg.sf
  obtain ⟨-, docs, parts, g1, g2⟩ := h3 _ hopen (by change OlderParents Processor.saneStream; exact Processor.sane_older) (by change 7 ≤ 10; decide) tr s hx _ he
  rw [f3] at g2
  exact ⟨(rules, filters), c1, c2, c3, x, l, tr, h1, hm, s, hx, he, docs, parts, g1, g2⟩

/-- The hypotheses of `boot_failing_file_run` are met by the same world. -/
example : ∃ code c1 c2 c3 x l tr, loadStages (badWorld code).env { regs := bootRegs } (setManifest demoManifest ["CLUSTER_ID=x".toList] demoConfs) = .done l ∧ setManifest demoManifest ["CLUSTER_ID=x".toList] demoConfs = [c1, c2, c3] ∧
    ∃ s : PSt Rec (((badWorld code).setup c1 c2 x ()).outNet ((badWorld code).encode x) (Exporter.fileTransport (badWorld code).writes) Exporter.newFile),
    PExec Msg.sf _ (fileDriver (fun _ => true) (some [.data (Processor.saneStream.map .record)])) tr s ∧ s.status = some false ∧
    ∃ ms fates, MessagesFor ((badWorld code).setup c1 c2 x ()) (fun _ => [lsDecls]) ((badWorld code).Line c1 c2 x ()) (eventsAfter [] Processor.saneStream) ms ∧
      KeptOf (badWorld code).writes x.eventBuffer ms (((badWorld code).setup c1 c2 x ()).outOf s.net).contents (((badWorld code).setup c1 c2 x ()).outOf s.net).writes fates := by
  obtain ⟨k, rules, filters, hcomp, _⟩ := policy_texts_to_alerts demoLib simple_rule [lsText] [lsDecls] (.cons ls_parses .nil) ls_acyclic
  obtain ⟨c1, c2, c3, hm, hu, e1, e2, e3⟩ := demo_usual
  obtain ⟨s1, s2, -, s4, s5⟩ := demo_settings
  rw [← e2] at s1 s2
  rw [← e1] at s4
  rw [← e3] at s5
  obtain ⟨x, hx, hs⟩ := Option.map_eq_some_iff.1 s5
  simp only [Prod.mk.injEq] at hs
  obtain ⟨f1, f2, f3⟩ := hs
  have hready : (badWorld (rules, filters)).Ready c2 c3 x () := by
    refine ⟨by rw [s1]; decide, ?_, by rw [s2]; decide, hx, ?_⟩
    · change (if (engineConf c2).policiesPath = "p".toList then some () else none) = _
      rw [if_pos s1]
    · unfold World.exports
      rw [f1, f2]
      rfl
  have hok : (badWorld (rules, filters)).Ok demoManifest c1 c2 (fun _ => [lsDecls]) := by
    refine ⟨simple_rule, fun _ => .cons ls_parses .nil, fun _ => ls_acyclic, fun _ => ⟨k, hcomp⟩, ?_, by rw [s2]; decide, s4, Json.demo_ok, ?_⟩
    · intro a f hf
      rcases hf with hf | hf <;> cases hf
    · exact Json.demo_version
  obtain ⟨l, h1, h2, h3⟩ := boot_failing_file_run (badWorld (rules, filters)) hm hu hready f2 hok demo_names
  have hopen : ∀ f ∈ [FileData.data (Processor.saneStream.map .record)], f ≠ .noOpen := by
    intro f hf
    rw [List.mem_singleton.1 hf]; intro h; cases h
  obtain ⟨hT, hC⟩ := netWith_ok ((badWorld (rules, filters)).setup c1 c2 x ()) (Exporter.allOrNone ((badWorld (rules, filters)).encode x)) (Exporter.fileTransport (badWorld (rules, filters)).writes) Exporter.newFile
    (by change 0 < (engineConf c2).concurrency.toNat; rw [s2]; decide) (by change 0 < 100000; decide)
  obtain ⟨body, b1, b2, _⟩ := file_driver_delivers (fun _ => true) (fun _ h => h) _ hopen
  obtain ⟨tr, s, hx, he⟩ := complete_run hT hC ⟨b1, b2⟩ Msg.sf
  obtain ⟨-, docs, parts, g1, g2⟩ := h3 _ hopen (by change OlderParents Processor.saneStream; exact Processor.sane_older) (by change 7 ≤ 10; decide) tr s hx _ he
  exact ⟨(rules, filters), c1, c2, c3, x, l, tr, h1, hm, s, hx, he, docs, parts, g1, g2⟩

end Verif.Whole
