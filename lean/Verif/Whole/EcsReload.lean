import Verif.Whole.ReloadEffect
import Verif.Whole.Failures
/-
C122: policies reloaded while ECS documents are sent to Elastic.
Sources: /repo/core/policyengine/policyengine.go:76-206, 221-234, /repo/core/policyengine/monitor/localpolicymonitor.go:51-231, /repo/core/exporter/transports/elastic.go:60-139, and the sources of the
whole program (Verif/Whole/Program.lean, Verif/Whole/Boot.lean)
-/
namespace Verif.Whole
open Verif.Decimal (Str)
open Verif.Exporter (Bytes RequestsFor)
open Verif.FlatRecord
open Verif.Policy
open Verif.Falco
open Verif.Processor (Rec HCall OlderParents)
open Verif.Flattener (eventsAfter StoresEvent)
open Verif.Pipeline
open Verif.Pipeline.Drain (driven rootClosed Waited)
open Verif.Config (XConf XVal XConfig ConfEnv EngineConfig createConfigX createEngineConfig createFlattenerConfig engineInit)

variable {P : Type}

/-! ### Model -/

/-- Runs of the whole program with ECS documents sent to Elastic, `calls` saying which calls of its client succeed, beside a policy directory, at first `d`, that changes at any time, and its monitor. -/
abbrev EcsSide.ReloadRun {C : Type} [DecidableEq C] {S : Setup P} (E : EcsSide S) (calls : Nat → Bool) (hp : S.pending = []) (sha : Str → C) (comp : List (Str × Option Str) → Option P)
    (d : List (Monitor.FileEnt Str)) :=
  Reload.Exec (S.engineIn hp (Exporter.allOrNone E.toElastic) (Exporter.elastic calls) ⟨[], 0⟩) sha comp d

/-! ### Proofs -/

/-- What the exporter, whatever it is, has been given when `Wait` returns, beside a changing policy directory. -/
theorem reload_delivered {C X D : Type} [DecidableEq C] (S : Setup P) (hwork : 0 < S.workers) (hcap : 0 < S.cap) (hdedup : S.dedup = false) (Want : P → Event → Prop) (Alert : P → Event → Msg → Prop)
    (hstep : ∀ p x fr, StoresEvent S.F x fr → (¬ Want p x → S.proc p (.flat fr) = none) ∧ (Want p x → ∃ m, S.proc p (.flat fr) = some m ∧ Alert p x m))
    (cd : Exporter.Codec Msg D) (T : Exporter.Transport X D) (x0 : X) (hp : S.pending = []) {sha : Str → C} {comp : List (Str × Option Str) → Option P}
    {d : List (Monitor.FileEnt Str)} {rs : List Rec} {rd : Processor.State} {cs : List HCall} (hrun : Processor.run false S.fuel .init rs = some (rd, cs))
    {tr : List (Drain.Obs Msg)} {mo : List (Monitor.Live.Obs Str P)} {x : Drain.St (S.netWith cd T x0) × Monitor.Live.LSt Str C P} (h : Reload.Exec (S.engineIn hp cd T x0) sha comp d tr mo x)
    (hw : Waited x.1) (hd : driven tr = rs.map Msg.sf) :
    ∃ (as : List P) (gs : List (Handled P)) (es : List (Exporter.Ev Msg)), gs.map Handled.pol = S.policies :: as ∧ gs.flatMap Handled.events = eventsAfter [] rs ∧
      gs.flatMap Handled.alerts = Exporter.received es ∧ Exporter.closed es = true ∧
      (show Exporter.State X Msg D × Bool from x.1.st 2).1 = Exporter.run cd T S.buffer (Exporter.init x0 S.start) es ∧ (∀ g ∈ gs, g.As S Want Alert) ∧
      as ++ x.2.chan = Monitor.Live.pushed mo ∧
      ∀ p ∈ as, ∃ got, Monitor.Live.Obs.attempted got (some p) true ∈ mo ∧ comp got = some p ∧ ∀ f v, (f, v) ∈ got → Reload.PolicyName f ∧ ∃ e ∈ Reload.dirsOf d mo, v = (Monitor.Live.look e f).join := by
  obtain ⟨hm, hc, tr1, h1, h2, h3, h4⟩ := Reload.run_engine h
  obtain ⟨k1, k2⟩ := reader_all S hdedup rs rd cs hrun
  have hx : Engine.Swap.Exec S.cfg S.policies S.start S.pending tr1 (show Engine.Swap.St P Msg from x.1.st 1) := by rw [hp]; exact h1
  have hdone : Engine.Swap.taken (show Engine.Swap.St P Msg from x.1.st 1).phase = [] := by
    have hw1 : Drain.phaseReturned (show Engine.Swap.St P Msg from x.1.st 1).phase = true := hw 1 (show 1 < 3 by decide)
    revert hw1
    generalize (show Engine.Swap.St P Msg from x.1.st 1).phase = ph
    cases ph <;> intro h <;> first | rfl | cases h
  have hall : Engine.Swap.adoptions tr1 ++ x.2.chan = Monitor.Live.pushed mo := by
    rw [← h4, hc]
    change _ = _ ++ Engine.Swap.taken (show Engine.Swap.St P Msg from x.1.st 1).phase ++ _
    rw [hdone, List.append_nil]
  obtain ⟨gs, es, g1, g2, g3, g4, g5, g6⟩ := alerts_delivered_along S hwork hcap Want Alert hstep cd T x0 tr x.1 (Reload.run_net h) hw hx h2 (h3 0) _ _ (by rw [hd]; exact k1) k2
  exact ⟨_, gs, es, g1, g2, g3, g4, g5, g6, hall, fun p hpa => Reload.pushed_compiled hm (by rw [← hall]; exact List.mem_append_left _ hpa)⟩

/-- **C122** Runs with ECS documents sent to Elastic beside a changing policy directory. When `Wait` returns, what the client has been asked to do is what it is asked (C106) for documents that are complete
under the first policies and then those adopted; those adopted are the first of those pushed by the monitor, all of them if none is left waiting; and each of these is what the compiler made of files read,
with contents that the directory's files had at some time. -/
theorem reload_elastic {C : Type} [DecidableEq C] (S : Setup P) (E : EcsSide S) (dss : P → List (List Decl)) (ok : S.Ok dss) (hn : KindNames S.L) (calls : Nat → Bool) (hp : S.pending = [])
    {sha : Str → C} {comp : List (Str × Option Str) → Option P} {d : List (Monitor.FileEnt Str)} {rs : List Rec} {rd : Processor.State} {cs : List HCall}
    (hrun : Processor.run false S.fuel .init rs = some (rd, cs)) {tr : List (Drain.Obs Msg)} {mo : List (Monitor.Live.Obs Str P)} {x : Drain.St (E.elasticWith calls) × Monitor.Live.LSt Str C P}
    (h : E.ReloadRun calls hp sha comp d tr mo x) (hw : Waited x.1) (hd : driven tr = rs.map Msg.sf) :
    ∃ as docs parts, SentUnder S E dss (S.policies :: as) (eventsAfter [] rs) docs ∧ RequestsFor calls S.buffer docs (E.bulkOf x.1).ops (E.bulkOf x.1).calls parts ∧
      as ++ x.2.chan = Monitor.Live.pushed mo ∧
      ∀ p ∈ as, ∃ got, Monitor.Live.Obs.attempted got (some p) true ∈ mo ∧ comp got = some p ∧ ∀ f v, (f, v) ∈ got → Reload.PolicyName f ∧ ∃ e ∈ Reload.dirsOf d mo, v = (Monitor.Live.look e f).join := by
  obtain ⟨as, gs, es, g1, g2, g3, g4, g5, g6, g7, g8⟩ := reload_delivered S ok.workers ok.cap ok.dedup _ _ (engine_step S dss ok.toCore) _ _ _ hp hrun h hw hd
  obtain ⟨docs, parts, h1, h2⟩ := elastic_of_alerts S E dss hn calls x.1 g1 g2 g3 g4 g5 g6
  exact ⟨as, docs, parts, h2, h1, g7, g8⟩

/-- What complete documents mean for an index (`index_as`), under Falco policies. -/
theorem index_under (S : Setup P) (E : EcsSide S) (dss : P → List (List Decl)) {pols : List P} {evs : List Event} {bulks : List (List (Bytes × Bytes))} (h : SentUnder S E dss pols evs bulks.flatten)
    (index : List (Bytes × Bytes)) (hindex : (index.map (·.1)).Nodup) :
    ∃ ss : List (P × List Event), ss.map Prod.fst = pols ∧ ss.flatMap Prod.snd = evs ∧ ∀ final, Exporter.Arrives index bulks final →
      (final.map (·.1)).Nodup ∧ (∀ x ∈ index, x ∈ final) ∧
      (∀ d ∈ final, d ∈ index ∨ ∃ g ∈ ss, ∃ x ∈ g.2, Logged S (dss g.1) x ∧ DocFor S E (dss g.1) x d.1 d.2) ∧
      ∀ g ∈ ss, ∀ x ∈ g.2, Logged S (dss g.1) x → ∃ id text, DocFor S E (dss g.1) x id text ∧ id ∈ final.map (·.1) :=
  index_as S E h index hindex

/-- **C122** The index afterwards, if no call fails: the events fall into consecutive stretches, one for the first policies and one for each policy set adopted; nothing stored before is lost or changed; no id is
stored twice; what is new is the document of an event that the policies of its stretch let pass; and the id of the document of every such event is stored. -/
theorem reload_index {C : Type} [DecidableEq C] (S : Setup P) (E : EcsSide S) (dss : P → List (List Decl)) (ok : S.Ok dss) (hn : KindNames S.L) (hp : S.pending = [])
    {sha : Str → C} {comp : List (Str × Option Str) → Option P} {d : List (Monitor.FileEnt Str)} {rs : List Rec} {rd : Processor.State} {cs : List HCall}
    (hrun : Processor.run false S.fuel .init rs = some (rd, cs)) {tr : List (Drain.Obs Msg)} {mo : List (Monitor.Live.Obs Str P)} {x : Drain.St E.elasticNet × Monitor.Live.LSt Str C P}
    (h : E.ReloadRun (fun _ => true) hp sha comp d tr mo x) (hw : Waited x.1) (hd : driven tr = rs.map Msg.sf) (index : List (Bytes × Bytes)) (hindex : (index.map (·.1)).Nodup) :
    ∃ (as : List P) (bulks : List (List (Bytes × Bytes))) (ss : List (P × List Event)), E.requests x.1 = bulks.flatMap Exporter.bulk ∧ (∀ b ∈ bulks, b ≠ [] ∧ (b.length : Int) ≤ max S.buffer 1) ∧
      as ++ x.2.chan = Monitor.Live.pushed mo ∧ ss.map Prod.fst = S.policies :: as ∧ ss.flatMap Prod.snd = eventsAfter [] rs ∧ ∀ final, Exporter.Arrives index bulks final →
      (final.map (·.1)).Nodup ∧ (∀ x ∈ index, x ∈ final) ∧
      (∀ d ∈ final, d ∈ index ∨ ∃ g ∈ ss, ∃ x ∈ g.2, Logged S (dss g.1) x ∧ DocFor S E (dss g.1) x d.1 d.2) ∧
      ∀ g ∈ ss, ∀ x ∈ g.2, Logged S (dss g.1) x → ∃ id text, DocFor S E (dss g.1) x id text ∧ id ∈ final.map (·.1) := by
  obtain ⟨as, docs, parts, h1, h2, h3, -⟩ := reload_elastic S E dss ok hn (fun _ => true) hp hrun h hw hd
  have hb : docs = (parts.map Prod.snd).flatten := by rw [← List.flatMap_def, h2.batches]
  rw [hb] at h1
  obtain ⟨ss, s1, s2, s3⟩ := index_under S E dss h1 index hindex
  refine ⟨as, parts.map Prod.snd, ss, h2.all (fun _ _ => rfl), ?_, h3, s1, s2, s3⟩
  intro b hb
  obtain ⟨q, hq, rfl⟩ := List.mem_map.1 hb
  exact h2.sizes q hq

/-- **C122** An edit takes effect: with a watched directory of one policy file, an edit of the file to a text that compiles, and a stream with at least one event, there is a run in which the new policies are
adopted, and the documents are complete under the first policies followed by the new ones. -/
theorem elastic_edit_takes_effect {C : Type} [DecidableEq C] (S : Setup P) (E : EcsSide S) (dss : P → List (List Decl)) (ok : S.Ok dss) (hn : KindNames S.L) (calls : Nat → Bool) (hmon : S.monitor = true)
    (hp : S.pending = []) (sha : Str → C) {comp : List (Str × Option Str) → Option P} {f : Str} (hf : Monitor.Live.Yaml f) (t0 t : Str) {p : P} (hc : comp [(f, some t)] = some p)
    {rs : List Rec} {rd : Processor.State} {cs : List HCall} (hrun : Processor.run false S.fuel .init rs = some (rd, cs)) (hev : eventsAfter [] rs ≠ []) (hroom : rs.length ≤ S.cap) :
    ∃ tr mo y, E.ReloadRun calls hp sha comp (Monitor.Live.sole f t0) tr mo y ∧ Waited y.1 ∧ driven tr = rs.map Msg.sf ∧ y.2.dir = Monitor.Live.sole f t ∧ y.2.chan = [] ∧ Monitor.Live.pushed mo = [p] ∧
      ∃ docs parts, SentUnder S E dss [S.policies, p] (eventsAfter [] rs) docs ∧ RequestsFor calls S.buffer docs (E.bulkOf y.1).ops (E.bulkOf y.1).calls parts := by
  obtain ⟨tr, mo, y, e3, w3, d3, k1, -, -, -, c3, -, hpush⟩ := edit_adopted S (Exporter.allOrNone E.toElastic) (Exporter.elastic calls) ⟨[], 0⟩ ok.workers ok.cap ok.dedup hmon hp sha hf t0 t hc hrun hev hroom
  obtain ⟨as, docs, parts, h1, h2, h3, -⟩ := reload_elastic S E dss ok hn calls hp hrun e3 w3 d3
  rw [c3, List.append_nil, hpush] at h3
  rw [h3] at h1
  exact ⟨tr, mo, y, e3, w3, d3, k1, c3, hpush, docs, parts, h1, h2⟩

/-- **C122** From the configuration and the policy directory, through its changes, to Elastic. With a usual configuration of ECS export to Elastic, with the local policy monitor, in a world that is in order, and
with policy files in the directory: the program starts with the policies in these files; in every run over records whose process parents are older, when `Wait` returns, the client has been asked for documents
complete under these policies and then those of policy sets adopted later, all of whose texts are those of files the directory had at some time; and there is such a run from wherever the driver is done. -/
theorem hot_reload_elastic {C : Type} [DecidableEq C] (W : World Unit) (fs : Str → Dir) {m : Manifest} {env : List Str} {cs : List Pipeline.Conf} {c1 c2 c3 : Pipeline.Conf} {a b d : Str}
    (hm : setManifest m env cs = [c1, c2, c3]) (u : Usual c1 c2 c3 a b d) (hs : StrRule W.str)
    (hp : (engineConf c2).policiesPath ≠ []) (hl : (engineConf c2).language = .falco) (hmon : (engineConf c2).monitor = .loc) (hw : 0 < (engineConf c2).concurrency)
    {x : XConfig} (hx : createConfigX W.secrets (xconf c3) = some x) (ho : W.connects x = true) (hf : x.format = .ecs) (ht : x.transport = .es)
    (hb : Benign W.builtIn W.user) (hd : (createFlattenerConfig (Config.toConf (xconf c1))).1.filterOn = false) (hlib : Json.Spec.LibOk W.L) (hv : Json.Spec.VersionOk (Utf8.bytes m.jsonSchema)) (hn : KindNames W.L)
    {files : List (Monitor.FileEnt Str)} {texts : List Str} {dss : List (List Decl)} (h1 : fs (engineConf c2).policiesPath = some files)
    (h2 : PolicyFiles true files texts) (h3 : List.Forall₂ (fun s ds => GPolicy (ltokens W.str s) ds) texts dss)
    (h4 : ∀ y ∈ sites dss, ∀ e, siteCond y = some e → ¬ Cyclic y.2 e) :
    ∃ (l : Load Factory) (S : Setup (PolicySet W.L W.str)) (E : EcsSide S) (hp : S.pending = []), loadStages (W.withDirs fs []).env { regs := bootRegs } (setManifest m env cs) = .done l ∧
      netOf (W.withDirs fs []).comp (setManifest m env cs) l chanSize = E.elasticWith W.sends ∧ S.policies.texts = texts ∧ S.policies.decls = dss ∧ S.monitor = true ∧ S.Ok PolicySetOf.decls ∧ KindNames S.L ∧
      S.fuel = W.fuel ∧ S.cap = chanSize ∧ S.buffer = x.eventBuffer ∧
      ∀ (sha : Str → C) (rs : List Rec), OlderParents rs → rs.length ≤ W.fuel →
      ∀ (tr : List (Drain.Obs Msg)) (mo : List (Monitor.Live.Obs Str (PolicySet W.L W.str))) (y : Drain.St (E.elasticWith W.sends) × Monitor.Live.LSt Str C (PolicySet W.L W.str)),
        E.ReloadRun W.sends hp sha (compileRead (flatOps W.L getMappers) W.str) files tr mo y →
        (Waited y.1 → driven tr = rs.map Msg.sf →
          ∃ as docs parts, SentUnder S E PolicySetOf.decls (S.policies :: as) (eventsAfter [] rs) docs ∧ RequestsFor W.sends x.eventBuffer docs (E.bulkOf y.1).ops (E.bulkOf y.1).calls parts ∧
            as ++ y.2.chan = Monitor.Live.pushed mo ∧ ∀ p ∈ as, FromHistory (Reload.dirsOf files mo) p.texts) ∧
        (rootClosed tr = true → ∃ tr' ms y', E.ReloadRun W.sends hp sha (compileRead (flatOps W.L getMappers) W.str) files tr' (mo ++ ms) y' ∧ Waited y'.1 ∧ driven tr' = driven tr ∧ y'.2.dir = y.2.dir ∧ Monitor.Live.pushed ms = []) := by
  obtain ⟨n, rules, filters, hc, -⟩ := policy_texts_to_alerts W.L hs texts dss h3 h4
  obtain ⟨p, hp1, hp2, hp3⟩ := withDirs_policyAt W fs [] (engineConf c2) hl h1 (by rw [hmon]; exact h2) hc
  have hdecls : p.decls = dss := by
    unfold PolicySetOf.decls
    rw [hp2]
    have hfiles : texts.map (fileOf W.str) = dss.map Falco.File.ok := by
      clear hc hp2 h2 h4
      induction h3 with
      | nil => rfl
      | cons h _ ih => rw [List.map_cons, List.map_cons, (policy_accepted_iff hs _ _).2 h, ih]
    exact (decls_of_ok hs _ _ hfiles).2
  have hok : (W.withDirs fs []).Ok m c1 c2 PolicySetOf.decls :=
    ⟨hs, fun q => (policySet_good hs q).1, fun q => (policySet_good hs q).2, fun q => q.built, hb, hw, hd, hlib, hv⟩
  have hready : (W.withDirs fs []).Ready c2 c3 x p := by
    refine ⟨hp, hp1, Int.le_of_lt hw, hx, ?_⟩
    unfold World.exports
    rw [hf, ht]
    rw [show (W.withDirs fs []).connects x = true from ho]
    rfl
  obtain ⟨l, k1, k2, -⟩ := boot_failing_elastic_run (W.withDirs fs []) hm u hready hf ht hok hn
  have ok := setup_ok (W.withDirs fs []) hok (build_version (W.withDirs fs []) hm u hready.conf) p
  refine ⟨l, (W.withDirs fs []).setup c1 c2 x p, (W.withDirs fs []).ecsSide c1 c2 x p, rfl, k1, k2, hp2, hdecls, by change (_ == _) = true; rw [hmon]; rfl, ok, hn, rfl, rfl, rfl, ?_⟩
  intro sha rs hold hfuel tr mo y hrun
  obtain ⟨hT, hC⟩ := netWith_ok ((W.withDirs fs []).setup c1 c2 x p) (Exporter.allOrNone ((W.withDirs fs []).ecsSide c1 c2 x p).toElastic) (Exporter.elastic W.sends) ⟨[], 0⟩ ok.workers ok.cap
  refine ⟨fun hwait hdr => ?_, fun hroot => Reload.can_finish hT hC hrun hroot⟩
  obtain ⟨⟨rd, hcs⟩, hr⟩ := Processor.reader_returns _ (Processor.older_parents_not_stuck _ hold) W.fuel hfuel
  obtain ⟨as, docs, parts, g1, g2, g3, g4⟩ := reload_elastic _ ((W.withDirs fs []).ecsSide c1 c2 x p) _ ok hn W.sends rfl hr hrun hwait hdr
  refine ⟨as, docs, parts, g1, g2, g3, fun q hq t htx => ?_⟩
  obtain ⟨got, -, hcomp, hread⟩ := g4 q hq
  have hsnd := compileRead_some.1 hcomp
  have : some t ∈ got.map Prod.snd := by rw [hsnd]; exact List.mem_map.2 ⟨t, htx, rfl⟩
  obtain ⟨⟨f, v⟩, hfv, hv'⟩ := List.mem_map.1 this
  cases hv'
  obtain ⟨hname, e, he, hlook⟩ := hread f _ hfv
  refine ⟨e, he, f, hname, ?_⟩
  revert hlook
  generalize Monitor.Live.look e f = o
  intro hlook
  match o, hlook with
  | some (some _), rfl => rfl

/-- **C122** From the configuration, through an edit of the policy file, to Elastic: for every stream of at least one event, of records whose process parents are older, that the channel has room for, there is a
run in which the file is edited to the other text, the policies of that text are adopted, and the documents asked for are complete under the first policies and then those. -/
theorem elastic_edited_policies_adopted {C : Type} [DecidableEq C] (W : World Unit) (fs : Str → Dir) {m : Manifest} {env : List Str} {cs : List Pipeline.Conf} {c1 c2 c3 : Pipeline.Conf} {a b d : Str}
    (hm : setManifest m env cs = [c1, c2, c3]) (u : Usual c1 c2 c3 a b d) (hs : StrRule W.str)
    (hp : (engineConf c2).policiesPath ≠ []) (hl : (engineConf c2).language = .falco) (hmon : (engineConf c2).monitor = .loc) (hw : 0 < (engineConf c2).concurrency)
    {x : XConfig} (hx : createConfigX W.secrets (xconf c3) = some x) (ho : W.connects x = true) (hf : x.format = .ecs) (ht : x.transport = .es)
    (hb : Benign W.builtIn W.user) (hd : (createFlattenerConfig (Config.toConf (xconf c1))).1.filterOn = false) (hlib : Json.Spec.LibOk W.L) (hv : Json.Spec.VersionOk (Utf8.bytes m.jsonSchema)) (hn : KindNames W.L)
    {f : Str} (hy : Monitor.Live.Yaml f) {t0 t : Str} {ds0 ds : List Decl} (h1 : fs (engineConf c2).policiesPath = some (Monitor.Live.sole f t0))
    (g0 : GPolicy (ltokens W.str t0) ds0) (a0 : ∀ y ∈ sites [ds0], ∀ e, siteCond y = some e → ¬ Cyclic y.2 e)
    (g1 : GPolicy (ltokens W.str t) ds) (a1 : ∀ y ∈ sites [ds], ∀ e, siteCond y = some e → ¬ Cyclic y.2 e) (sha : Str → C) :
    ∃ (l : Load Factory) (S : Setup (PolicySet W.L W.str)) (E : EcsSide S) (hp : S.pending = []) (p : PolicySet W.L W.str), loadStages (W.withDirs fs []).env { regs := bootRegs } (setManifest m env cs) = .done l ∧
      netOf (W.withDirs fs []).comp (setManifest m env cs) l chanSize = E.elasticWith W.sends ∧ S.policies.texts = [t0] ∧ S.policies.decls = [ds0] ∧ p.texts = [t] ∧ p.decls = [ds] ∧
      ∀ (rs : List Rec), OlderParents rs → rs.length ≤ W.fuel → rs.length ≤ chanSize → eventsAfter [] rs ≠ [] →
        ∃ tr mo y, E.ReloadRun W.sends hp sha (compileRead (flatOps W.L getMappers) W.str) (Monitor.Live.sole f t0) tr mo y ∧ Waited y.1 ∧ driven tr = rs.map Msg.sf ∧ y.2.dir = Monitor.Live.sole f t ∧
          ∃ docs parts, SentUnder S E PolicySetOf.decls [S.policies, p] (eventsAfter [] rs) docs ∧ RequestsFor W.sends x.eventBuffer docs (E.bulkOf y.1).ops (E.bulkOf y.1).calls parts := by
  obtain ⟨l, S, E, hp', k1, k2, k3, k4, k5, ok, kn, k6, k7, k8, -⟩ := hot_reload_elastic (C := C) W fs hm u hs hp hl hmon hw hx ho hf ht hb hd hlib hv hn h1 (sole_policyFiles hy t0) (.cons g0 .nil) a0
  obtain ⟨-, n, c, hc⟩ := policy_texts_compile (flatOps W.L getMappers) hs (.cons g1 .nil) a1
  have hdecls : (⟨[t], c, n, hc⟩ : PolicySet W.L W.str).decls = [ds] := by
    unfold PolicySetOf.decls
    exact (decls_of_ok hs _ _ (by rw [List.map_cons, List.map_cons, (policy_accepted_iff hs _ _).2 g1]; rfl)).2
  refine ⟨l, S, E, hp', ⟨[t], c, n, hc⟩, k1, k2, k3, k4, rfl, hdecls, ?_⟩
  intro rs hold hfuel hcap hev
  obtain ⟨⟨rd, hcs⟩, hr⟩ := Processor.reader_returns _ (Processor.older_parents_not_stuck _ hold) W.fuel hfuel
  obtain ⟨tr, mo, y, e1, e2, e3, e4, -, -, e5⟩ := elastic_edit_takes_effect S E PolicySetOf.decls ok kn W.sends k5 hp' sha hy t0 t (comp := compileRead (flatOps W.L getMappers) W.str) (p := ⟨[t], c, n, hc⟩)
    (compileRead_some.2 rfl) (by rw [k6]; exact hr) hev (by rw [k7]; exact hcap)
  rw [k8] at e5
  exact ⟨tr, mo, y, e1, e2, e3, e4, e5⟩

/-! ### Concrete cases -/

/-- The demo configuration with a monitor and ECS documents sent to Elastic two by two. -/
def watchElasticConfs : List Pipeline.Conf := [demoConfs[0], watchConfs[1], elasticConfs[2]]

def watchElasticConfs' : List Pipeline.Conf := setManifest demoManifest [] watchElasticConfs

theorem watchElastic_usual : ∃ c1 c2 c3, setManifest demoManifest [] watchElasticConfs = [c1, c2, c3] ∧ Usual c1 c2 c3 "sysflow".toList "flat".toList "evt".toList ∧
    c1 = watchElasticConfs'[0]'(by decide +kernel) ∧ c2 = watchElasticConfs'[1]'(by decide +kernel) ∧ c3 = watchElasticConfs'[2]'(by decide +kernel) := by
  obtain ⟨c1, c2, c3, h1, h2, -⟩ := usual_manifest (c1 := watchElasticConfs[0]) (c2 := watchElasticConfs[1]) (c3 := watchElasticConfs[2]) (a := "sysflow".toList) (b := "flat".toList) (d := "evt".toList)
    demoManifest []
    ⟨by decide +kernel, by decide +kernel, by decide +kernel, by decide +kernel, ⟨_, rfl, by decide +kernel⟩, ⟨_, rfl, by decide +kernel⟩, ⟨_, "flattenerchan".toList, rfl, by decide +kernel⟩,
      ⟨_, rfl, by decide +kernel⟩, ⟨_, "eventchan".toList, rfl, by decide +kernel⟩, by decide +kernel, by decide, by decide, by decide⟩
  have e : watchElasticConfs' = [c1, c2, c3] := h1
  refine ⟨c1, c2, c3, h1, h2, ?_, ?_, ?_⟩ <;> simp only [e] <;> rfl

theorem watchElastic_settings : (engineConf (watchElasticConfs'[1]'(by decide +kernel))).policiesPath = "p".toList ∧ (engineConf (watchElasticConfs'[1]'(by decide +kernel))).concurrency = 4 ∧
    (engineConf (watchElasticConfs'[1]'(by decide +kernel))).monitor = .loc ∧ (engineConf (watchElasticConfs'[1]'(by decide +kernel))).language = .falco ∧
    (createFlattenerConfig (Config.toConf (xconf (watchElasticConfs'[0]'(by decide +kernel))))).1.filterOn = false ∧
    (createConfigX ⟨fun _ => none, fun _ => none⟩ (xconf (watchElasticConfs'[2]'(by decide +kernel)))).map (fun x => (x.format, x.transport, x.eventBuffer)) = some (.ecs, .es, 2) := by
  decide +kernel

/-- With it the hypotheses of `elastic_edited_policies_adopted` are met by the edit of the policy from one program to another, while every second call of the client fails. -/
example : ∃ (l : Load Factory) (S : Setup (PolicySet (badWorld ([], [])).L simpleStr)) (E : EcsSide S) (hp : S.pending = []) (p : PolicySet (badWorld ([], [])).L simpleStr),
    loadStages ((badWorld ([], [])).withDirs (fun s => if s = "p".toList then some (watchDir lsText) else none) []).env { regs := bootRegs } (setManifest demoManifest [] watchElasticConfs) = .done l ∧
    S.policies.decls = [lsDecls] ∧ p.decls = [[.rule catRule]] ∧
    ∃ tr mo y, E.ReloadRun (fun i => i % 2 == 0) hp (id : Str → Str) (compileRead (flatOps (badWorld ([], [])).L getMappers) simpleStr) (watchDir lsText) tr mo y ∧ Waited y.1 ∧
      driven tr = Processor.saneStream.map Msg.sf ∧
      ∃ docs parts, SentUnder S E PolicySetOf.decls [S.policies, p] (eventsAfter [] Processor.saneStream) docs ∧
        RequestsFor (fun i => i % 2 == 0) 2 docs (E.bulkOf y.1).ops (E.bulkOf y.1).calls parts := by
  obtain ⟨c1, c2, c3, hm, hu, e1, e2, e3⟩ := watchElastic_usual
  obtain ⟨s1, s2, s3, s6, s4, s5⟩ := watchElastic_settings
  rw [← e2] at s1 s2 s3 s6
  rw [← e1] at s4
  rw [← e3] at s5
  obtain ⟨x, hx, hs⟩ := Option.map_eq_some_iff.1 s5
  simp only [Prod.mk.injEq] at hs
  obtain ⟨f1, f2, f3⟩ := hs
  obtain ⟨l, S, E, hp, p, h1, -, -, h2, -, h3, h4⟩ := elastic_edited_policies_adopted (C := Str) (badWorld ([], [])) (fun s => if s = "p".toList then some (watchDir lsText) else none) hm hu simple_rule
    (by rw [s1]; decide) s6 s3 (by rw [s2]; decide) hx rfl f1 f2 (fun a f hf => by rcases hf with hf | hf <;> cases hf) s4 Json.demo_ok Json.demo_version demo_names
    a_yaml (t0 := lsText) (t := catText) (by rw [if_pos s1]; rfl) ls_parses ls_acyclic cat_parses cat_acyclic id
  obtain ⟨tr, mo, y, k1, k2, k3, -, docs, parts, k4, k5⟩ := h4 Processor.saneStream Processor.sane_older (by change 7 ≤ 10; decide) (by change 7 ≤ 100000; decide) (by
    intro h
    have : (eventsAfter [] Processor.saneStream).length = 0 := by rw [h]; rfl
    revert this
    decide)
  rw [f3] at k5
  exact ⟨l, S, E, hp, p, h1, h2, h3, tr, mo, y, k1, k2, k3, docs, parts, k4, k5⟩

/-- The hypotheses of `reload_index` are met: in the run of `elastic_edit_takes_effect`, if no call fails, over an empty index. -/
example (S : Setup P) (E : EcsSide S) (dss : P → List (List Decl)) (ok : S.Ok dss) (hn : KindNames S.L) (hmon : S.monitor = true) (hp : S.pending = []) (comp : List (Str × Option Str) → Option P) (p : P)
    (hc : comp [("p/a.yaml".toList, some "b".toList)] = some p) {rs : List Rec} {rd : Processor.State} {cs : List HCall} (hrun : Processor.run false S.fuel .init rs = some (rd, cs))
    (hev : eventsAfter [] rs ≠ []) (hroom : rs.length ≤ S.cap) :
    ∃ tr mo y, E.ReloadRun (fun _ => true) hp id comp (watchDir "a".toList) tr mo y ∧ ∃ (bulks : List (List (Bytes × Bytes))) (ss : List (P × List Event)),
      E.requests y.1 = bulks.flatMap Exporter.bulk ∧ ss.map Prod.fst = [S.policies, p] ∧ ∀ final, Exporter.Arrives [] bulks final →
        ∀ g ∈ ss, ∀ x ∈ g.2, Logged S (dss g.1) x → ∃ id text, DocFor S E (dss g.1) x id text ∧ id ∈ final.map (·.1) := by
  obtain ⟨tr, mo, y, k1, k2, k3, -, k4, k5, -⟩ := elastic_edit_takes_effect S E dss ok hn (fun _ => true) hmon hp (id : Str → Str) a_yaml "a".toList "b".toList hc hrun hev hroom
  obtain ⟨as, bulks, ss, h1, -, h2, h3, -, h4⟩ := reload_index S E dss ok hn hp hrun k1 k2 k3 [] .nil
  rw [k4, List.append_nil, k5] at h2
  rw [h2] at h3
  exact ⟨tr, mo, y, k1, bulks, ss, h1, h3, fun final hf => (h4 final hf).2.2.2⟩

end Verif.Whole
