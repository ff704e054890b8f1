import Verif.Whole.Dedup
import Verif.Ecs.TextDoc
import Verif.Exporter.ElasticFailures
/-
C82: the whole program with the ECS encoder, writing to a file or to Elastic.
Sources: those of Whole/Program.lean; /repo/core/exporter/encoders/ecs.go:94-103; /repo/core/exporter/transports/file.go:46-72, elastic.go:81-139.
-/
namespace Verif.Whole
open Verif.Decimal (Str)
open Verif.Exporter (Bytes)
open Verif.FlatRecord
open Verif.Policy
open Verif.Falco
open Verif.SysFlow
open Verif.Processor (Rec HCall)
open Verif.Flattener (FLib Known fields eventsAfter Stores StoresEvent)
open Verif.Pipeline
open Verif.Pipeline.Drain (Net emitted driven Exec Waited)

variable {P : Type}

/-! ### Model -/

/-- What the ECS encoder needs beyond the program's parameters: its configuration and its library functions. -/
structure EcsSide (S : Setup P) where
  conf : Ecs.Conf
  lib : Ecs.ELib
  same : lib.toLib = S.L

/-- `ECSEncoder.Encode` on one record (ecs.go:94-103): the document; `none`: a panic. -/
def EcsSide.doc {S : Setup P} (E : EcsSide S) : Msg → Option Ecs.Rec
  | .alert r => Ecs.encode E.conf E.lib r
  | _ => none

/-- The document as the file transport sees it (file.go:56-62): not bytes, rendered by `json.Marshal`. -/
def EcsSide.toFile {S : Setup P} (E : EcsSide S) (m : Msg) : Option Exporter.Datum := (E.doc m).map (fun d => .obj (Ecs.recText d))

/-- The document as the Elastic transport sees it (elastic.go:98-108): its id, and its text as rendered by `json.Marshal`. -/
def EcsSide.toElastic {S : Setup P} (E : EcsSide S) (m : Msg) : Option Exporter.EDatum :=
  (E.doc m).map (fun d => .ecs (Utf8.bytes d.id) (some (Ecs.recText d)))

/-- The pipeline writing ECS documents to a file whose writes succeed. -/
def EcsSide.fileNet {S : Setup P} (E : EcsSide S) : Net Msg :=
  S.netWith (Exporter.allOrNone E.toFile) (Exporter.fileTransport (fun _ => none)) Exporter.newFile

/-- The contents of that file. -/
def EcsSide.log {S : Setup P} (E : EcsSide S) (s : Drain.St E.fileNet) : Bytes :=
  (show Exporter.State Exporter.OutFile Msg Exporter.Datum × Bool from s.st 2).1.tr.contents

/-- The pipeline sending ECS documents to Elastic through a bulk indexer library, `calls` saying which of its calls succeed; and if all do. -/
def EcsSide.elasticWith {S : Setup P} (E : EcsSide S) (calls : Nat → Bool) : Net Msg :=
  S.netWith (Exporter.allOrNone E.toElastic) (Exporter.elastic calls) ⟨[], 0⟩
def EcsSide.elasticNet {S : Setup P} (E : EcsSide S) : Net Msg := E.elasticWith (fun _ => true)

/-- What has been requested of the library. -/
def EcsSide.bulkOf {S : Setup P} (E : EcsSide S) {calls : Nat → Bool} (s : Drain.St (E.elasticWith calls)) : Exporter.Bulk :=
  (show Exporter.State Exporter.Bulk Msg Exporter.EDatum × Bool from s.st 2).1.tr

/-- The requests made of that library. -/
def EcsSide.requests {S : Setup P} (E : EcsSide S) (s : Drain.St E.elasticNet) : List Exporter.BulkOp :=
  (show Exporter.State Exporter.Bulk Msg Exporter.EDatum × Bool from s.st 2).1.tr.ops

/-! ### Specification -/

/-- The SysFlow library names each kind of event by one of the five names the encoder knows. -/
def KindNames (L : Lib) : Prop :=
  ∀ ev, Processor.isEvent ev = true → Strings.trimQuotes (L.recType (Flattener.typeOf ev)) ∈ ["NF".toList, "FF".toList, "FE".toList, "PE".toList, "KE".toList]

/-- Id and text of the document of an event: a record that stores what is known about the event, with the event's field values and ancestors and exactly the rules the policies attach to
such an event (`V` says which), and no mark or tag but those of actions, is shown by a document as ECS prescribes; the id is its hash, and the text is one line that reads back as exactly the document. -/
def DocWith (S : Setup P) (E : EcsSide S) (V : List (Str × FVal) → List RuleInfo) (x : Event) (id text : Bytes) : Prop :=
  ∃ c r d ms, Known x.1 x.2 c ∧ Stores S.F c x.2 r.fr ∧ ShowsTable S.L r.fr (fields S.L S.F c x.2) ∧ r.fr.ptree = c.ptree ∧
    r.ctx.getRules = V (fields S.L S.F c x.2) ∧ Unmarked S r ∧ Ecs.Spec.Known E.lib r.fr ∧ Ecs.Spec.Doc E.conf E.lib r d ∧
    id = Utf8.bytes d.id ∧ Json.read text = some (.obj ms) ∧ Ecs.ShowsRec d ms ∧ ∀ b ∈ text, 32 ≤ b.toNat

/-- The same under Falco policies. -/
def DocFor (S : Setup P) (E : EcsSide S) (dss : List (List Decl)) : Event → Bytes → Bytes → Prop := DocWith S E (verdict S.L dss)

/-- The line of an event. -/
def EcsLine (S : Setup P) (E : EcsSide S) (dss : List (List Decl)) (x : Event) (line : Bytes) : Prop := ∃ id, DocFor S E dss x id line

/-- A stretch of the stream handled under one policy set, with the documents sent for it. -/
structure Sent (P : Type) where
  pol : P
  events : List Event
  docs : List (Bytes × Bytes)

open Classical in
/-- The documents sent to Elastic are complete for the events `evs` under the policy sets `pols`, where `Want` says which events a policy set wants logged and `V` which rules it attaches: the events fall into
consecutive stretches, one for each of these policy sets; the documents of a stretch are one for each of its events that its policies want logged, in the order of the events if there is one worker. -/
def SentAs (S : Setup P) (E : EcsSide S) (Want : P → Event → Prop) (V : P → List (Str × FVal) → List RuleInfo) (pols : List P) (evs : List Event) (docs : List (Bytes × Bytes)) : Prop :=
  ∃ ss : List (Sent P), ss.map Sent.pol = pols ∧ ss.flatMap Sent.events = evs ∧ ss.flatMap Sent.docs = docs ∧
    ∀ g ∈ ss, ∃ picked, List.Perm picked (g.events.filter (fun x => decide (Want g.pol x))) ∧
      (S.workers = 1 → picked = g.events.filter (fun x => decide (Want g.pol x))) ∧
      List.Forall₂ (fun x d => DocWith S E (V g.pol) x d.1 d.2) picked g.docs

/-- The same under Falco policies. -/
def SentUnder (S : Setup P) (E : EcsSide S) (dss : P → List (List Decl)) (pols : List P) (evs : List Event) (docs : List (Bytes × Bytes)) : Prop :=
  SentAs S E (fun p => Logged S (dss p)) (fun p => verdict S.L (dss p)) pols evs docs

/-- The documents sent to Elastic are complete for the events `evs`, under the policy sets in force, from the first one on. -/
def SentFor (S : Setup P) (E : EcsSide S) (dss : P → List (List Decl)) (evs : List Event) (docs : List (Bytes × Bytes)) : Prop :=
  ∃ rest, SentUnder S E dss (S.policies :: rest) evs docs

/-! ### Proofs -/

/-- The encoder does not panic on alerts of events, and makes of them what it should. -/
theorem alert_doc_with (S : Setup P) (E : EcsSide S) (hn : KindNames S.L) (V : List (Str × FVal) → List RuleInfo) (x : Event) (m : Msg) (hev : Processor.isEvent x.2 = true)
    (h : AlertWith S V x m) : ∃ d, E.doc m = some d ∧ DocWith S E V x (Utf8.bytes d.id) (Ecs.recText d) := by
  obtain ⟨c, r, rfl, hk, hst, htab, hrules, hum⟩ := h
  have hkind : Ecs.Spec.Known E.lib r.fr := by
    have h1 := kind_of_stores S.L hev hst
    have h2 := hn x.2 hev
    rw [← h1] at h2
    unfold Ecs.Spec.Known Ecs.Spec.kind
    rw [E.same]
    exact h2
  have hne : Ecs.encode E.conf E.lib r ≠ none := by
    intro hnone
    rcases (Ecs.ecs_panics_iff E.conf E.lib r).1 hnone with ⟨_, hp, hl⟩ | ⟨h, _⟩
    · obtain ⟨p, hpod⟩ := pod_of_stores hst hp
      obtain ⟨l1, l2, l3⟩ := hst.lists
      rw [l1, l2, l3, hpod] at hl
      rcases hl with h | h | h <;> cases h
    · exact h hkind
  obtain ⟨d, hd⟩ := Option.ne_none_iff_exists'.1 hne
  obtain ⟨hv, ms, h1, h2, h3⟩ := Ecs.ecs_text E.conf E.lib r d hd
  exact ⟨d, hd, c, r, d, ms, hk, hst, htab, hst.tree, hrules, hum, hkind, h3, rfl, h1, h2, hv⟩

/-- The same under Falco policies. -/
theorem alert_doc (S : Setup P) (E : EcsSide S) (hn : KindNames S.L) (ds : List (List Decl)) (x : Event) (m : Msg) (hev : Processor.isEvent x.2 = true)
    (h : AlertFor S ds x m) : ∃ d, E.doc m = some d ∧ DocFor S E ds x (Utf8.bytes d.id) (Ecs.recText d) := alert_doc_with S E hn _ x m hev h

/-! ## C82 -/

/-- **C82** ECS to a file. When `Wait` returns, the log is complete for the events of the stream: one line for each event that the policies in force let pass, holding that event's
ECS document, and nothing else. -/
theorem whole_program_ecs (S : Setup P) (E : EcsSide S) (dss : P → List (List Decl)) (ok : S.Core dss) (hn : KindNames S.L) (hdedup : S.dedup = false)
    (rs : List Rec) (rd : Processor.State) (cs : List HCall) (hrun : Processor.run false S.fuel .init rs = some (rd, cs))
    (tr : List (Drain.Obs Msg)) (s : Drain.St E.fileNet) (h : Exec E.fileNet tr s) (hw : Waited s) (hd : driven tr = rs.map Msg.sf) :
    CompleteFor S dss (EcsLine S E) (eventsAfter [] rs) (E.log s) := by
  obtain ⟨h1, h2⟩ := reader_all S hdedup rs rd cs hrun
  refine log_complete S dss ok E.toFile (EcsLine S E) ?_ tr s h hw _ _ (by rw [hd]; exact h1) h2
  intro ds x m hev ha
  obtain ⟨d, d1, d2⟩ := alert_doc S E hn ds x m hev ha
  refine ⟨.obj (Ecs.recText d), by unfold EcsSide.toFile; rw [d1]; rfl, ⟨_, d2⟩, fun hc => ?_⟩
  obtain ⟨_, _, _, _, _, _, _, _, _, _, _, _, _, _, _, hv⟩ := d2
  exact absurd (hv _ hc) (by decide)

open Classical in
/-- What reaches Elastic, if the policy engine forwards the alerts of the stretches `gs`. -/
theorem elastic_of_alerts_as (S : Setup P) (E : EcsSide S) (Want : P → Event → Prop) (V : P → List (Str × FVal) → List RuleInfo) (hn : KindNames S.L) (calls : Nat → Bool)
    (s : Drain.St (E.elasticWith calls)) {pols : List P} {evs : List Event} {gs : List (Handled P)} {es : List (Exporter.Ev Msg)} (g1 : gs.map Handled.pol = pols)
    (g2 : gs.flatMap Handled.events = evs) (g3 : gs.flatMap Handled.alerts = Exporter.received es) (hclosed : Exporter.closed es = true)
    (hfin : (show Exporter.State Exporter.Bulk Msg Exporter.EDatum × Bool from s.st 2).1 =
      Exporter.run (Exporter.allOrNone E.toElastic) (Exporter.elastic calls) S.buffer (Exporter.init ⟨[], 0⟩ S.start) es)
    (g4 : ∀ g ∈ gs, g.As S Want (fun p => AlertWith S (V p))) :
    ∃ docs parts, Exporter.RequestsFor calls S.buffer docs (E.bulkOf s).ops (E.bulkOf s).calls parts ∧ SentAs S E Want V pols evs docs := by
  have hdocs : ∀ g ∈ gs, ∃ ds : List Ecs.Rec, g.alerts.map E.doc = ds.map some ∧
      ∃ picked, List.Perm picked (g.events.filter (fun x => decide (Want g.pol x))) ∧
      (S.workers = 1 → picked = g.events.filter (fun x => decide (Want g.pol x))) ∧
      List.Forall₂ (fun x d => DocWith S E (V g.pol) x d.1 d.2) picked (ds.map (fun d => (Utf8.bytes d.id, Ecs.recText d))) := by
    intro g hg
    obtain ⟨picked, w1, w2, w3⟩ := g4 g hg
    generalize g.alerts = outs at w3
    have : ∃ ds : List Ecs.Rec, outs.map E.doc = ds.map some ∧
        List.Forall₂ (fun x d => DocWith S E (V g.pol) x d.1 d.2) picked (ds.map (fun d => (Utf8.bytes d.id, Ecs.recText d))) := by
      clear w1 w2
      induction w3 with
      | nil => exact ⟨[], rfl, .nil⟩
      | @cons x m xs ms h1 _ ih =>
        obtain ⟨ds, i1, i2⟩ := ih
        obtain ⟨d, d1, d2⟩ := alert_doc_with S E hn _ x m h1.2 h1.1
        exact ⟨d :: ds, by simp [d1, i1], .cons d2 i2⟩
    obtain ⟨ds, d1, d2⟩ := this
    exact ⟨ds, d1, picked, w1, w2, d2⟩
  have hss : ∃ (ss : List (Sent P)) (ds : List Ecs.Rec), ss.map Sent.pol = gs.map Handled.pol ∧ ss.flatMap Sent.events = gs.flatMap Handled.events ∧
      (gs.flatMap Handled.alerts).map E.doc = ds.map some ∧ ss.flatMap Sent.docs = ds.map (fun d => (Utf8.bytes d.id, Ecs.recText d)) ∧
      ∀ g ∈ ss, ∃ picked, List.Perm picked (g.events.filter (fun x => decide (Want g.pol x))) ∧
        (S.workers = 1 → picked = g.events.filter (fun x => decide (Want g.pol x))) ∧
        List.Forall₂ (fun x d => DocWith S E (V g.pol) x d.1 d.2) picked g.docs := by
    clear g1 g2 g3 g4
    induction gs with
    | nil => exact ⟨[], [], rfl, rfl, rfl, rfl, fun g hg => (by cases hg)⟩
    | cons g gs ih =>
      obtain ⟨ss, ds, s1, s2, s3, s4, s5⟩ := ih (fun x hx => hdocs x (by simp [hx]))
      obtain ⟨d1, w1, picked, w3, w4, w5⟩ := hdocs g (by simp)
      refine ⟨⟨g.pol, g.events, d1.map (fun d => (Utf8.bytes d.id, Ecs.recText d))⟩ :: ss, d1 ++ ds, by simp [s1], by simp [s2], ?_, ?_, ?_⟩
      · rw [List.flatMap_cons, List.map_append, w1, s3, List.map_append]
      · rw [List.flatMap_cons, s4, List.map_append]
      · intro x hx
        rcases List.mem_cons.1 hx with rfl | hx
        · exact ⟨picked, w3, w4, w5⟩
        · exact s5 x hx
  obtain ⟨ss, ds, s1, s2, s3, s4, s5⟩ := hss
  rw [g3] at s3
  let f : Msg → Bytes × Bytes := fun m => ((E.doc m).map (fun d => (Utf8.bytes d.id, Ecs.recText d))).getD ([], [])
  have hsome : ∀ m ∈ Exporter.received es, E.doc m ≠ none := by
    intro m hm hn
    have : E.doc m ∈ (Exporter.received es).map E.doc := List.mem_map.2 ⟨m, hm, rfl⟩
    rw [s3, hn] at this
    obtain ⟨_, _, h⟩ := List.mem_map.1 this
    cases h
  have hagree : ∀ b : List Msg, (∀ m ∈ b, E.doc m ≠ none) →
      (Exporter.allOrNone E.toElastic).encode b = (Exporter.total (fun m => Exporter.asEcs (f m))).encode b := by
    intro b hb
    show b.mapM E.toElastic = some (b.map _)
    induction b with
    | nil => rfl
    | cons m b ih =>
      obtain ⟨d, hd⟩ := Option.ne_none_iff_exists'.1 (hb m (by simp))
      have e : E.toElastic m = some (Exporter.asEcs (f m)) := by
        unfold EcsSide.toElastic Exporter.asEcs
        simp only [f, hd]
        rfl
      rw [List.mapM_cons, e, ih (fun x hx => hb x (by simp [hx]))]
      rfl
  obtain ⟨parts, hparts⟩ := Exporter.elastic_requests f calls S.buffer S.start es hclosed
  refine ⟨(Exporter.received es).map f, parts, ?_, ss, s1.trans g1, s2.trans g2, ?_, s5⟩
  · have hb : E.bulkOf s = (Exporter.run (Exporter.total (fun m => Exporter.asEcs (f m))) (Exporter.elastic calls) S.buffer (Exporter.init ⟨[], 0⟩ S.start) es).tr := by
      unfold EcsSide.bulkOf
      rw [hfin, run_congr hagree _ _ es _ (fun r hr => (by cases hr)) hsome]
    rw [hb]
    exact hparts
  · rw [s4]
    have : (Exporter.received es).map f = ((Exporter.received es).map E.doc).map (fun o => (o.map (fun d => (Utf8.bytes d.id, Ecs.recText d))).getD ([], [])) := by
      rw [List.map_map]; rfl
    rw [this, s3, List.map_map]
    rfl

/-- The same under Falco policies. -/
theorem elastic_of_alerts (S : Setup P) (E : EcsSide S) (dss : P → List (List Decl)) (hn : KindNames S.L) (calls : Nat → Bool)
    (s : Drain.St (E.elasticWith calls)) {pols : List P} {evs : List Event} {gs : List (Handled P)} {es : List (Exporter.Ev Msg)} (g1 : gs.map Handled.pol = pols)
    (g2 : gs.flatMap Handled.events = evs) (g3 : gs.flatMap Handled.alerts = Exporter.received es) (hclosed : Exporter.closed es = true)
    (hfin : (show Exporter.State Exporter.Bulk Msg Exporter.EDatum × Bool from s.st 2).1 =
      Exporter.run (Exporter.allOrNone E.toElastic) (Exporter.elastic calls) S.buffer (Exporter.init ⟨[], 0⟩ S.start) es)
    (g4 : ∀ g ∈ gs, g.Right S dss) :
    ∃ docs parts, Exporter.RequestsFor calls S.buffer docs (E.bulkOf s).ops (E.bulkOf s).calls parts ∧ SentUnder S E dss pols evs docs :=
  elastic_of_alerts_as S E _ _ hn calls s g1 g2 g3 hclosed hfin g4

/-- What reaches Elastic, if the reader stage emits the records of the events `evs`. -/
theorem elastic_lossy (S : Setup P) (E : EcsSide S) (dss : P → List (List Decl)) (ok : S.Core dss) (hn : KindNames S.L) (calls : Nat → Bool)
    (tr : List (Drain.Obs Msg)) (s : Drain.St (E.elasticWith calls)) (h : Exec (E.elasticWith calls) tr s) (hw : Waited s)
    (evs : List Event) (frs : List FlatRec) (hem : emitted (readerStep S.F S.fuel S.clock) S.reader0 (driven tr) = frs.map Msg.flat)
    (hstore : List.Forall₂ (StoresEvent S.F) evs frs) :
    ∃ docs parts, Exporter.RequestsFor calls S.buffer docs (E.bulkOf s).ops (E.bulkOf s).calls parts ∧ SentFor S E dss evs docs := by
  obtain ⟨gs, es, ⟨rest, g1⟩, g2, g3, hclosed, hfin, g4⟩ := alerts_delivered S dss ok _ _ _ tr s h hw evs frs hem hstore
  obtain ⟨docs, parts, h1, h2⟩ := elastic_of_alerts S E dss hn calls s g1 g2 g3 hclosed hfin g4
  exact ⟨docs, parts, h1, rest, h2⟩

/-- The same if no call fails. -/
theorem elastic_complete (S : Setup P) (E : EcsSide S) (dss : P → List (List Decl)) (ok : S.Core dss) (hn : KindNames S.L)
    (tr : List (Drain.Obs Msg)) (s : Drain.St E.elasticNet) (h : Exec E.elasticNet tr s) (hw : Waited s)
    (evs : List Event) (frs : List FlatRec) (hem : emitted (readerStep S.F S.fuel S.clock) S.reader0 (driven tr) = frs.map Msg.flat)
    (hstore : List.Forall₂ (StoresEvent S.F) evs frs) :
    ∃ bulks : List (List (Bytes × Bytes)), E.requests s = bulks.flatMap Exporter.bulk ∧ (∀ b ∈ bulks, b ≠ [] ∧ (b.length : Int) ≤ max S.buffer 1) ∧
      SentFor S E dss evs bulks.flatten := by
  obtain ⟨docs, parts, h1, h2⟩ := elastic_lossy S E dss ok hn (fun _ => true) tr s h hw evs frs hem hstore
  have h3 : E.requests s = (parts.map Prod.snd).flatMap Exporter.bulk := h1.all (fun _ _ => rfl)
  refine ⟨parts.map Prod.snd, h3, ?_, ?_⟩
  · intro b hb
    obtain ⟨q, hq, rfl⟩ := List.mem_map.1 hb
    exact h1.sizes q hq
  · rw [← List.flatMap_def, h1.batches]
    exact h2

/-- **C82** ECS to Elastic. When `Wait` returns, the bulk requests made are complete bulks, none empty and none larger than the configured buffer, and the documents in them are,
in order, complete for the events of the stream: one for each event that the policies in force let pass, and nothing else. -/
theorem whole_program_elastic (S : Setup P) (E : EcsSide S) (dss : P → List (List Decl)) (ok : S.Core dss) (hn : KindNames S.L) (hdedup : S.dedup = false)
    (rs : List Rec) (rd : Processor.State) (cs : List HCall) (hrun : Processor.run false S.fuel .init rs = some (rd, cs))
    (tr : List (Drain.Obs Msg)) (s : Drain.St E.elasticNet) (h : Exec E.elasticNet tr s) (hw : Waited s) (hd : driven tr = rs.map Msg.sf) :
    ∃ bulks : List (List (Bytes × Bytes)), E.requests s = bulks.flatMap Exporter.bulk ∧ (∀ b ∈ bulks, b ≠ [] ∧ (b.length : Int) ≤ max S.buffer 1) ∧
      SentFor S E dss (eventsAfter [] rs) bulks.flatten := by
  obtain ⟨h1, h2⟩ := reader_all S hdedup rs rd cs hrun
  exact elastic_complete S E dss ok hn tr s h hw _ _ (by rw [hd]; exact h1) h2

/-- What complete documents mean for an index that they reach without failure: nothing stored before is lost or changed; no id is stored twice; what is new is the document of an event of a stretch whose
policies let it pass; and the id of the document of each such event is stored. -/
theorem index_as (S : Setup P) (E : EcsSide S) {Want : P → Event → Prop} {V : P → List (Str × FVal) → List RuleInfo} {pols : List P} {evs : List Event} {bulks : List (List (Bytes × Bytes))} (h : SentAs S E Want V pols evs bulks.flatten)
    (index : List (Bytes × Bytes)) (hindex : (index.map (·.1)).Nodup) :
    ∃ ss : List (P × List Event), ss.map Prod.fst = pols ∧ ss.flatMap Prod.snd = evs ∧ ∀ final, Exporter.Arrives index bulks final →
      (final.map (·.1)).Nodup ∧ (∀ x ∈ index, x ∈ final) ∧
      (∀ d ∈ final, d ∈ index ∨ ∃ g ∈ ss, ∃ x ∈ g.2, Want g.1 x ∧ DocWith S E (V g.1) x d.1 d.2) ∧
      ∀ g ∈ ss, ∀ x ∈ g.2, Want g.1 x → ∃ id text, DocWith S E (V g.1) x id text ∧ id ∈ final.map (·.1) := by
  classical
  obtain ⟨ss, e0, e1, e2, e3⟩ := h
  refine ⟨ss.map (fun g => (g.pol, g.events)), by rw [List.map_map]; exact e0, by rw [List.flatMap_map]; exact e1, fun final hf => ?_⟩
  obtain ⟨a1, a2, a3, a4, -⟩ := Exporter.elastic_index bulks index final hf hindex
  refine ⟨a1, a2, fun d hd' => ?_, fun q hq x hx hl => ?_⟩
  · rcases a3 d hd' with h' | h'
    · exact .inl h'
    · rw [← e2] at h'
      obtain ⟨g, hg, hdg⟩ := List.mem_flatMap.1 h'
      obtain ⟨picked, p1, -, p3⟩ := e3 g hg
      obtain ⟨x, hx, hxd⟩ : ∃ x ∈ picked, DocWith S E (V g.pol) x d.1 d.2 := by
        clear p1
        generalize g.docs = docs at p3 hdg
        induction p3 with
        | nil => cases hdg
        | cons h1 _ ih =>
          rcases List.mem_cons.1 hdg with rfl | hm
          · exact ⟨_, List.mem_cons_self, h1⟩
          · obtain ⟨x, i1, i2⟩ := ih hm
            exact ⟨x, List.mem_cons_of_mem _ i1, i2⟩
      have := p1.mem_iff.1 hx
      rw [List.mem_filter] at this
      exact .inr ⟨_, List.mem_map.2 ⟨g, hg, rfl⟩, x, this.1, of_decide_eq_true this.2, hxd⟩
  · obtain ⟨g, hg, rfl⟩ := List.mem_map.1 hq
    obtain ⟨picked, p1, -, p3⟩ := e3 g hg
    have hxp : x ∈ picked := p1.mem_iff.2 (List.mem_filter.2 ⟨hx, decide_eq_true hl⟩)
    obtain ⟨d, hd', hxd⟩ : ∃ d ∈ g.docs, DocWith S E (V g.pol) x d.1 d.2 := by
      clear p1
      generalize g.docs = docs at p3
      induction p3 with
      | nil => cases hxp
      | cons h1 _ ih =>
        rcases List.mem_cons.1 hxp with rfl | hm
        · exact ⟨_, List.mem_cons_self, h1⟩
        · obtain ⟨x, i1, i2⟩ := ih hm
          exact ⟨x, List.mem_cons_of_mem _ i1, i2⟩
    exact ⟨d.1, d.2, hxd, a4 d (e2 ▸ List.mem_flatMap.2 ⟨g, hg, hd'⟩)⟩

/-- **C82** The index afterwards, whatever the order in which the documents of each bulk are stored: nothing stored before is lost or changed; no id is stored twice; what is new is the
document of an event that its policies let pass; and the id of every such event's document is stored. -/
theorem whole_program_index (S : Setup P) (E : EcsSide S) (dss : P → List (List Decl)) (ok : S.Core dss) (hn : KindNames S.L) (hdedup : S.dedup = false)
    (d0 : List (List Decl)) (hd0 : ∀ p, dss p = d0)
    (rs : List Rec) (rd : Processor.State) (cs : List HCall) (hrun : Processor.run false S.fuel .init rs = some (rd, cs))
    (tr : List (Drain.Obs Msg)) (s : Drain.St E.elasticNet) (h : Exec E.elasticNet tr s) (hw : Waited s) (hd : driven tr = rs.map Msg.sf)
    (index : List (Bytes × Bytes)) (hindex : (index.map (·.1)).Nodup) :
    ∃ bulks : List (List (Bytes × Bytes)), E.requests s = bulks.flatMap Exporter.bulk ∧ ∀ final, Exporter.Arrives index bulks final →
      (final.map (·.1)).Nodup ∧ (∀ x ∈ index, x ∈ final) ∧
      (∀ d ∈ final, d ∈ index ∨ ∃ x ∈ eventsAfter [] rs, Logged S d0 x ∧ DocFor S E d0 x d.1 d.2) ∧
      ∀ x ∈ eventsAfter [] rs, Logged S d0 x → ∃ id text, DocFor S E d0 x id text ∧ id ∈ final.map (·.1) := by
  obtain ⟨bulks, r1, -, rest, hs⟩ := whole_program_elastic S E dss ok hn hdedup rs rd cs hrun tr s h hw hd
  obtain ⟨ss, -, e1, e2⟩ := index_as S E hs index hindex
  refine ⟨bulks, r1, fun final hf => ?_⟩
  obtain ⟨a1, a2, a3, a4⟩ := e2 final hf
  refine ⟨a1, a2, fun d hd' => ?_, fun x hx hl => ?_⟩
  · rcases a3 d hd' with h' | ⟨g, hg, x, hx, hl, hxd⟩
    · exact .inl h'
    · rw [hd0] at hl hxd
      exact .inr ⟨x, e1 ▸ List.mem_flatMap.2 ⟨g, hg, hx⟩, hl, hxd⟩
  · rw [← e1] at hx
    obtain ⟨g, hg, hxg⟩ := List.mem_flatMap.1 hx
    obtain ⟨id, text, h1, h2⟩ := a4 g hg x hxg (by rw [hd0]; exact hl)
    rw [hd0] at h1
    exact ⟨id, text, h1, h2⟩

/-- **C82** with the duplicate filter: as above for the events that survive it. -/
theorem whole_program_elastic_dedup (S : Setup P) (E : EcsSide S) (dss : P → List (List Decl)) (ok : S.Core dss) (hn : KindNames S.L) (hdedup : S.dedup = true)
    (hclock : Instants S.clock) (rs : List Rec) (rd : Processor.State) (cs : List HCall) (hrun : Processor.run false S.fuel .init rs = some (rd, cs))
    (tr : List (Drain.Obs Msg)) (s : Drain.St E.elasticNet) (h : Exec E.elasticNet tr s) (hw : Waited s) (hd : driven tr = rs.map Msg.sf) :
    ∃ kept, Survivors S.F S.ttl (fun i => S.clock i 0) (eventsAfter [] rs) kept ∧ ∃ bulks : List (List (Bytes × Bytes)),
      E.requests s = bulks.flatMap Exporter.bulk ∧ (∀ b ∈ bulks, b ≠ [] ∧ (b.length : Int) ≤ max S.buffer 1) ∧ SentFor S E dss kept bulks.flatten := by
  obtain ⟨kept, frs, h1, h2, h3⟩ := reader_survivors S hdedup hclock rs rd cs hrun
  exact ⟨kept, h3, elastic_complete S E dss ok hn tr s h hw _ _ (by rw [hd]; exact h1) h2⟩

/-! ### A concrete case -/

theorem demo_names : KindNames demoLib := by
  intro ev hev
  have key : ∀ n ∈ [K8S_EVT, PROC_EVT, NET_FLOW, FILE_FLOW, FILE_EVT],
      Strings.trimQuotes (demoLib.recType n) ∈ ["NF".toList, "FF".toList, "FE".toList, "PE".toList, "KE".toList] := by decide
  cases ev with
  | k8s e => exact key K8S_EVT (by decide)
  | procEvt e => exact key PROC_EVT (by decide)
  | netFlow e => exact key NET_FLOW (by decide)
  | fileFlow e => exact key FILE_FLOW (by decide)
  | fileEvt e => exact key FILE_EVT (by decide)
  | _ => cases hev

/-- The ECS side of the example. -/
def demoEcs (n : Nat) (code : List (Rule Record) × List (Filter Record)) : EcsSide (demoSetup n code) := ⟨Ecs.demoConf, Ecs.demoELib, rfl⟩

/-- A complete execution on the stream, for every number of workers: whatever the order of arrival, the index gets the document of the event that is to be logged. -/
example (n : Nat) (hn : 0 < n) : ∃ code tr, ∃ s : Drain.St (demoEcs n code).elasticNet, Exec (demoEcs n code).elasticNet tr s ∧ Waited s ∧
    driven tr = Processor.demoStream.map Msg.sf ∧ ∃ bulks : List (List (Bytes × Bytes)), (demoEcs n code).requests s = bulks.flatMap Exporter.bulk ∧
      ∀ final, Exporter.Arrives [] bulks final →
        ∃ id text, DocFor (demoSetup n code) (demoEcs n code) [lsDecls] (Processor.demoStream.take 7, .procEvt (Processor.demoPE 2)) id text ∧ id ∈ final.map (·.1) := by
  obtain ⟨code, ok⟩ := demo_ok n hn
  obtain ⟨hT, hC⟩ := netWith_ok (demoSetup n code) (Exporter.allOrNone (demoEcs n code).toElastic) (Exporter.elastic (fun _ => true)) ⟨[], 0⟩ ok.workers ok.cap
  obtain ⟨tr, s, he, hw, hd⟩ := Drain.complete_run_exists hT hC (Processor.demoStream.map Msg.sf) (show 9 ≤ 9 by decide)
  have h : (Processor.run false 10 .init Processor.demoStream).isSome = true := by decide
  obtain ⟨⟨rd, cs⟩, h⟩ := Option.isSome_iff_exists.mp h
  obtain ⟨bulks, b1, b2⟩ := whole_program_index (demoSetup n code) (demoEcs n code) _ ok.toCore demo_names rfl [lsDecls] (fun _ => rfl) Processor.demoStream rd cs h tr s he hw hd [] (by simp)
  refine ⟨code, tr, s, he, hw, hd, bulks, b1, fun final hf => ?_⟩
  exact (b2 final hf).2.2.2 _ (List.mem_cons_of_mem _ List.mem_cons_self) (demo_logged _ rfl rfl)

/-- Executions of the program writing ECS to a file exist too. -/
example (n : Nat) (hn : 0 < n) : ∃ code tr, (demoSetup n code).Core (fun _ => [lsDecls]) ∧ ∃ s : Drain.St (demoEcs n code).fileNet,
    Exec (demoEcs n code).fileNet tr s ∧ Waited s ∧ driven tr = Processor.demoStream.map Msg.sf := by
  obtain ⟨code, ok⟩ := demo_ok n hn
  obtain ⟨hT, hC⟩ := netWith_ok (demoSetup n code) (Exporter.allOrNone (demoEcs n code).toFile) (Exporter.fileTransport (fun _ => none)) Exporter.newFile ok.workers ok.cap
  obtain ⟨tr, s, he, hw, hd⟩ := Drain.complete_run_exists hT hC (Processor.demoStream.map Msg.sf) (show 9 ≤ 9 by decide)
  exact ⟨code, tr, ok.toCore, s, he, hw, hd⟩

end Verif.Whole
