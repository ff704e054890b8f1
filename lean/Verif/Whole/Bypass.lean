import Verif.Whole.Ecs
import Verif.Whole.FileRun
import Verif.Whole.OtelRuns
import Verif.Config.Props
/-
C86: the whole program in enrich mode without policies: the policy engine passes everything on.
Sources: /repo/core/policyengine/policyengine.go:76-87, 119-140, 196-234, /repo/core/policyengine/policyengine_flatrecord.go:27-31,
/repo/core/policyengine/policyengine_otel.go:26-30, /repo/driver/pipeline/pipeline.go:135-294
-/
namespace Verif.Whole
open Verif.Decimal (Str)
open Verif.Exporter (Bytes)
open Verif.FlatRecord
open Verif.Policy
open Verif.Falco
open Verif.Processor (Rec HCall demoStream demoPE)
open Verif.Flattener (FLib Known fields eventsAfter StoresEvent Stores)
open Verif.Pipeline
open Verif.Pipeline.Process
open Verif.Pipeline.Drain (Net Comp sync exporter chain emitted driven Exec Waited)

variable {P : Type}

/-! ### Model -/

/-- The policy engine without interpreter (policyengine.go:137-140, policyengine_flatrecord.go:29-31): each record is wrapped and sent. The loop reads, handles and sends in one goroutine; `Cleanup`
(policyengine.go:221-234) finds no interpreter and no monitor and closes the outputs. -/
def bypassStep (_ : Unit) : Msg → Unit × List Msg
  | .flat fr => ((), [.alert (newRecord fr)])
  | _ => ((), [])

/-- The pipeline with that policy engine, with any encoder and transport (pipeline.go:135-200). -/
def Setup.bypassWith {X D : Type} (S : Setup P) (C : Exporter.Codec Msg D) (T : Exporter.Transport X D) (x0 : X) : Net Msg :=
  chain ([sync (readerStep S.F S.fuel S.clock) S.reader0 1, sync bypassStep () 1] ++ [exporter C T S.buffer x0 S.start]) S.cap

/-- The same, writing to a file whose writes succeed. -/
def Setup.bypassNet (S : Setup P) (enc : Msg → Option Exporter.Datum) : Net Msg :=
  S.bypassWith (Exporter.allOrNone enc) (Exporter.fileTransport (fun _ => none)) Exporter.newFile

/-- The contents of the log file. -/
def Setup.bypassLog (S : Setup P) (enc : Msg → Option Exporter.Datum) (s : Drain.St (S.bypassNet enc)) : Bytes :=
  (show Exporter.State Exporter.OutFile Msg Exporter.Datum × Bool from s.st 2).1.tr.contents

/-! ### Specification -/

/-- The log is made of lines, one for each of the events `evs`, in their order. -/
def AllLogged (Line : Event → Bytes → Prop) (evs : List Event) (log : Bytes) : Prop :=
  ∃ lines, log = lines.flatMap (fun l => l ++ [Exporter.newline]) ∧ Exporter.linesOf [] log = lines ∧ List.Forall₂ Line evs lines

/-! ### Proofs -/

theorem bypassWith_ok {X D : Type} (S : Setup P) (C : Exporter.Codec Msg D) (T : Exporter.Transport X D) (x0 : X) (hcap : 0 < S.cap) :
    Drain.Tree (S.bypassWith C T x0) ∧ ∀ i, i < (S.bypassWith C T x0).n → Drain.Contract ((S.bypassWith C T x0).comp i) := by
  constructor
  · refine Drain.chain_tree _ S.cap hcap _ ?_ rfl
    intro C hC
    rcases List.mem_cons.1 hC with rfl | hC
    · rfl
    · rw [List.mem_singleton.1 hC]; rfl
  · refine Drain.chain_contract _ S.cap ?_
    intro C hC
    rcases List.mem_cons.1 hC with rfl | hC
    · exact Drain.sync_contract _ _ 1
    rcases List.mem_cons.1 hC with rfl | hC
    · exact Drain.sync_contract _ _ 1
    · rw [List.mem_singleton.1 hC]; exact Drain.exporter_contract _ _ _ _ _

theorem emitted_bypass (frs : List FlatRec) : emitted bypassStep () (frs.map Msg.flat) = frs.map (fun fr => Msg.alert (newRecord fr)) := by
  induction frs with
  | nil => rfl
  | cons fr frs ih =>
    rw [List.map_cons, emitted, List.map_cons]
    show [Msg.alert (newRecord fr)] ++ emitted bypassStep () _ = _
    rw [ih]
    rfl

/-- What the exporter has received when the pipeline has drained. -/
theorem bypass_delivered {X D : Type} (S : Setup P) (C : Exporter.Codec Msg D) (T : Exporter.Transport X D) (x0 : X) (hcap : 0 < S.cap)
    (tr : List (Drain.Obs Msg)) (s : Drain.St (S.bypassWith C T x0)) (h : Exec (S.bypassWith C T x0) tr s) (hw : Waited s)
    (frs : List FlatRec) (hem : emitted (readerStep S.F S.fuel S.clock) S.reader0 (driven tr) = frs.map Msg.flat) :
    ∃ es, Exporter.received es = frs.map (fun fr => Msg.alert (newRecord fr)) ∧ Exporter.closed es = true ∧
      (show Exporter.State X Msg D × Bool from s.st 2).1 = Exporter.run C T S.buffer (Exporter.init x0 S.start) es := by
  obtain ⟨hT, hC⟩ := bypassWith_ok S C T x0 hcap
  obtain ⟨_, h1, h2, h3, h4⟩ := Drain.drained_when_wait_returns hT hC h hw
  have l0 : 0 < (S.bypassWith C T x0).n := (show 0 < 3 by decide)
  have l1 : 1 < (S.bypassWith C T x0).n := (show 1 < 3 by decide)
  have l2 : 2 < (S.bypassWith C T x0).n := (show 2 < 3 by decide)
  have r0 : (sync (readerStep S.F S.fuel S.clock) S.reader0 1).Run (Drain.acts 0 tr) (s.st 0) := h4 0 l0
  have r1 : (sync bypassStep () 1).Run (Drain.acts 1 tr) (s.st 1) := h4 1 l1
  have r2 : (exporter C T S.buffer x0 S.start).Run (Drain.acts 2 tr) (s.st 2) := h4 2 l2
  have f0 : Drain.takes (Drain.acts 1 tr) = Drain.sends 0 (Drain.acts 0 tr) := h2 0 0 l0 (show 0 < 1 by decide)
  have f1 : Drain.takes (Drain.acts 2 tr) = Drain.sends 0 (Drain.acts 1 tr) := h2 1 0 l1 (show 0 < 1 by decide)
  have d0 := Drain.sync_delivers _ _ 1 r0 (hw 0 l0) 0 (by decide)
  have d1 := Drain.sync_delivers _ _ 1 r1 (hw 1 l1) 0 (by decide)
  obtain ⟨es, e1, e2, e3, _⟩ := Drain.exporter_run _ _ _ _ _ r2
  have hret : (!(show Exporter.State X Msg D × Bool from s.st 2).1.running) = true := hw 2 l2
  refine ⟨es, ?_, e3.trans hret, e1⟩
  rw [e2, f1, d1, f0, d0, h1, hem, emitted_bypass]

/-- The record of an event that the policy engine passes on: it shows the event and has no rules. -/
theorem bypass_alert (S : Setup P) (x : Event) (fr : FlatRec) (h : StoresEvent S.F x fr) : AlertFor S [] x (.alert (newRecord fr)) := by
  obtain ⟨hev, c, hk, hst⟩ := h
  refine ⟨c, newRecord fr, rfl, hk, hst, Flattener.fields_read S.L S.F c x.2 hev fr hst, ?_, fun _ => ⟨rfl, rfl⟩⟩
  have hv : verdict S.L [] (fields S.L S.F c x.2) = [] := by
    unfold verdict
    split <;> rfl
  rw [hv]
  rfl

/-- The log, for any encoder that makes of every record of an event a text without newline. -/
theorem bypass_log (S : Setup P) (hcap : 0 < S.cap) (enc : Msg → Option Exporter.Datum) (Line : Event → Bytes → Prop)
    (henc : ∀ x m, Processor.isEvent x.2 = true → AlertFor S [] x m → ∃ d, enc m = some d ∧ Line x d.text ∧ Exporter.newline ∉ d.text)
    (tr : List (Drain.Obs Msg)) (s : Drain.St (S.bypassNet enc)) (h : Exec (S.bypassNet enc) tr s) (hw : Waited s)
    (evs : List Event) (frs : List FlatRec) (hem : emitted (readerStep S.F S.fuel S.clock) S.reader0 (driven tr) = frs.map Msg.flat)
    (hstore : List.Forall₂ (StoresEvent S.F) evs frs) : AllLogged Line evs (S.bypassLog enc s) := by
  obtain ⟨es, hrec, hclosed, hfin⟩ := bypass_delivered S _ _ _ hcap tr s h hw frs hem
  have hds : ∃ ds : List Exporter.Datum, (frs.map (fun fr => Msg.alert (newRecord fr))).map enc = ds.map some ∧ (∀ d ∈ ds, Exporter.newline ∉ d.text) ∧
      List.Forall₂ Line evs (ds.map Exporter.Datum.text) := by
    clear hem hrec
    induction hstore with
    | nil => exact ⟨[], rfl, fun d hd => (by cases hd), .nil⟩
    | @cons x fr xs frs h1 _ ih =>
      obtain ⟨ds, i1, i2, i3⟩ := ih
      obtain ⟨d, d1, d2, d3⟩ := henc x _ h1.1 (bypass_alert S x fr h1)
      refine ⟨d :: ds, ?_, ?_, .cons d2 i3⟩
      · rw [List.map_cons, List.map_cons, d1, i1]; rfl
      · intro y hy
        rcases List.mem_cons.1 hy with rfl | hy
        · exact d3
        · exact i2 y hy
  obtain ⟨ds, s3, s4, s5⟩ := hds
  rw [← hrec] at s3
  have hnone : ∀ m ∈ Exporter.received es, enc m ≠ none := by
    intro m hm hn
    have : enc m ∈ (Exporter.received es).map enc := List.mem_map.2 ⟨m, hm, rfl⟩
    rw [s3, hn] at this
    obtain ⟨_, _, h⟩ := List.mem_map.1 this
    cases h
  have hfm : (Exporter.received es).filterMap enc = ds := by
    have : (Exporter.received es).filterMap enc = ((Exporter.received es).map enc).filterMap id := by rw [List.filterMap_map]; rfl
    rw [this, s3, List.filterMap_map]
    exact (List.filterMap_congr (fun _ _ => rfl)).trans List.filterMap_some
  have hlog : S.bypassLog enc s = Exporter.logOf ds := by
    unfold Setup.bypassLog
    rw [hfin, run_allOrNone enc _ _ es _ (fun r hr => (by cases hr)) hnone]
    exact (Exporter.file_log enc (fun _ => none) (fun _ => rfl) _ _ es hclosed).trans (by rw [hfm])
  refine ⟨ds.map Exporter.Datum.text, ?_, ?_, s5⟩
  · rw [hlog, List.flatMap_map]; rfl
  · rw [hlog]; exact Exporter.linesOf_log ds s4

/-! ## C86 -/

/-- **C86** JSON to a file. Without policies, whatever the schedule: when `Wait` returns, the log has exactly one line for each event of the stream, in the order of the events, without rules. -/
theorem bypass_program (S : Setup P) (hlib : Json.Spec.LibOk S.L) (hver : Json.Spec.VersionOk S.version) (hcap : 0 < S.cap) (hdedup : S.dedup = false)
    (rs : List Rec) (rd : Processor.State) (cs : List HCall) (hrun : Processor.run false S.fuel .init rs = some (rd, cs))
    (tr : List (Drain.Obs Msg)) (s : Drain.St (S.bypassNet S.enc)) (h : Exec (S.bypassNet S.enc) tr s) (hw : Waited s) (hd : driven tr = rs.map Msg.sf) :
    AllLogged (LineFor S []) (eventsAfter [] rs) (S.bypassLog S.enc s) := by
  obtain ⟨h1, h2⟩ := reader_all S hdedup rs rd cs hrun
  exact bypass_log S hcap S.enc (LineFor S []) (fun x m hev ha => json_lines S hlib hver [] x m hev ha) tr s h hw _ _ (by rw [hd]; exact h1) h2

/-- **C86** ECS to a file: the same with ECS documents. -/
theorem bypass_program_ecs (S : Setup P) (E : EcsSide S) (hn : KindNames S.L) (hcap : 0 < S.cap) (hdedup : S.dedup = false)
    (rs : List Rec) (rd : Processor.State) (cs : List HCall) (hrun : Processor.run false S.fuel .init rs = some (rd, cs))
    (tr : List (Drain.Obs Msg)) (s : Drain.St (S.bypassNet E.toFile)) (h : Exec (S.bypassNet E.toFile) tr s) (hw : Waited s) (hd : driven tr = rs.map Msg.sf) :
    AllLogged (EcsLine S E []) (eventsAfter [] rs) (S.bypassLog E.toFile s) := by
  obtain ⟨h1, h2⟩ := reader_all S hdedup rs rd cs hrun
  refine bypass_log S hcap E.toFile (EcsLine S E []) ?_ tr s h hw _ _ (by rw [hd]; exact h1) h2
  intro x m hev ha
  obtain ⟨d, d1, d2⟩ := alert_doc S E hn [] x m hev ha
  refine ⟨.obj (Ecs.recText d), by unfold EcsSide.toFile; rw [d1]; rfl, ⟨_, d2⟩, fun hc => ?_⟩
  obtain ⟨_, _, _, _, _, _, _, _, _, _, _, _, _, _, _, hv⟩ := d2
  exact absurd (hv _ hc) (by decide)

/-- **C86** The log does not depend on the schedule: two complete runs on the same records write the same log, byte for byte. -/
theorem bypass_deterministic (S : Setup P) (hlib : Json.Spec.LibOk S.L) (hver : Json.Spec.VersionOk S.version) (hcap : 0 < S.cap) (hdedup : S.dedup = false)
    (rs : List Rec) (hret : ∃ r, Processor.run false S.fuel .init rs = some r)
    (tr tr' : List (Drain.Obs Msg)) (s s' : Drain.St (S.bypassNet S.enc)) (h : Exec (S.bypassNet S.enc) tr s) (h' : Exec (S.bypassNet S.enc) tr' s') (hw : Waited s) (hw' : Waited s')
    (hd : driven tr = rs.map Msg.sf) (hd' : driven tr' = rs.map Msg.sf) : S.bypassLog S.enc s = S.bypassLog S.enc s' := by
  obtain ⟨⟨rd, cs⟩, hrun⟩ := hret
  obtain ⟨h1, h2⟩ := reader_all S hdedup rs rd cs hrun
  have key : ∀ (tr : List (Drain.Obs Msg)) (s : Drain.St (S.bypassNet S.enc)), Exec (S.bypassNet S.enc) tr s → Waited s → driven tr = rs.map Msg.sf →
      S.bypassLog S.enc s = Exporter.logOf (((cs.filterMap (Flattener.recOf S.F)).map (fun fr => Msg.alert (newRecord fr))).filterMap S.enc) := by
    intro tr s h hw hd
    obtain ⟨es, hrec, hclosed, hfin⟩ := bypass_delivered S _ _ _ hcap tr s h hw _ (by rw [hd]; exact h1)
    have hnone : ∀ m ∈ Exporter.received es, S.enc m ≠ none := by
      rw [hrec]
      intro m hm hn
      obtain ⟨fr, hfr, rfl⟩ := List.mem_map.1 hm
      have hex : ∃ x, StoresEvent S.F x fr := by
        clear hrec hfin h1 hm hn
        generalize eventsAfter [] rs = evs at h2
        generalize cs.filterMap (Flattener.recOf S.F) = frs at h2 hfr
        induction h2 with
        | nil => cases hfr
        | cons hx _ ih =>
          rcases List.mem_cons.1 hfr with rfl | hfr
          · exact ⟨_, hx⟩
          · exact ih hfr
      obtain ⟨x, hx⟩ := hex
      obtain ⟨d, hd, _⟩ := json_lines S hlib hver [] x _ hx.1 (bypass_alert S x fr hx)
      rw [hd] at hn
      cases hn
    unfold Setup.bypassLog
    rw [hfin, run_allOrNone S.enc _ _ es _ (fun r hr => (by cases hr)) hnone, ← hrec]
    exact Exporter.file_log S.enc (fun _ => none) (fun _ => rfl) _ _ es hclosed
  rw [key tr s h hw hd, key tr' s' h' hw' hd']

/-- A complete run on the stream of the example. -/
example (n : Nat) (code : List (Rule Record) × List (Filter Record)) : ∃ tr, ∃ s : Drain.St ((demoSetup n code).bypassNet (demoSetup n code).enc),
    Exec ((demoSetup n code).bypassNet (demoSetup n code).enc) tr s ∧ Waited s ∧ driven tr = demoStream.map Msg.sf ∧
    AllLogged (LineFor (demoSetup n code) []) (eventsAfter [] demoStream) ((demoSetup n code).bypassLog (demoSetup n code).enc s) ∧ (eventsAfter [] demoStream).length = 3 := by
  obtain ⟨hT, hC⟩ := bypassWith_ok (demoSetup n code) (Exporter.allOrNone (demoSetup n code).enc) (Exporter.fileTransport (fun _ => none)) Exporter.newFile (show 0 < 9 by decide)
  obtain ⟨tr, s, he, hw, hd⟩ := Drain.complete_run_exists hT hC (demoStream.map Msg.sf) (show 9 ≤ 9 by decide)
  have h : (Processor.run false 10 .init demoStream).isSome = true := by decide
  obtain ⟨⟨rd, cs⟩, h⟩ := Option.isSome_iff_exists.mp h
  exact ⟨tr, s, he, hw, hd, bypass_program (demoSetup n code) Json.demo_ok Json.demo_version (show 0 < 9 by decide) rfl demoStream rd cs h tr s he hw hd, rfl⟩

end Verif.Whole

namespace Verif.OtelRun
open Verif.Exporter (Bytes)
open Verif.Otel
open Verif.Pipeline
open Verif.Pipeline.Drain (Net sync exporter chain emitted driven Exec Waited)

variable {P : Type}

/-- The policy engine without interpreter for OpenTelemetry (policyengine.go:137-140, policyengine_otel.go:28-30): each record is sent as it is. -/
def bypassStep (_ : Unit) (rl : ResourceLogs) : Unit × List ResourceLogs := ((), [rl])

/-- The pipeline with that policy engine, with any transport (pipeline.go:135-200). -/
def Setup.bypassWith {X : Type} (S : Setup P) (T : Exporter.Transport X Exporter.Datum) (x0 : X) : Net ResourceLogs :=
  chain ([sync bypassStep () 1] ++ [exporter (Exporter.perRecord S.enc) T S.buffer x0 S.start]) S.cap

/-- The messages handed to the Kafka producer. -/
def Setup.bypassMessages (S : Setup P) (s : Drain.St (S.bypassWith (Exporter.kafka (fun _ => true)) ([], 0))) : List Bytes :=
  (show Exporter.State (List Bytes × Nat) ResourceLogs Exporter.Datum × Bool from s.st 1).1.tr.1

theorem bypassWith_ok {X : Type} (S : Setup P) (T : Exporter.Transport X Exporter.Datum) (x0 : X) (hcap : 0 < S.cap) :
    Drain.Tree (S.bypassWith T x0) ∧ ∀ i, i < (S.bypassWith T x0).n → Drain.Contract ((S.bypassWith T x0).comp i) := by
  constructor
  · refine Drain.chain_tree _ S.cap hcap _ ?_ rfl
    intro C hC
    rw [List.mem_singleton.1 hC]; rfl
  · refine Drain.chain_contract _ S.cap ?_
    intro C hC
    rcases List.mem_cons.1 hC with rfl | hC
    · exact Drain.sync_contract _ _ 1
    · rw [List.mem_singleton.1 hC]; exact Drain.exporter_contract _ _ _ _ _

/-- **C86** OpenTelemetry to Kafka without policies, whatever the records and the schedule: when `Wait` returns, the messages are the encodings of the records that can be encoded, unchanged and in order. -/
theorem bypass_program_otel (S : Setup P) (hcap : 0 < S.cap) (tr : List (Drain.Obs ResourceLogs)) (s : Drain.St (S.bypassWith (Exporter.kafka (fun _ => true)) ([], 0)))
    (h : Exec (S.bypassWith (Exporter.kafka (fun _ => true)) ([], 0)) tr s) (hw : Waited s) : S.bypassMessages s = (driven tr).filterMap S.encode := by
  obtain ⟨hT, hC⟩ := bypassWith_ok S (Exporter.kafka (fun _ => true)) ([], 0) hcap
  obtain ⟨_, h1, h2, h3, h4⟩ := Drain.drained_when_wait_returns hT hC h hw
  have l0 : 0 < (S.bypassWith (Exporter.kafka (fun _ => true)) ([], 0)).n := (show 0 < 2 by decide)
  have l1 : 1 < (S.bypassWith (Exporter.kafka (fun _ => true)) ([], 0)).n := (show 1 < 2 by decide)
  have r0 : (sync bypassStep () 1).Run (Drain.acts 0 tr) (s.st 0) := h4 0 l0
  have r1 : (exporter (Exporter.perRecord S.enc) (Exporter.kafka (fun _ => true)) S.buffer ([], 0) S.start).Run (Drain.acts 1 tr) (s.st 1) := h4 1 l1
  have f0 : Drain.takes (Drain.acts 1 tr) = Drain.sends 0 (Drain.acts 0 tr) := h2 0 0 l0 (show 0 < 1 by decide)
  have d0 := Drain.sync_delivers _ _ 1 r0 (hw 0 l0) 0 (by decide)
  obtain ⟨es, e1, e2, e3, _⟩ := Drain.exporter_run _ _ _ _ _ r1
  have hret : (!(show Exporter.State (List Bytes × Nat) ResourceLogs Exporter.Datum × Bool from s.st 1).1.running) = true := hw 1 l1
  have hem : ∀ rls : List ResourceLogs, emitted bypassStep () rls = rls := by
    intro rls
    induction rls with
    | nil => rfl
    | cons r rls ih =>
      rw [emitted]
      show [r] ++ emitted bypassStep () rls = _
      rw [ih]; rfl
  have hrec : Exporter.received es = driven tr := by rw [e2, f0, d0, h1, hem]
  unfold Setup.bypassMessages
  rw [e1, ← hrec]
  exact Exporter.kafka_log S.encode (fun _ => true) (fun _ => rfl) S.buffer S.start es (e3.trans hret)

/-- A complete run on three records, one of which could not be processed by policies. -/
example (n : Nat) (code : List (Policy.Rule ResourceLogs) × List (Policy.Filter ResourceLogs)) :
    ∃ tr, ∃ s : Drain.St ((demoRun n code).bypassWith (Exporter.kafka (fun _ => true)) ([], 0)), Exec ((demoRun n code).bypassWith (Exporter.kafka (fun _ => true)) ([], 0)) tr s ∧ Waited s ∧
      (demoRun n code).bypassMessages s = [List.replicate 3 97, [], List.replicate 3 97] := by
  obtain ⟨hT, hC⟩ := bypassWith_ok (demoRun n code) (Exporter.kafka (fun _ => true)) ([], 0) (show 0 < 9 by decide)
  obtain ⟨tr, s, he, hw, hd⟩ := Drain.complete_run_exists hT hC [demoLogs, { demoLogs with resource := none, scopes := [] }, demoLogs] (show 3 ≤ 9 by decide)
  refine ⟨tr, s, he, hw, ?_⟩
  rw [bypass_program_otel (demoRun n code) (show 0 < 9 by decide) tr s he hw, hd]
  rfl

end Verif.OtelRun
