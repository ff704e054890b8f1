import Verif.Whole.Props
import Verif.Otel.Policy
import Verif.Config.Exporter
import Verif.Pipeline.DriverProps
/-
C85: the whole program for OpenTelemetry logs: a driver, the policy engine with Falco policies, and the exporter with the OTel encoder, writing to Kafka or to a file; under every
schedule of its goroutines.
Sources: /repo/driver/pipeline/pipeline.go:135-294, /repo/core/policyengine/policyengine.go:83-234, /repo/core/policyengine/policyengine_otel.go:26-36,
/repo/core/exporter/exporter.go:113-186, /repo/core/exporter/encoders/otel.go:53-82, /repo/core/exporter/transports/{kafka,file}.go
-/
namespace Verif.OtelRun
open Verif.Decimal (Str)
open Verif.Exporter (Bytes)
open Verif.Policy
open Verif.Otel
open Verif.Falco (Decl GPolicy ltokens StrRule Cyclic MentionsE sites asRule siteCond)
open Verif.Pipeline
open Verif.Pipeline.Drain (Net Comp engine exporter chain driven Exec Waited EngineDelivers Segment)

variable {P : Type}

/-! ### Model -/

/-- The program's parameters: library functions (`json.Marshal` and `proto.Marshal` of a record, with the error as `none`); policy sets with the texts of their files and what they compile to; the order of
map iteration; mode; the actions available; the engine's workers, monitor and interval; the exporter's buffer size and encoding; channel capacity. -/
structure Setup (P : Type) where
  L : Otel.Lib
  json : ResourceLogs → Option Bytes
  proto : ResourceLogs → Option Bytes
  str : Str → Option Nat
  texts : P → List Str
  code : P → List (Rule ResourceLogs) × List (Filter ResourceLogs)
  order : List Str → List Str
  enrich : Bool
  builtIn : Engine.ActionMap ResourceLogs
  user : Engine.ActionMap ResourceLogs
  workers : Nat
  monitor : Bool
  interval : Int
  buffer : Int
  encoding : Config.KEncoding
  cap : Nat
  policies : P
  pending : List P
  start : Int

/-- What a worker of the policy engine makes of a record (policyengine.go:146-149, policyengine_otel.go:33-36; engine/interpreter.go:155-184). The record is changed in place; drivers send each
record once, so nothing else holds it. -/
def Setup.proc (S : Setup P) (p : P) (rl : ResourceLogs) : Option ResourceLogs :=
  (Engine.outs ((otelInterp S.order S.enrich (S.code p).1 (S.code p).2 S.builtIn S.user true).work rl).2).head?

/-- The policy engine's configuration. -/
def Setup.cfg (S : Setup P) : Engine.Swap.Cfg P ResourceLogs := ⟨S.proc, 1, S.workers, S.monitor, S.interval⟩

/-- `encode` (otel.go:65-82). The branch for other encodings is not reached: `parseEncodingConfig` yields these two only. -/
def Setup.encode (S : Setup P) (rl : ResourceLogs) : Option Bytes :=
  match S.encoding with
  | .json => S.json rl
  | .proto => S.proto rl

/-- The encoder as the transports see it. -/
def Setup.enc (S : Setup P) (rl : ResourceLogs) : Option Exporter.Datum := (S.encode rl).map Exporter.Datum.bytes

/-- The loaded pipeline with any transport: policy engine and exporter (pipeline.go:135-200). -/
def Setup.netWith {X : Type} (S : Setup P) (T : Exporter.Transport X Exporter.Datum) (x0 : X) : Net ResourceLogs :=
  chain ([engine S.cfg S.policies S.start S.pending] ++ [exporter (Exporter.perRecord S.enc) T S.buffer x0 S.start]) S.cap

/-- The pipeline producing to Kafka; `Produce` accepts the messages. -/
def Setup.kafkaNet (S : Setup P) : Net ResourceLogs := S.netWith (Exporter.kafka (fun _ => true)) ([], 0)

/-- The messages handed to the Kafka producer. -/
def Setup.messages (S : Setup P) (s : Drain.St S.kafkaNet) : List Bytes :=
  (show Exporter.State (List Bytes × Nat) ResourceLogs Exporter.Datum × Bool from s.st 1).1.tr.1

/-- The pipeline writing to a file whose writes succeed. -/
def Setup.fileNet (S : Setup P) : Net ResourceLogs := S.netWith (Exporter.fileTransport (fun _ => none)) Exporter.newFile

/-- The contents of that file. -/
def Setup.log (S : Setup P) (s : Drain.St S.fileNet) : Bytes :=
  (show Exporter.State Exporter.OutFile ResourceLogs Exporter.Datum × Bool from s.st 1).1.tr.contents

/-! ### Specification -/

/-- The policies want the record: no enabled filter is true of it and, unless in enrich mode, some rule applies. -/
def Wanted (S : Setup P) (dss : List (List Decl)) (rl : ResourceLogs) : Prop :=
  ¬ OFiltered S.L rl dss ∧ (S.enrich = true ∨ applicable S.L rl dss ≠ [])

/-- A stretch of the stream handled under one policy set, with the messages made of it. -/
structure Stretch (P : Type) where
  pol : P
  logs : List ResourceLogs
  messages : List Bytes

open Classical in
/-- Output is complete for the records `rls` under the policy sets `pols`: the records fall into consecutive stretches, one for each of these sets in order; the messages of a stretch are the encodings of its
records that the policies want, with the rules that apply noted in them and nothing else changed, one for each record that can be encoded; in the order of the records if there is one worker. -/
def CompleteUnder (S : Setup P) (dss : P → List (List Decl)) (pols : List P) (rls : List ResourceLogs) (messages : List Bytes) : Prop :=
  ∃ ss : List (Stretch P), ss.map Stretch.pol = pols ∧ ss.flatMap Stretch.logs = rls ∧ ss.flatMap Stretch.messages = messages ∧
    ∀ g ∈ ss, ∃ picked outs, List.Perm picked (g.logs.filter (fun rl => decide (Wanted S (dss g.pol) rl))) ∧
      (S.workers = 1 → picked = g.logs.filter (fun rl => decide (Wanted S (dss g.pol) rl))) ∧
      List.Forall₂ (fun rl out => Noted rl (applicable S.L rl (dss g.pol)) out) picked outs ∧
      g.messages = outs.filterMap S.encode

open Classical in
/-- Output is complete for the records `rls`: they fall into consecutive stretches, one for each policy set in force, from the first one on; the messages of a stretch are the encodings of its records that the
policies want, with the rules that apply noted in them and nothing else changed, one for each record that can be encoded; in the order of the records if there is one worker. -/
def CompleteFor (S : Setup P) (dss : P → List (List Decl)) (rls : List ResourceLogs) (messages : List Bytes) : Prop :=
  ∃ ss : List (Stretch P), (∃ rest, ss.map Stretch.pol = S.policies :: rest) ∧ ss.flatMap Stretch.logs = rls ∧ ss.flatMap Stretch.messages = messages ∧
    ∀ g ∈ ss, ∃ picked outs, List.Perm picked (g.logs.filter (fun rl => decide (Wanted S (dss g.pol) rl))) ∧
      (S.workers = 1 → picked = g.logs.filter (fun rl => decide (Wanted S (dss g.pol) rl))) ∧
      List.Forall₂ (fun rl out => Noted rl (applicable S.L rl (dss g.pol)) out) picked outs ∧
      g.messages = outs.filterMap S.encode

/-- The hypotheses: each policy set is compiled from texts of the rule language, whose definitions do not refer back to themselves and whose rules do not read what the processor writes; actions leave the
record alone; there are workers, and channels have room; the order of map iteration is some order. -/
structure Setup.Ok (S : Setup P) (dss : P → List (List Decl)) : Prop where
  str : StrRule S.str
  texts : ∀ p, List.Forall₂ (fun s ds => GPolicy (ltokens S.str s) ds) (S.texts p) (dss p)
  acyclic : ∀ p, ∀ x ∈ sites (dss p), ∀ e, siteCond x = some e → ¬ Cyclic x.2 e
  foreign : ∀ p, ∀ x ∈ (sites (dss p)).filterMap asRule, ∀ k, MentionsE x.2 k x.1.cond → Foreign k
  code : ∀ p, ∃ n, Falco.compile (otelOps S.L) n ((S.texts p).map (Falco.fileOf S.str)) = some (some (S.code p))
  actions : ∀ a f, (S.builtIn a = some f ∨ S.user a = some f) → ∀ r, (f r).1 = r
  order : ∀ l, (S.order l).Perm l
  workers : 0 < S.workers
  cap : 0 < S.cap

/-- What of this does not concern the policies. -/
structure Setup.Common (S : Setup P) : Prop where
  str : StrRule S.str
  actions : ∀ a f, (S.builtIn a = some f ∨ S.user a = some f) → ∀ r, (f r).1 = r
  order : ∀ l, (S.order l).Perm l
  workers : 0 < S.workers
  cap : 0 < S.cap

/-- What of this concerns one policy set. -/
structure Setup.Sound (S : Setup P) (dss : P → List (List Decl)) (p : P) : Prop where
  texts : List.Forall₂ (fun s ds => GPolicy (ltokens S.str s) ds) (S.texts p) (dss p)
  acyclic : ∀ x ∈ sites (dss p), ∀ e, siteCond x = some e → ¬ Cyclic x.2 e
  foreign : ∀ x ∈ (sites (dss p)).filterMap asRule, ∀ k, MentionsE x.2 k x.1.cond → Foreign k
  code : ∃ n, Falco.compile (otelOps S.L) n ((S.texts p).map (Falco.fileOf S.str)) = some (some (S.code p))

/-- Records the program is given: without holes, and not processed before. -/
def Given (rl : ResourceLogs) : Prop := WholeLogs rl ∧ Fresh rl.scopes

/-! ### Two stages -/

theorem netWith_ok {X : Type} (S : Setup P) (T : Exporter.Transport X Exporter.Datum) (x0 : X) (hn : 0 < S.workers) (hcap : 0 < S.cap) :
    Drain.Tree (S.netWith T x0) ∧ ∀ i, i < (S.netWith T x0).n → Drain.Contract ((S.netWith T x0).comp i) := by
  constructor
  · refine Drain.chain_tree _ S.cap hcap _ ?_ rfl
    intro C hC
    rw [List.mem_singleton.1 hC]
    rfl
  · refine Drain.chain_contract _ S.cap ?_
    intro C hC
    rcases List.mem_cons.1 hC with rfl | hC
    · exact Drain.engine_contract S.cfg hn S.policies S.start S.pending
    · rw [List.mem_singleton.1 hC]; exact Drain.exporter_contract _ _ _ _ _

/-- What is in the exporter when the pipeline has drained, along a run of the policy engine. -/
theorem two_stages_along {X : Type} (S : Setup P) (T : Exporter.Transport X Exporter.Datum) (x0 : X) (hn : 0 < S.workers) (hcap : 0 < S.cap)
    (tr : List (Drain.Obs ResourceLogs)) (s : Drain.St (S.netWith T x0)) (h : Exec (S.netWith T x0) tr s) (hw : Waited s) {tr1 : List (Engine.Swap.Obs P ResourceLogs)}
    (hx : Engine.Swap.Exec S.cfg S.policies S.start S.pending tr1 (show Engine.Swap.St P ResourceLogs from s.st 0)) (hi : Engine.Swap.inputs tr1 = Drain.takes (Drain.acts 0 tr))
    (hs : Engine.Swap.delivered 0 tr1 = Drain.sends 0 (Drain.acts 0 tr)) :
    ∃ segs es, segs.map Segment.pol = S.policies :: Engine.Swap.adoptions tr1 ∧ EngineDelivers S.cfg S.policies (driven tr) (Exporter.received es) segs ∧ Exporter.closed es = true ∧
      (show Exporter.State X ResourceLogs Exporter.Datum × Bool from s.st 1).1 = Exporter.run (Exporter.perRecord S.enc) T S.buffer (Exporter.init x0 S.start) es := by
  obtain ⟨hT, hC⟩ := netWith_ok S T x0 hn hcap
  obtain ⟨_, h1, h2, h3, h4⟩ := Drain.drained_when_wait_returns hT hC h hw
  have l0 : 0 < (S.netWith T x0).n := (show 0 < 2 by decide)
  have l1 : 1 < (S.netWith T x0).n := (show 1 < 2 by decide)
  have r1 : (exporter (Exporter.perRecord S.enc) T S.buffer x0 S.start).Run (Drain.acts 1 tr) (s.st 1) := h4 1 l1
  have f0 : Drain.takes (Drain.acts 1 tr) = Drain.sends 0 (Drain.acts 0 tr) := h2 0 0 l0 (show 0 < 1 by decide)
  have c0 : Drain.phaseCleaned (show Engine.Swap.St P ResourceLogs from s.st 0).phase = true := h3 0 l0 (show 0 < 1 by decide)
  have hfin : (show Engine.Swap.St P ResourceLogs from s.st 0).phase = .finished := by
    revert c0
    generalize (show Engine.Swap.St P ResourceLogs from s.st 0).phase = ph
    cases ph <;> intro c0 <;> first | rfl | cases c0
  obtain ⟨segs, hpol, hseg⟩ := Drain.engine_delivers_along S.cfg S.policies S.start S.pending hx hfin 0 (show 0 < 1 by decide)
  rw [hi, hs, h1, ← f0] at hseg
  obtain ⟨es, e1, e2, e3, _⟩ := Drain.exporter_run _ _ _ _ _ r1
  have hret : (!(show Exporter.State X ResourceLogs Exporter.Datum × Bool from s.st 1).1.running) = true := hw 1 l1
  exact ⟨segs, es, hpol, by rw [e2]; exact hseg, e3.trans hret, e1⟩

/-- What is in the exporter when the pipeline has drained. -/
theorem two_stages {X : Type} (S : Setup P) (T : Exporter.Transport X Exporter.Datum) (x0 : X) (hn : 0 < S.workers) (hcap : 0 < S.cap)
    (tr : List (Drain.Obs ResourceLogs)) (s : Drain.St (S.netWith T x0)) (h : Exec (S.netWith T x0) tr s) (hw : Waited s) :
    ∃ segs es, EngineDelivers S.cfg S.policies (driven tr) (Exporter.received es) segs ∧ Exporter.closed es = true ∧
      (show Exporter.State X ResourceLogs Exporter.Datum × Bool from s.st 1).1 = Exporter.run (Exporter.perRecord S.enc) T S.buffer (Exporter.init x0 S.start) es := by
  obtain ⟨hT, hC⟩ := netWith_ok S T x0 hn hcap
  obtain ⟨_, _, _, _, h4⟩ := Drain.drained_when_wait_returns hT hC h hw
  have r0 : (engine S.cfg S.policies S.start S.pending).Run (Drain.acts 0 tr) (s.st 0) := h4 0 (show 0 < 2 by decide)
  obtain ⟨tr1, k1, k2, k3⟩ := Drain.engine_run _ _ _ _ r0
  obtain ⟨segs, es, -, h⟩ := two_stages_along S T x0 hn hcap tr s h hw k1 k2 (k3 0)
  exact ⟨segs, es, h⟩

/-! ### The policy engine -/

theorem Setup.Ok.common {S : Setup P} {dss : P → List (List Decl)} (ok : S.Ok dss) : S.Common := ⟨ok.str, ok.actions, ok.order, ok.workers, ok.cap⟩

theorem Setup.Ok.sound {S : Setup P} {dss : P → List (List Decl)} (ok : S.Ok dss) (p : P) : S.Sound dss p := ⟨ok.texts p, ok.acyclic p, ok.foreign p, ok.code p⟩

open Classical in
theorem engine_step (S : Setup P) (dss : P → List (List Decl)) (ok : S.Common) (p : P) (hp : S.Sound dss p) (rl : ResourceLogs) (hg : Given rl) :
    (¬ Wanted S (dss p) rl → S.proc p rl = none) ∧ (Wanted S (dss p) rl → ∃ out, S.proc p rl = some out ∧ Noted rl (applicable S.L rl (dss p)) out) := by
  obtain ⟨n, rules, filters, hcomp, hall⟩ := otel_policy_texts_to_alerts S.L ok.str (S.texts p) (dss p) hp.texts hp.acyclic hp.foreign
  obtain ⟨m, hm⟩ := hp.code
  have hu := Whole.compile_unique _ _ _ _ _ _ hcomp hm
  cases hcode : S.code p with
  | mk r f =>
    rw [hcode] at hu
    cases hu
    obtain ⟨h1, h2⟩ := hall S.order S.enrich true S.builtIn S.user ok.order ok.actions rl hg.1 hg.2
    have h2 := h2 rfl
    unfold Setup.proc
    rw [hcode]
    dsimp only
    rw [h2]
    unfold Wanted
    by_cases hf : OFiltered S.L rl (dss p)
    · rw [if_pos hf]
      exact ⟨fun _ => rfl, fun h => absurd hf h.1⟩
    · rw [if_neg hf] at h1 ⊢
      by_cases ha : S.enrich = true ∨ applicable S.L rl (dss p) ≠ []
      · rw [if_pos ha]
        exact ⟨fun h => absurd ⟨hf, ha⟩ h, fun _ => ⟨_, rfl, h1⟩⟩
      · rw [if_neg ha]
        exact ⟨fun _ => rfl, fun h => absurd h.2 ha⟩

theorem pick_noted (S : Setup P) (dss : P → List (List Decl)) (ok : S.Common) (p : P) (hp : S.Sound dss p) (ins : List ResourceLogs) (hg : ∀ rl ∈ ins, Given rl) [DecidablePred (Wanted S (dss p))] :
    List.Forall₂ (fun rl out => Noted rl (applicable S.L rl (dss p)) out) (ins.filter (fun rl => decide (Wanted S (dss p) rl))) (ins.filterMap (S.proc p)) := by
  induction ins with
  | nil => exact .nil
  | cons rl ins ih =>
    have i := ih (fun x hx => hg x (by simp [hx]))
    obtain ⟨h1, h2⟩ := engine_step S dss ok p hp rl (hg rl (by simp))
    by_cases hw : Wanted S (dss p) rl
    · obtain ⟨out, e1, e2⟩ := h2 hw
      rw [List.filter_cons_of_pos (by simpa using hw), List.filterMap_cons, e1]
      exact .cons e2 i
    · rw [List.filter_cons_of_neg (by simpa using hw), List.filterMap_cons, h1 hw]
      exact i

/-- What the exporter receives, and what it makes of it. -/
theorem complete_under (S : Setup P) (dss : P → List (List Decl)) (ok : S.Common) (rls fw : List ResourceLogs) (hg : ∀ rl ∈ rls, Given rl)
    (segs : List (Segment P ResourceLogs)) (hs : ∀ g ∈ segs, S.Sound dss g.pol) (hd : EngineDelivers S.cfg S.policies rls fw segs) :
    CompleteUnder S dss (segs.map Segment.pol) rls (fw.filterMap S.encode) := by
  classical
  refine ⟨segs.map (fun g => ⟨g.pol, g.ins, g.outs.filterMap S.encode⟩), ?_, ?_, ?_, ?_⟩
  · rw [List.map_map]; rfl
  · rw [List.flatMap_map]; exact hd.input
  · rw [List.flatMap_map, ← hd.output]
    clear hd hs
    induction segs with
    | nil => rfl
    | cons g gs ih => rw [List.flatMap_cons, List.flatMap_cons, List.filterMap_append, ih]
  · intro g hgm
    obtain ⟨q, hq, rfl⟩ := List.mem_map.1 hgm
    have hall := pick_noted S dss ok q.pol (hs q hq) q.ins (fun rl hrl => hg rl (by rw [← hd.input]; exact List.mem_flatMap.2 ⟨q, hq, hrl⟩))
    by_cases h1 : S.workers = 1
    · have : q.outs = q.ins.filterMap (S.proc q.pol) := hd.order h1 q hq
      exact ⟨_, q.outs, .refl _, fun _ => rfl, by rw [this]; exact hall, rfl⟩
    · obtain ⟨picked, w1, w2⟩ := Whole.forall₂_perm (hd.each q hq) hall
      exact ⟨picked, q.outs, w1, fun h => absurd h h1, w2, rfl⟩

theorem complete_of_delivers (S : Setup P) (dss : P → List (List Decl)) (ok : S.Ok dss) (rls fw : List ResourceLogs) (hg : ∀ rl ∈ rls, Given rl)
    (segs : List (Segment P ResourceLogs)) (hd : EngineDelivers S.cfg S.policies rls fw segs) : CompleteFor S dss rls (fw.filterMap S.encode) := by
  obtain ⟨ss, h1, h2⟩ := complete_under S dss ok.common rls fw hg segs (fun g _ => ok.sound g.pol) hd
  obtain ⟨rest, hr⟩ := hd.first
  exact ⟨ss, ⟨rest, h1.trans hr⟩, h2⟩

/-! ## C85 -/

theorem enc_bytes (S : Setup P) (fw : List ResourceLogs) : fw.filterMap S.enc = (fw.filterMap S.encode).map Exporter.Datum.bytes := by
  rw [List.map_filterMap]; rfl

theorem kafka_messages (S : Setup P) (x : Exporter.State (List Bytes × Nat) ResourceLogs Exporter.Datum) {es : List (Exporter.Ev ResourceLogs)} (hc : Exporter.closed es = true)
    (hfin : x = Exporter.run (Exporter.perRecord S.enc) (Exporter.kafka (fun _ => true)) S.buffer (Exporter.init ([], 0) S.start) es) :
    x.tr.1 = (Exporter.received es).filterMap S.encode := by
  rw [hfin]
  exact Exporter.kafka_log S.encode (fun _ => true) (fun _ => rfl) S.buffer S.start es hc

theorem file_lines (S : Setup P) (hline : ∀ rl b, S.encode rl = some b → Exporter.newline ∉ b) (x : Exporter.State Exporter.OutFile ResourceLogs Exporter.Datum) {es : List (Exporter.Ev ResourceLogs)}
    (hc : Exporter.closed es = true) (hfin : x = Exporter.run (Exporter.perRecord S.enc) (Exporter.fileTransport (fun _ => none)) S.buffer (Exporter.init Exporter.newFile S.start) es) :
    Exporter.linesOf [] x.tr.contents = (Exporter.received es).filterMap S.encode ∧ x.tr.contents = (Exporter.linesOf [] x.tr.contents).flatMap (fun l => l ++ [Exporter.newline]) := by
  have e : x.tr.contents = Exporter.logOf (((Exporter.received es).filterMap S.encode).map Exporter.Datum.bytes) := by
    rw [hfin, ← enc_bytes]
    exact Exporter.file_log S.enc (fun _ => none) (fun _ => rfl) S.buffer S.start es hc
  have el : Exporter.linesOf [] x.tr.contents = (Exporter.received es).filterMap S.encode := by
    rw [e, Exporter.linesOf_log]
    · rw [List.map_map]
      exact List.map_id _
    · intro d hdm
      obtain ⟨b, hb, rfl⟩ := List.mem_map.1 hdm
      obtain ⟨rl, _, hrl⟩ := List.mem_filterMap.1 hb
      exact hline rl b hrl
  refine ⟨el, ?_⟩
  rw [el, e]
  unfold Exporter.logOf
  rw [List.flatMap_map]
  rfl

/-- **C85** OpenTelemetry logs to Kafka: for every stream of records a driver delivers, every schedule of the goroutines, every moment at which policy sets are replaced, and every firing of the exporter's timer:
when `Wait` returns, the messages handed to the producer are complete for the records delivered. -/
theorem whole_program_otel (S : Setup P) (dss : P → List (List Decl)) (ok : S.Ok dss)
    (tr : List (Drain.Obs ResourceLogs)) (s : Drain.St S.kafkaNet) (h : Exec S.kafkaNet tr s) (hw : Waited s) (hg : ∀ rl ∈ driven tr, Given rl) :
    CompleteFor S dss (driven tr) (S.messages s) := by
  obtain ⟨segs, es, hd, hc, hfin⟩ := two_stages S _ _ ok.workers ok.cap tr s h hw
  have := complete_of_delivers S dss ok _ _ hg segs hd
  rw [← kafka_messages S _ hc hfin] at this
  exact this

/-- **C85** OpenTelemetry logs to a file, with an encoding that contains no newline: the log's lines are complete for the records delivered. -/
theorem whole_program_otel_file (S : Setup P) (dss : P → List (List Decl)) (ok : S.Ok dss) (hline : ∀ rl b, S.encode rl = some b → Exporter.newline ∉ b)
    (tr : List (Drain.Obs ResourceLogs)) (s : Drain.St S.fileNet) (h : Exec S.fileNet tr s) (hw : Waited s) (hg : ∀ rl ∈ driven tr, Given rl) :
    CompleteFor S dss (driven tr) (Exporter.linesOf [] (S.log s)) ∧
    S.log s = (Exporter.linesOf [] (S.log s)).flatMap (fun l => l ++ [Exporter.newline]) := by
  obtain ⟨segs, es, hd, hc, hfin⟩ := two_stages S _ _ ok.workers ok.cap tr s h hw
  obtain ⟨e1, e2⟩ := file_lines S hline _ hc hfin
  have hcomp := complete_of_delivers S dss ok _ _ hg segs hd
  rw [← e1] at hcomp
  exact ⟨hcomp, e2⟩

end Verif.OtelRun
