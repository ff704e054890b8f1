import Verif.Whole.Otel
import Verif.Whole.Tree
import Verif.Otel.ReadBack
/-
C114: OpenTelemetry logs through any number of policy engines in a row, under every schedule of the goroutines.
Sources: /repo/driver/pipeline/pipeline.go:135-294 (a stage's output channel may be any other stage's input channel), /repo/core/policyengine/policyengine.go:55-57, 117-124, 205-217 (for OpenTelemetry an engine's
input and output channels have the same type, so that an engine may feed an engine), /repo/core/policyengine/source/otel/contextualizer.go
-/
namespace Verif.OtelRun
open Verif.Decimal (Str)
open Verif.Exporter (Bytes)
open Verif.Policy
open Verif.Otel
open Verif.Falco (Decl GPolicy ltokens StrRule Cyclic MentionsE sites asRule asFilter siteCond)
open Verif.Pipeline
open Verif.Pipeline.Drain (Net Comp engine exporter chain driven Exec Waited EngineDelivers Segment)

variable {P : Type}

/-! ### Model -/

/-- The loaded pipeline (pipeline.go:135-200): the policy engines one behind the other, then the exporter. Of each element of `E` the engine's part is used (policies, actions, workers), of `S` the exporter's part
and the capacity of the channels. Records are handed on by reference; an engine does not touch a record after it has passed it on (engine/interpreter.go:155-184). -/
def series {X : Type} (E : List (Setup P)) (S : Setup P) (T : Exporter.Transport X Exporter.Datum) (x0 : X) : Net ResourceLogs :=
  chain (E.map (fun e => engine e.cfg e.policies e.start e.pending) ++ [exporter (Exporter.perRecord S.enc) T S.buffer x0 S.start]) S.cap

/-! ### Specification -/

/-- A record on its way through the engines: the record as the driver sent it, and the rules noted in it so far. -/
abbrev Way := ResourceLogs × List RuleInfo

/-- The policies `D` want the record with the rules noted so far: no enabled filter is true of it (filters may read which rules have been noted) and, unless in enrich mode, some rule applies. -/
def WantedNow (S : Setup P) (D : List (List Decl)) (w : Way) : Prop :=
  ¬ OFiltered S.L (marked w.1 w.2) D ∧ (S.enrich = true ∨ applicable S.L w.1 D ≠ [])

open Classical in
/-- What an engine with the policies `D` makes of records, one after the other: those its policies want, each with the rules that apply noted behind those noted before. -/
noncomputable def passOn (S : Setup P) (D : List (List Decl)) (ws : List Way) : List Way :=
  (ws.filter (fun w => decide (WantedNow S D w))).map (fun w => (w.1, w.2 ++ applicable S.L w.1 D))

/-- An engine has received the records `ins` and sent on the records `outs`: the records received fall into consecutive stretches, one for each policy set in force, from the first one on; sent on is what the
policies of the stretch make of its records, in the order of the records if there is one worker. -/
def Passed (S : Setup P) (dss : P → List (List Decl)) (ins outs : List Way) : Prop :=
  ∃ ss : List (P × List Way × List Way), (∃ rest, ss.map (·.1) = S.policies :: rest) ∧ ss.flatMap (·.2.1) = ins ∧ ss.flatMap (·.2.2) = outs ∧
    ∀ g ∈ ss, g.2.2.Perm (passOn S (dss g.1) g.2.1) ∧ (S.workers = 1 → g.2.2 = passOn S (dss g.1) g.2.1)

/-- … and so on, engine by engine; `dss S` are the declarations in the policy sets of engine `S`. -/
def PassedAll (dss : Setup P → P → List (List Decl)) : List (Setup P) → List Way → List Way → Prop
  | [], ins, outs => outs = ins
  | S :: E, ins, outs => ∃ mid, Passed S (dss S) ins mid ∧ PassedAll dss E mid outs

/-- The messages are the encodings of these records, with these rules noted in them and nothing else changed, one for each record that can be encoded. -/
def MessagesOf (S : Setup P) (ws : List Way) (messages : List Bytes) : Prop :=
  ∃ outs, List.Forall₂ (fun (w : Way) out => Noted w.1 w.2 out) ws outs ∧ messages = outs.filterMap S.encode

/-- Filters do not read the tags that processors write. -/
def Setup.FiltersTagless (dss : P → List (List Decl)) (p : P) : Prop :=
  ∀ x ∈ (sites (dss p)).filterMap asFilter, ∀ k, MentionsE x.2 k x.1.cond → k ≠ "sf.processor.tags".toList

/-- Filters, too, do not read what processors write. -/
def Setup.FiltersForeign (dss : P → List (List Decl)) (p : P) : Prop :=
  ∀ x ∈ (sites (dss p)).filterMap asFilter, ∀ k, MentionsE x.2 k x.1.cond → Foreign k

/-- What the exporter at the end of the row has come to. -/
def Holding {N : Net ResourceLogs} (s : Drain.St N) (j : Nat) {X : Type} (out : X) : Prop :=
  ∃ o : Exporter.State X ResourceLogs Exporter.Datum × Bool, HEq (s.st j) o ∧ o.1.tr = out

/-! ### Proofs -/

/-- The record is that of the way, given to the program, with the rules of the way noted. -/
def OnWay (w : Way) (m : ResourceLogs) : Prop := Given w.1 ∧ Noted w.1 w.2 m

theorem series_step (S : Setup P) (dss : P → List (List Decl)) (ok : S.Common) (p : P) (hp : S.Sound dss p) (hf : Setup.FiltersTagless dss p) (w : Way) (m : ResourceLogs) (h : OnWay w m) :
    (¬ WantedNow S (dss p) w → S.proc p m = none) ∧ (WantedNow S (dss p) w → ∃ out, S.proc p m = some out ∧ OnWay (w.1, w.2 ++ applicable S.L w.1 (dss p)) out) := by
  obtain ⟨n, rules, filters, hcomp, hall⟩ := otel_engine_filters_noted S.L ok.str (S.texts p) (dss p) hp.texts hp.acyclic hp.foreign hf
  obtain ⟨m', hm⟩ := hp.code
  have hu := Whole.compile_unique _ _ _ _ _ _ hcomp hm
  cases hcode : S.code p with
  | mk r f =>
    rw [hcode] at hu
    cases hu
    obtain ⟨h1, h2⟩ := hall S.order S.enrich true S.builtIn S.user ok.order ok.actions w.1 h.1.1 h.1.2 w.2 m h.2
    have h2 := h2 rfl
    have hmk := filtered_marked S.L (dss p) hf h.2
    unfold Setup.proc
    rw [hcode]
    dsimp only
    rw [h2]
    unfold WantedNow
    rw [← hmk]
    by_cases hf : OFiltered S.L m (dss p)
    · rw [if_pos hf]
      exact ⟨fun _ => rfl, fun h => absurd hf h.1⟩
    · rw [if_neg hf] at h1 ⊢
      by_cases ha : S.enrich = true ∨ applicable S.L w.1 (dss p) ≠ []
      · rw [if_pos ha]
        exact ⟨fun h => absurd ⟨hf, ha⟩ h, fun _ => ⟨_, rfl, h.1, h1⟩⟩
      · rw [if_neg ha]
        exact ⟨fun _ => rfl, fun h => absurd h.2 ha⟩

theorem series_pick (S : Setup P) (dss : P → List (List Decl)) (ok : S.Common) (p : P) (hp : S.Sound dss p) (hf : Setup.FiltersTagless dss p) {ws : List Way} {ms : List ResourceLogs}
    (h : List.Forall₂ OnWay ws ms) : List.Forall₂ OnWay (passOn S (dss p) ws) (ms.filterMap (S.proc p)) := by
  classical
  unfold passOn
  induction h with
  | nil => exact .nil
  | @cons w m _ _ h _ ih =>
    obtain ⟨h1, h2⟩ := series_step S dss ok p hp hf w m h
    by_cases hw : WantedNow S (dss p) w
    · obtain ⟨out, e1, e2⟩ := h2 hw
      rw [List.filter_cons_of_pos (by simpa using hw), List.filterMap_cons, e1, List.map_cons]
      exact .cons e2 ih
    · rw [List.filter_cons_of_neg (by simpa using hw), List.filterMap_cons, h1 hw]
      exact ih

theorem split_along {α β γ : Type} {r : α → β → Prop} (f : γ → List β) : ∀ (gs : List γ) (xs : List α), List.Forall₂ r xs (gs.flatMap f) →
    ∃ cut : List (γ × List α), cut.map (·.1) = gs ∧ cut.flatMap (·.2) = xs ∧ ∀ c ∈ cut, List.Forall₂ r c.2 (f c.1) := by
  intro gs
  induction gs with
  | nil => intro xs h; cases h; exact ⟨[], rfl, rfl, fun _ h => (by cases h)⟩
  | cons g gs ih =>
    intro xs h
    obtain ⟨x1, x2, rfl, h1, h2⟩ := Whole.forall₂_append h
    obtain ⟨cut, c1, c2, c3⟩ := ih x2 h2
    refine ⟨(g, x1) :: cut, by rw [List.map_cons, c1], by rw [List.flatMap_cons, c2], fun c hc => ?_⟩
    rcases List.mem_cons.1 hc with rfl | hc
    · exact h1
    · exact c3 c hc

theorem join_forall₂ {α β : Type} {r : α → β → Prop} {γ : Type} (f : γ → List α) (g : γ → List β) : ∀ (cs : List γ), (∀ c ∈ cs, List.Forall₂ r (f c) (g c)) → List.Forall₂ r (cs.flatMap f) (cs.flatMap g) := by
  intro cs
  induction cs with
  | nil => intro _; exact .nil
  | cons c cs ih =>
    intro h
    rw [List.flatMap_cons, List.flatMap_cons]
    have h1 := h c List.mem_cons_self
    have h2 := ih (fun x hx => h x (List.mem_cons_of_mem _ hx))
    generalize f c = a at h1
    generalize g c = b at h1
    induction h1 with
    | nil => exact h2
    | cons h _ ih => exact .cons h ih

/-- One engine of the row. -/
theorem series_engine (S : Setup P) (dss : P → List (List Decl)) (ok : S.Common) (hs : ∀ p, S.Sound dss p ∧ Setup.FiltersTagless dss p) {ws : List Way} {ms fw : List ResourceLogs}
    (hw : List.Forall₂ OnWay ws ms) {segs : List (Segment P ResourceLogs)} (hd : EngineDelivers S.cfg S.policies ms fw segs) : ∃ ws', Passed S dss ws ws' ∧ List.Forall₂ OnWay ws' fw := by
  rw [← hd.input] at hw
  obtain ⟨cut, c1, c2, c3⟩ := split_along Segment.ins segs ws hw
  have each : ∀ c ∈ cut, ∃ o : List Way, o.Perm (passOn S (dss c.1.pol) c.2) ∧ (S.workers = 1 → o = passOn S (dss c.1.pol) c.2) ∧ List.Forall₂ OnWay o c.1.outs := by
    intro c hc
    have hm : c.1 ∈ segs := by rw [← c1]; exact List.mem_map.2 ⟨c, hc, rfl⟩
    have hp := series_pick S dss ok c.1.pol (hs _).1 (hs _).2 (c3 c hc)
    by_cases h1 : S.workers = 1
    · have : c.1.outs = c.1.ins.filterMap (S.proc c.1.pol) := hd.order h1 _ hm
      exact ⟨_, .refl _, fun _ => rfl, by rw [this]; exact hp⟩
    · obtain ⟨o, o1, o2⟩ := Whole.forall₂_perm (hd.each _ hm) hp
      exact ⟨o, o1, fun h => absurd h h1, o2⟩
  have all : ∃ full : List ((Segment P ResourceLogs × List Way) × List Way), full.map (·.1) = cut ∧
      ∀ g ∈ full, g.2.Perm (passOn S (dss g.1.1.pol) g.1.2) ∧ (S.workers = 1 → g.2 = passOn S (dss g.1.1.pol) g.1.2) ∧ List.Forall₂ OnWay g.2 g.1.1.outs := by
    clear c1 c2 c3
    induction cut with
    | nil => exact ⟨[], rfl, fun _ h => (by cases h)⟩
    | cons c cut ih =>
      obtain ⟨o, ho⟩ := each c List.mem_cons_self
      obtain ⟨full, f1, f2⟩ := ih (fun x hx => each x (List.mem_cons_of_mem _ hx))
      refine ⟨(c, o) :: full, by rw [List.map_cons, f1], fun g hg => ?_⟩
      rcases List.mem_cons.1 hg with rfl | hg
      · exact ho
      · exact f2 g hg
  obtain ⟨full, f1, f2⟩ := all
  have e1 : full.map (fun g => g.1.1) = segs := by rw [← c1, ← f1, List.map_map]; rfl
  refine ⟨full.flatMap (·.2), ⟨full.map (fun g => (g.1.1.pol, g.1.2, g.2)), ?_, ?_, ?_, ?_⟩, ?_⟩
  · obtain ⟨rest, hr⟩ := hd.first
    refine ⟨rest, ?_⟩
    rw [List.map_map, ← hr, ← e1, List.map_map]
    rfl
  · rw [List.flatMap_map, ← c2, ← f1, List.flatMap_map]
  · rw [List.flatMap_map]
  · intro g hg
    obtain ⟨q, hq, rfl⟩ := List.mem_map.1 hg
    exact ⟨(f2 q hq).1, (f2 q hq).2.1⟩
  · rw [← hd.output, ← e1, List.flatMap_map]
    exact join_forall₂ _ _ full (fun c hc => (f2 c hc).2.2)

theorem series_ok {X : Type} (E : List (Setup P)) (S : Setup P) (T : Exporter.Transport X Exporter.Datum) (x0 : X) (hn : ∀ e ∈ E, 0 < e.workers) (hcap : 0 < S.cap) :
    Drain.Tree (series E S T x0) ∧ ∀ i, i < (series E S T x0).n → Drain.Contract ((series E S T x0).comp i) := by
  constructor
  · refine Drain.chain_tree _ S.cap hcap _ ?_ rfl
    intro C hC
    obtain ⟨e, _, rfl⟩ := List.mem_map.1 hC
    rfl
  · refine Drain.chain_contract _ S.cap ?_
    intro C hC
    rcases List.mem_append.1 hC with hC | hC
    · obtain ⟨e, he, rfl⟩ := List.mem_map.1 hC
      exact Drain.engine_contract e.cfg (hn e he) e.policies e.start e.pending
    · rw [List.mem_singleton.1 hC]; exact Drain.exporter_contract _ _ _ _ _

/-- What a finished engine at some place of a pipeline has delivered. -/
theorem engine_at {C : Comp ResourceLogs} {e : Setup P} (hC : C = engine e.cfg e.policies e.start e.pending) {tr : List (Drain.Act ResourceLogs)} {st : C.S} (hr : C.Run tr st) (hc : C.cleaned st = true) :
    ∃ segs, EngineDelivers e.cfg e.policies (Drain.takes tr) (Drain.sends 0 tr) segs := by
  subst hC
  have hfin : (show Engine.Swap.St P ResourceLogs from st).phase = .finished := by
    have c1 : Drain.phaseCleaned (show Engine.Swap.St P ResourceLogs from st).phase = true := hc
    revert c1
    generalize (show Engine.Swap.St P ResourceLogs from st).phase = ph
    cases ph <;> intro c1 <;> first | rfl | cases c1
  exact Drain.engine_delivers e.cfg e.policies e.start e.pending hr hfin 0 (show 0 < 1 by decide)

/-- What the exporter at the end of the row has received, and what it makes of it. -/
theorem series_run {X : Type} (E : List (Setup P)) (S : Setup P) (T : Exporter.Transport X Exporter.Datum) (x0 : X) (dss : Setup P → P → List (List Decl)) (ok : ∀ e ∈ E, e.Common)
    (hs : ∀ e ∈ E, ∀ p, e.Sound (dss e) p ∧ Setup.FiltersTagless (dss e) p) (hcap : 0 < S.cap) (tr : List (Drain.Obs ResourceLogs)) (s : Drain.St (series E S T x0))
    (h : Exec (series E S T x0) tr s) (hw : Waited s) (hg : ∀ rl ∈ driven tr, Given rl) :
    ∃ fin es, PassedAll dss E ((driven tr).map (fun rl => (rl, []))) fin ∧ List.Forall₂ OnWay fin (Exporter.received es) ∧ Exporter.closed es = true ∧
      Holding s E.length (Exporter.run (Exporter.perRecord S.enc) T S.buffer (Exporter.init x0 S.start) es).tr := by
  obtain ⟨hT, hC⟩ := series_ok E S T x0 (fun e he => (ok e he).workers) hcap
  obtain ⟨_, h1, h2, h3, h4⟩ := Drain.drained_when_wait_returns hT hC h hw
  have hlen : (series E S T x0).n = E.length + 1 := by simp [series, chain]
  have hcomp : ∀ (i : Nat) (hi : i < E.length), (series E S T x0).comp i = engine (E[i]).cfg (E[i]).policies (E[i]).start (E[i]).pending := by
    intro i hi
    unfold series
    rw [Drain.chain_comp _ _ _ (by simp; omega), List.getElem_append_left (by simpa using hi), List.getElem_map]
  have hlast : (series E S T x0).comp E.length = exporter (Exporter.perRecord S.enc) T S.buffer x0 S.start := by
    unfold series
    rw [Drain.chain_comp _ _ _ (by simp), List.getElem_append_right (by simp)]
    simp
  have key : ∀ (suf pre : List (Setup P)) (ws : List Way), E = pre ++ suf → List.Forall₂ OnWay ws (Drain.takes (Drain.acts pre.length tr)) →
      ∃ fin, PassedAll dss suf ws fin ∧ List.Forall₂ OnWay fin (Drain.takes (Drain.acts E.length tr)) := by
    intro suf
    induction suf with
    | nil => intro pre ws hE hws; rw [List.append_nil] at hE; subst hE; exact ⟨ws, rfl, hws⟩
    | cons e suf ih =>
      intro pre ws hE hws
      have hi : pre.length < E.length := by rw [hE]; simp
      have hget : E[pre.length] = e := by simp [hE]
      have hce := hcomp pre.length hi
      rw [hget] at hce
      have hout : 0 < ((series E S T x0).comp pre.length).nOut := by rw [hce]; exact (show 0 < 1 by decide)
      obtain ⟨segs, hd⟩ := engine_at hce (h4 pre.length (by omega)) (h3 pre.length (by omega) hout)
      have he : e ∈ E := by rw [hE]; simp
      obtain ⟨ws', p1, p2⟩ := series_engine e (dss e) (ok e he) (hs e he) hws hd
      have hflow : Drain.takes (Drain.acts (pre.length + 1) tr) = Drain.sends 0 (Drain.acts pre.length tr) := h2 pre.length 0 (by omega) hout
      rw [← hflow] at p2
      obtain ⟨fin, f1, f2⟩ := ih (pre ++ [e]) ws' (by rw [hE]; simp) (by simpa using p2)
      exact ⟨fin, ⟨ws', p1, f1⟩, f2⟩
  obtain ⟨fin, f1, f2⟩ := key E [] ((driven tr).map (fun rl => (rl, []))) rfl (by
    rw [show ([] : List (Setup P)).length = 0 from rfl, h1]
    generalize driven tr = ds at hg
    induction ds with
    | nil => exact .nil
    | cons d ds ih => exact .cons ⟨hg d List.mem_cons_self, fun _ => rfl, fun h => absurd rfl h⟩ (ih (fun x hx => hg x (List.mem_cons_of_mem _ hx))))
  obtain ⟨st, e1, e2, e3, -⟩ := Whole.run_of_eq hlast (h4 E.length (by omega))
  rw [hw E.length (by omega)] at e3
  obtain ⟨es, k1, k2, k3, -⟩ := Drain.exporter_run _ _ _ _ _ e2
  exact ⟨fin, es, f1, by rw [k2]; exact f2, k3.trans e3, st, e1, by rw [k1]⟩

/-! ## C114 -/

theorem noted_of_ways {ws : List Way} {ms : List ResourceLogs} (h : List.Forall₂ OnWay ws ms) : List.Forall₂ (fun (w : Way) out => Noted w.1 w.2 out) ws ms := by
  induction h with
  | nil => exact .nil
  | cons h _ ih => exact .cons h.2 ih

/-- **C114** Any number of policy engines in a row, messages to Kafka: for every stream of records a driver delivers, every schedule of the goroutines and every moment at which any engine's policies are replaced: when
`Wait` returns, the messages handed to the producer are those of the records that came through all engines, with the rules that apply noted engine by engine. -/
theorem engines_in_a_row_kafka (E : List (Setup P)) (S : Setup P) (dss : Setup P → P → List (List Decl)) (ok : ∀ e ∈ E, e.Ok (dss e)) (hf : ∀ e ∈ E, ∀ p, Setup.FiltersTagless (dss e) p) (hcap : 0 < S.cap)
    (tr : List (Drain.Obs ResourceLogs)) (s : Drain.St (series E S (Exporter.kafka (fun _ => true)) ([], 0))) (h : Exec (series E S (Exporter.kafka (fun _ => true)) ([], 0)) tr s) (hw : Waited s)
    (hg : ∀ rl ∈ driven tr, Given rl) :
    ∃ fin messages n, PassedAll dss E ((driven tr).map (fun rl => (rl, []))) fin ∧ MessagesOf S fin messages ∧ Holding s E.length ((messages, n) : List Bytes × Nat) := by
  obtain ⟨fin, es, h1, h2, h3, h4⟩ := series_run E S _ _ dss (fun e he => (ok e he).common) (fun e he p => ⟨(ok e he).sound p, hf e he p⟩) hcap tr s h hw hg
  have hm := kafka_messages S _ h3 rfl
  refine ⟨fin, (Exporter.received es).filterMap S.encode, (Exporter.run (Exporter.perRecord S.enc) (Exporter.kafka (fun _ => true)) S.buffer (Exporter.init ([], 0) S.start) es).tr.2, h1,
    ⟨_, noted_of_ways h2, rfl⟩, ?_⟩
  rw [← hm]
  exact h4

/-- **C114** The same for a file whose writes succeed, with an encoding that contains no newline: its lines are these messages. -/
theorem engines_in_a_row_file (E : List (Setup P)) (S : Setup P) (dss : Setup P → P → List (List Decl)) (ok : ∀ e ∈ E, e.Ok (dss e)) (hf : ∀ e ∈ E, ∀ p, Setup.FiltersTagless (dss e) p) (hcap : 0 < S.cap)
    (hline : ∀ rl b, S.encode rl = some b → Exporter.newline ∉ b)
    (tr : List (Drain.Obs ResourceLogs)) (s : Drain.St (series E S (Exporter.fileTransport (fun _ => none)) Exporter.newFile)) (h : Exec (series E S (Exporter.fileTransport (fun _ => none)) Exporter.newFile) tr s)
    (hw : Waited s) (hg : ∀ rl ∈ driven tr, Given rl) :
    ∃ (fin : List Way) (f : Exporter.OutFile), PassedAll dss E ((driven tr).map (fun rl => (rl, []))) fin ∧ MessagesOf S fin (Exporter.linesOf [] f.contents) ∧
      f.contents = (Exporter.linesOf [] f.contents).flatMap (fun l => l ++ [Exporter.newline]) ∧ Holding s E.length f := by
  obtain ⟨fin, es, h1, h2, h3, h4⟩ := series_run E S _ _ dss (fun e he => (ok e he).common) (fun e he p => ⟨(ok e he).sound p, hf e he p⟩) hcap tr s h hw hg
  obtain ⟨e1, e2⟩ := file_lines S hline _ h3 rfl
  exact ⟨fin, _, h1, ⟨_, noted_of_ways h2, e1⟩, e2, h4⟩

theorem passOn_append (S : Setup P) (D : List (List Decl)) (a b : List Way) : passOn S D (a ++ b) = passOn S D a ++ passOn S D b := by
  classical
  unfold passOn
  rw [List.filter_append, List.map_append]

theorem passOn_perm (S : Setup P) (D : List (List Decl)) {a b : List Way} (h : a.Perm b) : (passOn S D a).Perm (passOn S D b) := by
  classical
  unfold passOn
  exact (h.filter _).map _

theorem passed_fixed (S : Setup P) (dss : P → List (List Decl)) (D : List (List Decl)) (hD : ∀ p, dss p = D) {ins outs : List Way} (h : Passed S dss ins outs) :
    outs.Perm (passOn S D ins) ∧ (S.workers = 1 → outs = passOn S D ins) := by
  obtain ⟨ss, -, rfl, rfl, h⟩ := h
  induction ss with
  | nil => exact ⟨.refl _, fun _ => rfl⟩
  | cons g ss ih =>
    obtain ⟨i1, i2⟩ := ih (fun x hx => h x (List.mem_cons_of_mem _ hx))
    obtain ⟨g1, g2⟩ := h g List.mem_cons_self
    rw [hD] at g1 g2
    rw [List.flatMap_cons, List.flatMap_cons, passOn_append]
    exact ⟨g1.append i1, fun h => by rw [g2 h, i2 h]⟩

/-- A record comes through a row of engines with the policies `D`, the rules `R` having been noted in it: the first engine wants it so, and with the rules that apply there noted as well it comes through the rest. -/
def Through (D : Setup P → List (List Decl)) (rl : ResourceLogs) : List (Setup P) → List RuleInfo → Prop
  | [], _ => True
  | e :: E, R => WantedNow e (D e) (rl, R) ∧ Through D rl E (R ++ applicable e.L rl (D e))

open Classical in
/-- The records that come through all engines, with the rules of all engines. -/
theorem passOn_all (D : Setup P → List (List Decl)) : ∀ (E : List (Setup P)) (ws : List Way),
    E.foldl (fun ws e => passOn e (D e) ws) ws = (ws.filter (fun w => decide (Through D w.1 E w.2))).map (fun w => (w.1, w.2 ++ E.flatMap (fun e => applicable e.L w.1 (D e)))) := by
  intro E
  induction E with
  | nil =>
    intro ws
    have e0 : ws.filter (fun w => decide (Through D w.1 [] w.2)) = ws := List.filter_eq_self.2 (fun w _ => decide_eq_true (show Through D w.1 [] w.2 from trivial))
    rw [e0]
    simp
  | cons e E ih =>
    intro ws
    rw [List.foldl_cons, ih]
    unfold passOn
    rw [List.filter_map, List.map_map, List.filter_filter]
    have e1 : ws.filter (fun w => (((fun w : Way => decide (Through D w.1 E w.2)) ∘ fun w : Way => (w.1, w.2 ++ applicable e.L w.1 (D e))) w && decide (WantedNow e (D e) w))) =
        ws.filter (fun w => decide (Through D w.1 (e :: E) w.2)) := by
      apply List.filter_congr
      intro w _
      simp [Through, Bool.and_comm]
    rw [e1]
    apply List.map_congr_left
    intro w _
    simp

/-- If no filter reads what processors write, a record comes through if every engine wants it as it was delivered. -/
theorem through_foreign (D : Setup P → List (List Decl)) (rl : ResourceLogs) : ∀ (E : List (Setup P)) (R : List RuleInfo),
    (∀ e ∈ E, ∀ x ∈ (sites (D e)).filterMap asFilter, ∀ k, MentionsE x.2 k x.1.cond → Foreign k) → (Through D rl E R ↔ ∀ e ∈ E, Wanted e (D e) rl) := by
  intro E
  induction E with
  | nil => intro R _; simp [Through]
  | cons e E ih =>
    intro R hf
    rw [Through, ih _ (fun x hx => hf x (List.mem_cons_of_mem _ hx))]
    have : WantedNow e (D e) (rl, R) ↔ Wanted e (D e) rl := by
      unfold WantedNow Wanted
      dsimp only
      rw [filtered_foreign e.L (D e) (hf e List.mem_cons_self) rl R]
    rw [this]
    simp

theorem foldl_perm (D : Setup P → List (List Decl)) : ∀ (E : List (Setup P)) (a b : List Way), a.Perm b → (E.foldl (fun ws e => passOn e (D e) ws) a).Perm (E.foldl (fun ws e => passOn e (D e) ws) b) := by
  intro E
  induction E with
  | nil => intro a b h; exact h
  | cons e E ih => intro a b h; exact ih _ _ (passOn_perm e (D e) h)

theorem passed_all_fixed (dss : Setup P → P → List (List Decl)) (D : Setup P → List (List Decl)) : ∀ (E : List (Setup P)), (∀ e ∈ E, ∀ p, dss e p = D e) → ∀ (ins outs : List Way), PassedAll dss E ins outs →
    outs.Perm (E.foldl (fun ws e => passOn e (D e) ws) ins) ∧ ((∀ e ∈ E, e.workers = 1) → outs = E.foldl (fun ws e => passOn e (D e) ws) ins) := by
  intro E
  induction E with
  | nil => intro _ ins outs h; cases h; exact ⟨.refl _, fun _ => rfl⟩
  | cons e E ih =>
    intro hD ins outs h
    obtain ⟨mid, h1, h2⟩ := h
    obtain ⟨p1, p2⟩ := passed_fixed e (dss e) (D e) (hD e List.mem_cons_self) h1
    obtain ⟨i1, i2⟩ := ih (fun x hx => hD x (List.mem_cons_of_mem _ hx)) mid outs h2
    refine ⟨i1.trans (foldl_perm D E _ _ p1), fun hw => ?_⟩
    rw [i2 (fun x hx => hw x (List.mem_cons_of_mem _ hx)), p2 (hw e List.mem_cons_self)]
    rfl

open Classical in
/-- **C114, C121** With policies that stay the same, the records that come out are exactly those that come through one engine after the other, each as often as it was delivered, with the rules of all engines noted, in the
order of the engines; in the order in which they were delivered if each engine has one worker. -/
theorem engines_in_a_row_through (dss : Setup P → P → List (List Decl)) (D : Setup P → List (List Decl)) (E : List (Setup P)) (hD : ∀ e ∈ E, ∀ p, dss e p = D e) (rls : List ResourceLogs) (fin : List Way)
    (h : PassedAll dss E (rls.map (fun rl => (rl, []))) fin) :
    fin.Perm ((rls.filter (fun rl => decide (Through D rl E []))).map (fun rl => (rl, E.flatMap (fun e => applicable e.L rl (D e))))) ∧
    ((∀ e ∈ E, e.workers = 1) → fin = (rls.filter (fun rl => decide (Through D rl E []))).map (fun rl => (rl, E.flatMap (fun e => applicable e.L rl (D e))))) := by
  obtain ⟨h1, h2⟩ := passed_all_fixed dss D E hD _ _ h
  have e : E.foldl (fun ws e => passOn e (D e) ws) (rls.map (fun rl => ((rl, []) : Way))) =
      (rls.filter (fun rl => decide (Through D rl E []))).map (fun rl => (rl, E.flatMap (fun e => applicable e.L rl (D e)))) := by
    rw [passOn_all, List.filter_map, List.map_map]
    rfl
  rw [e] at h1 h2
  exact ⟨h1, h2⟩

open Classical in
/-- **C114** If moreover no filter reads what processors write, these are the records that all engines want. -/
theorem engines_in_a_row_fixed (dss : Setup P → P → List (List Decl)) (D : Setup P → List (List Decl)) (E : List (Setup P)) (hD : ∀ e ∈ E, ∀ p, dss e p = D e)
    (hf : ∀ e ∈ E, ∀ p, Setup.FiltersForeign (dss e) p) (rls : List ResourceLogs) (fin : List Way)
    (h : PassedAll dss E (rls.map (fun rl => (rl, []))) fin) :
    fin.Perm ((rls.filter (fun rl => decide (∀ e ∈ E, Wanted e (D e) rl))).map (fun rl => (rl, E.flatMap (fun e => applicable e.L rl (D e))))) ∧
    ((∀ e ∈ E, e.workers = 1) → fin = (rls.filter (fun rl => decide (∀ e ∈ E, Wanted e (D e) rl))).map (fun rl => (rl, E.flatMap (fun e => applicable e.L rl (D e))))) := by
  have hfD : ∀ e ∈ E, ∀ x ∈ (sites (D e)).filterMap asFilter, ∀ k, MentionsE x.2 k x.1.cond → Foreign k := by
    intro e he
    have := hf e he e.policies
    unfold Setup.FiltersForeign at this
    rw [hD e he] at this
    exact this
  have e : rls.filter (fun rl => decide (Through D rl E [])) = rls.filter (fun rl => decide (∀ e ∈ E, Wanted e (D e) rl)) :=
    List.filter_congr (fun rl _ => decide_eq_decide.2 (through_foreign D rl E [] hfD))
  rw [← e]
  exact engines_in_a_row_through dss D E hD rls fin h

end Verif.OtelRun
