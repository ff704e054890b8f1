import Verif.Whole.OtelFailures
import Verif.Whole.OtelRowMoment
/-
C131: any number of policy engines in a row (build for OpenTelemetry logs), when the producer refuses messages or writes fail, and printing to the terminal; with any driver, at every moment.
Sources: /repo/driver/pipeline/pipeline.go:135-294, /repo/core/policyengine/policyengine.go:101-234, /repo/core/policyengine/policyengine_otel.go:26-36, /repo/core/exporter/exporter.go:104-176,
/repo/core/exporter/encoders/otel.go:53-82, /repo/core/exporter/transports/kafka.go:57-75, file.go:51-70, terminal.go:45-56, /repo/driver/otel/{filedriver,kafkadriver}.go
-/
namespace Verif.OtelRun
open Verif.Decimal (Str)
open Verif.Exporter (Bytes Accepted KeptOf newline)
open Verif.Policy
open Verif.Otel
open Verif.Falco (Decl GPolicy ltokens StrRule Cyclic MentionsE sites asRule asFilter siteCond)
open Verif.Pipeline
open Verif.Pipeline.Process
open Verif.Pipeline.Drain (Net Comp sync engine exporter chain driven rootClosed Exec Waited emitted)
open Verif.Config (XConf XVal XConfig ConfEnv EngineConfig createConfigX createEngineConfig createFlattenerConfig engineInit)
open Verif.Whole (Factory bootRegs xconf engineConf seconds chanSize)

variable {P : Type}

/-! ### Proofs -/

/-- The messages made of the records that come through the row, and what the destination has done with them. -/
def RowDone {X : Type} (dss : Setup P → P → List (List Decl)) (E : List (Setup P)) (S : Setup P) (Q : List Bytes → X → Prop) (rls : List ResourceLogs) (o : X) : Prop :=
  ∃ (fin : List Way) (messages : List Bytes), PassedAll dss E (rls.map (fun rl => (rl, []))) fin ∧ MessagesOf S fin messages ∧ Q messages o

section General
variable {X : Type} (E : List (Setup P)) (S : Setup P) (dss : Setup P → P → List (List Decl)) (T : Exporter.Transport X Exporter.Datum) (x0 : X) (Q : List Bytes → X → Prop) (hQ : S.Does T x0 Q)
  (ok : ∀ e ∈ E, e.Ok (dss e)) (hf : ∀ e ∈ E, ∀ p, Setup.FiltersTagless (dss e) p) (hcap : 0 < S.cap)
include hQ ok hf hcap

/-- Any destination, when `Wait` returns. -/
theorem row_delivers (tr : List (Drain.Obs ResourceLogs)) (s : Drain.St (series E S T x0)) (h : Exec (series E S T x0) tr s) (hw : Waited s) (hg : ∀ rl ∈ driven tr, Given rl) :
    ∃ o, Holding s E.length o ∧ RowDone dss E S Q (driven tr) o := by
  obtain ⟨fin, es, h1, h2, h3, h4⟩ := series_run E S T x0 dss (fun e he => (ok e he).common) (fun e he p => ⟨(ok e he).sound p, hf e he p⟩) hcap tr s h hw hg
  exact ⟨_, h4, fin, _, h1, ⟨_, noted_of_ways h2, rfl⟩, hQ es h3⟩

/-- Any destination, at every moment. -/
theorem row_delivers_at_every_moment {α : Type} (g : X → List α) (hgrow : ∀ x ds, g x <+: g (T.send x ds).1)
    {tr : List (Drain.Obs ResourceLogs)} {s : Drain.St (series E S T x0)} (h : Exec (series E S T x0) tr s) (hg : ∀ rl ∈ driven tr, Given rl) :
    ∃ o full, Holding s E.length o ∧ RowDone dss E S Q (driven tr) full ∧ g o <+: g full := by
  obtain ⟨o, ho, tr', s', h1, h2, h3, h4⟩ := row_completes E S T x0 g hgrow (fun e he => (ok e he).workers) hcap h
  obtain ⟨o', k1, k2⟩ := row_delivers E S dss T x0 Q hQ ok hf hcap tr' s' h1 h2 (by rw [h3]; exact hg)
  rw [h3] at k2
  exact ⟨o, o', ho, k2, h4 _ k1⟩

/-- Any destination and any driver, at every moment of the process. -/
theorem row_process {α : Type} (g : X → List α) (hgrow : ∀ x ds, g x <+: g (T.send x ds).1) (prog : List (DAct ResourceLogs)) (hg : ∀ rl ∈ sent prog, Given rl)
    {tr : List (Drain.Obs ResourceLogs)} {s : PSt ResourceLogs (series E S T x0)} (h : PExec id (series E S T x0) prog tr s) :
    ∃ rls o full, rls <+: sent prog ∧ Holding s.net E.length o ∧ RowDone dss E S Q rls full ∧ g o <+: g full := by
  obtain ⟨hT, hC⟩ := series_ok E S T x0 (fun e he => (ok e he).workers) hcap
  have hp := driven_first hT hC h
  obtain ⟨done, hI⟩ := pinv hT hC h
  obtain ⟨o, full, h1, h2, h3⟩ := row_delivers_at_every_moment E S dss T x0 Q hQ ok hf hcap g hgrow hI.net (fun rl hrl => hg rl (hp.subset hrl))
  exact ⟨driven tr, o, full, hp, h1, h2, h3⟩

/-- Any destination, with the file driver. -/
theorem row_file_driver {J : Type} (dec : J → ResourceLogs → ResourceLogs) (zero : ResourceLogs) (run : Nat → Bool) (js : List J) (hg : ∀ j ∈ js, Given (dec j zero))
    {tr : List (Drain.Obs ResourceLogs)} {s : PSt ResourceLogs (series E S T x0)} (h : PExec id (series E S T x0) (oneFile dec zero run js) tr s) {e : Bool} (he : s.status = some e) :
    e = false ∧ ∃ rls o, rls <+: js.map (fun j => dec j zero) ∧ ((∀ k, run k = true) → rls = js.map (fun j => dec j zero)) ∧ Holding s.net E.length o ∧ RowDone dss E S Q rls o := by
  obtain ⟨hT, hC⟩ := series_ok E S T x0 (fun e he => (ok e he).workers) hcap
  obtain ⟨body, ho, p1, p2⟩ := one_file dec zero run js
  obtain ⟨h1, h2, h3, h4⟩ := run_returned hT hC ho h he
  rw [List.map_id] at h4
  obtain ⟨o, k1, k2⟩ := row_delivers E S dss T x0 Q hQ ok hf hcap tr s.net h2 h3 (by
    intro rl hrl
    rw [h4] at hrl
    obtain ⟨j, hj, rfl⟩ := List.mem_map.1 (p1.subset hrl)
    exact hg j hj)
  exact ⟨h1, driven tr, o, by rw [h4]; exact p1, fun hr => by rw [h4]; exact p2 hr, k1, k2⟩

end General

/-- The row loaded, with each destination. -/
theorem row_net (W : World P) (es : List Pipeline.Conf) (c : Pipeline.Conf) {X : Type} {x : XConfig} (pol : Pipeline.Conf → P) (T : Exporter.Transport X Exporter.Datum) (x0 : X)
    (e : W.exporterComp x = exporter (Exporter.perRecord (W.setup c x (pol c)).enc) T x.eventBuffer x0 W.start) :
    chain (es.map (fun e => engine (W.setup e x (pol e)).cfg (pol e) W.start W.pending) ++ [W.exporterComp x]) chanSize = series (W.row es x pol) (W.setup c x (pol c)) T x0 := by
  unfold series World.row
  rw [e, List.map_map]
  rfl

/-! ## C131 -/

/-- **C131** A row producing to Kafka, whichever messages are refused: when `Wait` returns, and at every moment. -/
theorem row_kafka_refusing (E : List (Setup P)) (S : Setup P) (dss : Setup P → P → List (List Decl)) (ok : ∀ e ∈ E, e.Ok (dss e)) (hf : ∀ e ∈ E, ∀ p, Setup.FiltersTagless (dss e) p) (hcap : 0 < S.cap)
    (acc : Nat → Bool) {tr : List (Drain.Obs ResourceLogs)} {s : Drain.St (series E S (Exporter.kafka acc) ([], 0))} (h : Exec (series E S (Exporter.kafka acc) ([], 0)) tr s) (hg : ∀ rl ∈ driven tr, Given rl) :
    (Waited s → ∃ o, Holding s E.length o ∧ RowDone dss E S (ToKafka acc) (driven tr) o) ∧
    ∃ (o full : List Bytes × Nat), Holding s E.length o ∧ RowDone dss E S (ToKafka acc) (driven tr) full ∧ o.1 <+: full.1 :=
  ⟨fun hw => row_delivers E S dss _ _ _ (kafka_does S acc) ok hf hcap tr s h hw hg,
    row_delivers_at_every_moment E S dss _ _ _ (kafka_does S acc) ok hf hcap Prod.fst (fun x ds => kafkaExport_grows _ ds x) h hg⟩

/-- **C131** A row writing to a file, whichever writes fail. -/
theorem row_file_cut (E : List (Setup P)) (S : Setup P) (dss : Setup P → P → List (List Decl)) (ok : ∀ e ∈ E, e.Ok (dss e)) (hf : ∀ e ∈ E, ∀ p, Setup.FiltersTagless (dss e) p) (hcap : 0 < S.cap)
    (os : Nat → Option Nat) {tr : List (Drain.Obs ResourceLogs)} {s : Drain.St (series E S (Exporter.fileTransport os) Exporter.newFile)}
    (h : Exec (series E S (Exporter.fileTransport os) Exporter.newFile) tr s) (hg : ∀ rl ∈ driven tr, Given rl) :
    (Waited s → ∃ o, Holding s E.length o ∧ RowDone dss E S (ToFile os S.buffer) (driven tr) o) ∧
    ∃ (o full : Exporter.OutFile), Holding s E.length o ∧ RowDone dss E S (ToFile os S.buffer) (driven tr) full ∧ o.contents <+: full.contents :=
  ⟨fun hw => row_delivers E S dss _ _ _ (file_does S os) ok hf hcap tr s h hw hg,
    row_delivers_at_every_moment E S dss _ _ _ (file_does S os) ok hf hcap Exporter.OutFile.contents (fun x ds => Whole.fileExport_grows _ ds x) h hg⟩

/-- **C131** A row printing to the terminal. -/
theorem row_printed (E : List (Setup P)) (S : Setup P) (dss : Setup P → P → List (List Decl)) (ok : ∀ e ∈ E, e.Ok (dss e)) (hf : ∀ e ∈ E, ∀ p, Setup.FiltersTagless (dss e) p) (hcap : 0 < S.cap)
    {tr : List (Drain.Obs ResourceLogs)} {s : Drain.St (series E S Exporter.terminal [])} (h : Exec (series E S Exporter.terminal []) tr s) (hg : ∀ rl ∈ driven tr, Given rl) :
    (Waited s → ∃ o, Holding s E.length o ∧ RowDone dss E S ToTerminal (driven tr) o) ∧
    ∃ (o full : Bytes), Holding s E.length o ∧ RowDone dss E S ToTerminal (driven tr) full ∧ o <+: full :=
  ⟨fun hw => row_delivers E S dss _ _ _ (terminal_does S) ok hf hcap tr s h hw hg,
    row_delivers_at_every_moment E S dss _ _ _ (terminal_does S) ok hf hcap id (fun _ _ => ⟨_, rfl⟩) h hg⟩

/-- **C131** From pipeline.json through a row of policy engines to Kafka, with the Kafka driver and whichever messages are refused: at every moment what has been sent is the beginning of what is accepted of messages
complete for some of the records read, from the first one on. -/
theorem boot_row_kafka_refusing (W : World P) {m : Manifest} {env : List Str} {cs es : List Pipeline.Conf} {c : Pipeline.Conf} {names : Nat → Str} (hm : setManifest m env cs = es ++ [c]) (u : RowConf es c names)
    {x : XConfig} {pol : Pipeline.Conf → P} (h : W.RowReady es c x pol) (ht : x.transport = .kafka) {dss : P → List (List Decl)} (ok : ∀ e ∈ es, W.Ok e dss) (hf : ∀ p, Setup.FiltersTagless dss p) :
    ∃ l, loadStages W.env { regs := bootRegs } (setManifest m env cs) = .done l ∧ (∃ d, Whole.otelDriverChannel l = .ok d ∧ l.stages.head?.map (·.ins) = some [d]) ∧
      netOf W.comp (setManifest m env cs) l chanSize = series (W.row es x pol) (W.setup c x (pol c)) (Exporter.kafka W.sends) ([], 0) ∧
      ∀ ms : List (KMsg ResourceLogs), (∀ rl ∈ kafkaRecords ms, Given rl) →
      ∀ (tr : List (Drain.Obs ResourceLogs)) (s : PSt ResourceLogs (series (W.row es x pol) (W.setup c x (pol c)) (Exporter.kafka W.sends) ([], 0))), PExec id _ (kafkaDriver ms) tr s →
        ∃ (rls : List ResourceLogs) (o full : List Bytes × Nat), rls <+: kafkaRecords ms ∧ Holding s.net es.length o ∧
          RowDone (fun _ => dss) (W.row es x pol) (W.setup c x (pol c)) (ToKafka W.sends) rls full ∧ o.1 <+: full.1 := by
  obtain ⟨l, h1, -, h3, h4⟩ := row_boots W u h
  rw [hm]
  have hlen : (W.row es x pol).length = es.length := by unfold World.row; rw [List.length_map]
  refine ⟨l, h1, h3, h4.trans (row_net W es c pol _ _ (by unfold World.exporterComp; dsimp only; rw [ht]; rfl)), ?_⟩
  intro ms hg tr s hx
  have hsent : sent (kafkaDriver ms) = kafkaRecords ms := by
    rw [kafka_driver_delivers]
    generalize kafkaRecords ms = rs
    induction rs with
    | nil => rfl
    | cons r rs ih => rw [List.map_cons, List.cons_append, sent_send, ih]
  obtain ⟨rls, o, full, q1, q2, q3, q4⟩ := row_process (W.row es x pol) (W.setup c x (pol c)) (fun _ => dss) _ _ _ (kafka_does _ W.sends) (row_ok W ok) (fun _ _ p => hf p) (show 0 < 100000 by decide)
    Prod.fst (fun x ds => kafkaExport_grows _ ds x) _ (by rw [hsent]; exact hg) hx
  rw [hsent] at q1
  rw [hlen] at q2
  exact ⟨rls, o, full, q1, q2, q3, q4⟩

/-- **C131** From pipeline.json and a file of records through a row of policy engines to a log file, whichever writes fail. -/
theorem boot_row_file_cut (W : World P) {m : Manifest} {env : List Str} {cs es : List Pipeline.Conf} {c : Pipeline.Conf} {names : Nat → Str} (hm : setManifest m env cs = es ++ [c]) (u : RowConf es c names)
    {x : XConfig} {pol : Pipeline.Conf → P} (h : W.RowReady es c x pol) (ht : x.transport = .file) {dss : P → List (List Decl)} (ok : ∀ e ∈ es, W.Ok e dss) (hf : ∀ p, Setup.FiltersTagless dss p) :
    ∃ l, loadStages W.env { regs := bootRegs } (setManifest m env cs) = .done l ∧ (∃ d, Whole.otelDriverChannel l = .ok d ∧ l.stages.head?.map (·.ins) = some [d]) ∧
      netOf W.comp (setManifest m env cs) l chanSize = series (W.row es x pol) (W.setup c x (pol c)) (Exporter.fileTransport W.writes) Exporter.newFile ∧
      ∀ {J : Type} (dec : J → ResourceLogs → ResourceLogs) (zero : ResourceLogs) (run : Nat → Bool) (js : List J), (∀ j ∈ js, Given (dec j zero)) →
      ∀ (tr : List (Drain.Obs ResourceLogs)) (s : PSt ResourceLogs (series (W.row es x pol) (W.setup c x (pol c)) (Exporter.fileTransport W.writes) Exporter.newFile)), PExec id _ (oneFile dec zero run js) tr s →
        ∀ e, s.status = some e → e = false ∧ ∃ rls o, rls <+: js.map (fun j => dec j zero) ∧ ((∀ k, run k = true) → rls = js.map (fun j => dec j zero)) ∧ Holding s.net es.length o ∧
          RowDone (fun _ => dss) (W.row es x pol) (W.setup c x (pol c)) (ToFile W.writes x.eventBuffer) rls o := by
  obtain ⟨l, h1, -, h3, h4⟩ := row_boots W u h
  rw [hm]
  have hlen : (W.row es x pol).length = es.length := by unfold World.row; rw [List.length_map]
  refine ⟨l, h1, h3, h4.trans (row_net W es c pol _ _ (by unfold World.exporterComp; dsimp only; rw [ht]; rfl)), ?_⟩
  intro J dec zero run js hg tr s hx e he
  obtain ⟨q0, rls, o, q1, q2, q3, q4⟩ := row_file_driver (W.row es x pol) (W.setup c x (pol c)) (fun _ => dss) _ _ _ (file_does _ W.writes) (row_ok W ok) (fun _ _ p => hf p) (show 0 < 100000 by decide)
    dec zero run js hg hx he
  rw [hlen] at q3
  exact ⟨q0, rls, o, q1, q2, q3, q4⟩

/-- **C131** The same to the terminal. -/
theorem boot_row_printed (W : World P) {m : Manifest} {env : List Str} {cs es : List Pipeline.Conf} {c : Pipeline.Conf} {names : Nat → Str} (hm : setManifest m env cs = es ++ [c]) (u : RowConf es c names)
    {x : XConfig} {pol : Pipeline.Conf → P} (h : W.RowReady es c x pol) (ht : x.transport = .terminal) {dss : P → List (List Decl)} (ok : ∀ e ∈ es, W.Ok e dss) (hf : ∀ p, Setup.FiltersTagless dss p) :
    ∃ l, loadStages W.env { regs := bootRegs } (setManifest m env cs) = .done l ∧ (∃ d, Whole.otelDriverChannel l = .ok d ∧ l.stages.head?.map (·.ins) = some [d]) ∧
      netOf W.comp (setManifest m env cs) l chanSize = series (W.row es x pol) (W.setup c x (pol c)) Exporter.terminal [] ∧
      ∀ {J : Type} (dec : J → ResourceLogs → ResourceLogs) (zero : ResourceLogs) (run : Nat → Bool) (js : List J), (∀ j ∈ js, Given (dec j zero)) →
      ∀ (tr : List (Drain.Obs ResourceLogs)) (s : PSt ResourceLogs (series (W.row es x pol) (W.setup c x (pol c)) Exporter.terminal [])), PExec id _ (oneFile dec zero run js) tr s →
        ∀ e, s.status = some e → e = false ∧ ∃ rls o, rls <+: js.map (fun j => dec j zero) ∧ ((∀ k, run k = true) → rls = js.map (fun j => dec j zero)) ∧ Holding s.net es.length o ∧
          RowDone (fun _ => dss) (W.row es x pol) (W.setup c x (pol c)) ToTerminal rls o := by
  obtain ⟨l, h1, -, h3, h4⟩ := row_boots W u h
  rw [hm]
  have hlen : (W.row es x pol).length = es.length := by unfold World.row; rw [List.length_map]
  refine ⟨l, h1, h3, h4.trans (row_net W es c pol _ _ (by unfold World.exporterComp; dsimp only; rw [ht]; rfl)), ?_⟩
  intro J dec zero run js hg tr s hx e he
  obtain ⟨q0, rls, o, q1, q2, q3, q4⟩ := row_file_driver (W.row es x pol) (W.setup c x (pol c)) (fun _ => dss) _ _ _ (terminal_does _) (row_ok W ok) (fun _ _ p => hf p) (show 0 < 100000 by decide)
    dec zero run js hg hx he
  rw [hlen] at q3
  exact ⟨q0, rls, o, q1, q2, q3, q4⟩

/-! ### A row of two engines writing to a file -/

/-- Whichever writes fail: the configuration is loaded; the program runs on a file with two copies of a record to the end; the two messages made have the rule noted twice, once by each engine; and the log file keeps
what it should of the two. -/
example (os : Nat → Option Nat) : ∃ code x, (∃ l, loadStages (refusingWorld code (fun _ => true) os).env { regs := bootRegs } (setManifest Whole.demoManifest [] rowConfs) = .done l) ∧
    ∃ tr, ∃ s : PSt ResourceLogs (series ((refusingWorld code (fun _ => true) os).row [rowAt 0, rowAt 1] x (fun _ => ())) ((refusingWorld code (fun _ => true) os).setup (rowAt 2) x ()) (Exporter.fileTransport os) Exporter.newFile),
    PExec id _ (oneFile (fun j _ => j) demoLogs (fun _ => true) [demoLogs, demoLogs]) tr s ∧ s.status = some false ∧
    ∃ (f : Exporter.OutFile) (messages : List Bytes), Holding s.net 2 f ∧
      MessagesOf ((otelWorld code).setup (rowAt 2) x ()) (List.replicate 2 (demoLogs, [Falco.infoOf hostRule, Falco.infoOf hostRule])) messages ∧ ToFile os x.eventBuffer messages f := by
  classical
  obtain ⟨code, ok⟩ := demoRun_ok 1 (by decide)
  obtain ⟨x, hr0, ht, henc⟩ := row_ready code
  have hr : (refusingWorld code (fun _ => true) os).RowReady [rowAt 0, rowAt 1] (rowAt 2) x (fun _ => ()) := ⟨hr0.engines, hr0.conf, hr0.dest⟩
  have hok : ∀ e ∈ [rowAt 0, rowAt 1], (refusingWorld code (fun _ => true) os).Ok e (fun _ => [[.rule hostRule]]) := fun e he =>
    ⟨ok.str, ok.texts, ok.acyclic, ok.foreign, ok.code, ok.actions, ok.order, (hr.engines e he).2.2⟩
  have hff : ∀ p : Unit, Setup.FiltersForeign (fun _ => [[.rule hostRule]]) p := fun p y hy => by
    rw [show (sites [[Decl.rule hostRule]]).filterMap asFilter = [] from rfl] at hy
    cases hy
  obtain ⟨l, h1, -, -, h4⟩ := boot_row_file_cut (refusingWorld code (fun _ => true) os) row_confs row_conf hr ht hok (fun p x hx k hk => (hff p x hx k hk).2)
  have hk := row_ok (refusingWorld code (fun _ => true) os) (x := x) (pol := fun _ => ()) hok
  obtain ⟨hT, hC⟩ := series_ok ((refusingWorld code (fun _ => true) os).row [rowAt 0, rowAt 1] x (fun _ => ())) ((refusingWorld code (fun _ => true) os).setup (rowAt 2) x ()) (Exporter.fileTransport os) Exporter.newFile
    (fun s hs => (hk s hs).workers) (show 0 < 100000 by decide)
  obtain ⟨body, ho, _⟩ := one_file (fun (j _ : ResourceLogs) => j) demoLogs (fun _ => true) [demoLogs, demoLogs]
  obtain ⟨tr, s, hx, he⟩ := complete_run hT hC ho id
  obtain ⟨-, rls, f, q1, q2, q3, fin, messages, q4, q5, q6⟩ := h4 (fun (j _ : ResourceLogs) => j) demoLogs (fun _ => true) [demoLogs, demoLogs]
    (by intro j hj; have : j = demoLogs := by simpa using hj
        subst this; exact ⟨demo_whole, demo_fresh⟩) tr s hx false he
  have := q2 (fun _ => rfl)
  subst this
  obtain ⟨hp, -⟩ := engines_in_a_row_fixed (fun _ _ => [[.rule hostRule]]) (fun _ => [[.rule hostRule]]) _ (fun _ _ _ => rfl) (fun _ _ => hff) _ _ q4
  have hwant : ∀ e ∈ (otelWorld code).row [rowAt 0, rowAt 1] x (fun _ => ()), Wanted e [[.rule hostRule]] demoLogs ∧ applicable e.L demoLogs [[.rule hostRule]] = [Falco.infoOf hostRule] := by
    intro e he
    obtain ⟨w1, w2⟩ := demo_wanted 1 code
    obtain ⟨c, -, rfl⟩ := List.mem_map.1 he
    exact ⟨⟨w1.1, .inr (by rw [show ((otelWorld code).setup c x ()).L = Otel.demoLib from rfl, w2]; simp)⟩, w2⟩
  have hfin : fin = List.replicate 2 (demoLogs, [Falco.infoOf hostRule, Falco.infoOf hostRule]) := by
    rw [← List.perm_replicate]
    refine hp.trans (.of_eq ?_)
    have h0 : (∀ e ∈ (otelWorld code).row [rowAt 0, rowAt 1] x (fun _ => ()), Wanted e [[.rule hostRule]] demoLogs) := fun e he => (hwant e he).1
    change List.map _ (List.filter (fun rl => decide (∀ e ∈ (otelWorld code).row [rowAt 0, rowAt 1] x (fun _ => ()), Wanted e [[.rule hostRule]] rl)) [demoLogs, demoLogs]) = _
    rw [List.filter_cons_of_pos (by simpa using h0), List.filter_cons_of_pos (by simpa using h0), List.filter_nil]
    have e2 : ((otelWorld code).row [rowAt 0, rowAt 1] x (fun _ => ())).flatMap (fun e => applicable e.L demoLogs [[.rule hostRule]]) = [Falco.infoOf hostRule, Falco.infoOf hostRule] := by
      unfold World.row at hwant ⊢
      rw [List.map_cons, List.map_cons, List.map_nil] at hwant ⊢
      rw [List.flatMap_cons, List.flatMap_cons, List.flatMap_nil, (hwant _ List.mem_cons_self).2, (hwant _ (List.mem_cons_of_mem _ List.mem_cons_self)).2]
      rfl
    have e3 : ((refusingWorld code (fun _ => true) os).row [rowAt 0, rowAt 1] x (fun _ => ())).flatMap (fun e => applicable e.L demoLogs [[.rule hostRule]]) = [Falco.infoOf hostRule, Falco.infoOf hostRule] := e2
    rw [List.map_cons, List.map_cons, List.map_nil, e3]
    rfl
  rw [hfin] at q5
  exact ⟨code, x, ⟨l, h1⟩, tr, s, hx, he, f, messages, q3, q5, q6⟩

end Verif.OtelRun
