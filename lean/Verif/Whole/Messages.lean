import Verif.Exporter.Syslog
import Verif.Whole.BootRuns
import Verif.Whole.Ecs
/-
C104: the whole program printing to the terminal, or sending to syslog.
Sources: /repo/core/exporter/transports/terminal.go:45-56, /repo/core/exporter/transports/syslog.go:46-82, and the sources of the whole program (Verif/Whole/Program.lean, Verif/Whole/Boot.lean)
-/
namespace Verif.Whole
open Verif.Decimal (Str)
open Verif.Exporter (Bytes GetsThrough)
open Verif.FlatRecord
open Verif.Policy
open Verif.Falco
open Verif.Processor (Rec HCall OlderParents)
open Verif.Flattener (FLib Known fields eventsAfter StoresEvent)
open Verif.Pipeline
open Verif.Pipeline.Process
open Verif.Pipeline.Drain (driven Exec Waited Net Comp sync engine exporter chain)
open Verif.Config (XConf XVal XConfig ConfEnv EngineConfig createConfigX createEngineConfig createFlattenerConfig engineInit)

variable {P : Type}

/-! ### Model -/

/-- The pipeline with an encoder of single records and a transport of data (exporter.go:82-101). -/
def Setup.outNet {X : Type} (S : Setup P) (enc : Msg → Option Exporter.Datum) (T : Exporter.Transport X Exporter.Datum) (x0 : X) : Net Msg := S.netWith (Exporter.allOrNone enc) T x0

/-- The state of its transport: what has been printed, or sent. -/
def Setup.outOf {X : Type} (S : Setup P) {enc : Msg → Option Exporter.Datum} {T : Exporter.Transport X Exporter.Datum} {x0 : X} (s : Drain.St (S.outNet enc T x0)) : X :=
  (show Exporter.State X Msg Exporter.Datum × Bool from s.st 2).1.tr

/-! ### Specification -/

open Classical in
/-- Messages are complete for the events `evs`, the message of an event being described by `Line`: the events fall into consecutive stretches, one for each policy set in force, from the first
one on; the messages are, stretch by stretch, one for each event that its policies want logged; in the order of the events if there is one worker. -/
def MessagesFor (S : Setup P) (dss : P → List (List Decl)) (Line : List (List Decl) → Event → Bytes → Prop) (evs : List Event) (ms : List Bytes) : Prop :=
  ∃ ss : List (Stretch P), (∃ rest, ss.map Stretch.pol = S.policies :: rest) ∧ ss.flatMap Stretch.events = evs ∧ ss.flatMap Stretch.lines = ms ∧
    ∀ g ∈ ss, ∃ picked, List.Perm picked (g.events.filter (fun x => decide (Logged S (dss g.pol) x))) ∧
      (S.workers = 1 → picked = g.events.filter (fun x => decide (Logged S (dss g.pol) x))) ∧
      List.Forall₂ (Line (dss g.pol)) picked g.lines

/-- The message of an event in the configured format: a JSON record, or an ECS document. -/
def World.Line (W : World P) (c1 c2 : Pipeline.Conf) (x : XConfig) (p : P) : List (List Decl) → Event → Bytes → Prop :=
  match x.format with
  | .ecs => EcsLine (W.setup c1 c2 x p) (W.ecsSide c1 c2 x p)
  | _ => LineFor (W.setup c1 c2 x p)

/-! ### Proofs -/

/-- An encoder whose data are bytes or documents of one line, as `Line` says. -/
def Encodes (S : Setup P) (enc : Msg → Option Exporter.Datum) (Line : List (List Decl) → Event → Bytes → Prop) : Prop :=
  ∀ ds x m, Processor.isEvent x.2 = true → AlertFor S ds x m → ∃ d, enc m = some d ∧ Line ds x d.text ∧ (∃ b, d = .bytes b ∨ d = .obj b) ∧ Exporter.newline ∉ d.text

theorem json_encodes (S : Setup P) (hlib : Json.Spec.LibOk S.L) (hver : Json.Spec.VersionOk S.version) : Encodes S S.enc (LineFor S) := by
  intro ds x m hev h
  obtain ⟨d, h1, h2, h3⟩ := json_lines S hlib hver ds x m hev h
  refine ⟨d, h1, h2, ?_, h3⟩
  obtain ⟨line, h4, -⟩ := alert_line S hlib hver _ x hev m h
  exact ⟨line, .inl (Option.some.inj (h1.symm.trans h4))⟩

theorem ecs_encodes (S : Setup P) (E : EcsSide S) (hn : KindNames S.L) : Encodes S E.toFile (EcsLine S E) := by
  intro ds x m hev h
  obtain ⟨d, h1, h2⟩ := alert_doc S E hn ds x m hev h
  refine ⟨.obj (Ecs.recText d), by unfold EcsSide.toFile; rw [h1]; rfl, ⟨_, h2⟩, ⟨_, .inr rfl⟩, ?_⟩
  obtain ⟨_, _, _, _, _, _, _, _, _, _, _, _, _, _, _, h3⟩ := h2
  intro hc
  exact absurd (h3 _ hc) (by decide)

open Classical in
/-- What reaches the transport. -/
theorem out_delivered {X : Type} (S : Setup P) (dss : P → List (List Decl)) (ok : S.Core dss) (hdedup : S.dedup = false) {enc : Msg → Option Exporter.Datum} {Line : List (List Decl) → Event → Bytes → Prop}
    (henc : Encodes S enc Line) (T : Exporter.Transport X Exporter.Datum) (x0 : X) {rs : List Rec} {rd : Processor.State} {cs : List HCall} (hrun : Processor.run false S.fuel .init rs = some (rd, cs))
    (tr : List (Drain.Obs Msg)) (s : Drain.St (S.outNet enc T x0)) (h : Exec (S.outNet enc T x0) tr s) (hw : Waited s) (hd : driven tr = rs.map Msg.sf) :
    ∃ (ms : List Bytes) (es : List (Exporter.Ev Msg)), MessagesFor S dss Line (eventsAfter [] rs) ms ∧ ((Exporter.received es).filterMap enc).map Exporter.Datum.text = ms ∧ (∀ l ∈ ms, Exporter.newline ∉ l) ∧
      (∀ m ∈ Exporter.received es, ∃ b, enc m = some (.bytes b) ∨ enc m = some (.obj b)) ∧ Exporter.closed es = true ∧
      S.outOf s = (Exporter.run (Exporter.perRecord enc) T S.buffer (Exporter.init x0 S.start) es).tr := by
  obtain ⟨h1, h2⟩ := reader_all S hdedup rs rd cs hrun
  obtain ⟨tr1, k1, k2, k3⟩ := three_engine _ _ S.cfg ok.workers rfl S.policies S.start S.pending _ _ _ _ _ S.cap ok.cap tr s h hw
  obtain ⟨ss, ds, es, s1, s2, s5, s4, s6, s3, hfm, hclosed, hfin⟩ := data_delivered_along S ok.workers ok.cap _ _ (engine_step S dss ok) enc T x0 (fun p => Line (dss p))
    (fun d => (∃ b, d = .bytes b ∨ d = .obj b) ∧ Exporter.newline ∉ d.text) (fun p x m a b => henc (dss p) x m a b) tr s h hw k1 k2 k3 _ _ (by rw [hd]; exact h1) h2
  refine ⟨ds.map Exporter.Datum.text, es, ⟨ss, ⟨_, s1⟩, s2, s5, s6⟩, by rw [hfm], ?_, ?_, hclosed, congrArg Exporter.State.tr hfin⟩
  · intro l hl
    obtain ⟨d, hd, rfl⟩ := List.mem_map.1 hl
    exact (s4 d hd).2
  · intro m hm
    have : enc m ∈ (Exporter.received es).map enc := List.mem_map.2 ⟨m, hm, rfl⟩
    rw [s3] at this
    obtain ⟨d, hd, he⟩ := List.mem_map.1 this
    rw [← he]
    obtain ⟨b, rfl | rfl⟩ := (s4 d hd).1
    · exact ⟨b, .inl rfl⟩
    · exact ⟨b, .inr rfl⟩

/-- **C104** Terminal: when `Wait` returns, what has been printed is one line for each message, complete for the events of the input. -/
theorem terminal_program (S : Setup P) (dss : P → List (List Decl)) (ok : S.Core dss) (hdedup : S.dedup = false) {enc : Msg → Option Exporter.Datum} {Line : List (List Decl) → Event → Bytes → Prop}
    (henc : Encodes S enc Line) {rs : List Rec} {rd : Processor.State} {cs : List HCall} (hrun : Processor.run false S.fuel .init rs = some (rd, cs))
    (tr : List (Drain.Obs Msg)) (s : Drain.St (S.outNet enc Exporter.terminal [])) (h : Exec (S.outNet enc Exporter.terminal []) tr s) (hw : Waited s) (hd : driven tr = rs.map Msg.sf) :
    ∃ ms, MessagesFor S dss Line (eventsAfter [] rs) ms ∧ S.outOf s = ms.flatMap (fun l => l ++ [Exporter.newline]) ∧ Exporter.linesOf [] (S.outOf s) = ms := by
  obtain ⟨ms, es, h1, h2, h3, -, h5, h6⟩ := out_delivered S dss ok hdedup henc _ _ hrun tr s h hw hd
  have hlog := h6.trans (Exporter.terminal_log enc S.buffer S.start es h5)
  refine ⟨ms, h1, ?_, ?_⟩
  · rw [hlog, ← h2, List.flatMap_map]; rfl
  · rw [hlog, ← h2]
    refine Exporter.linesOf_log _ fun d hd => h3 _ ?_
    rw [← h2]
    exact List.mem_map.2 ⟨d, hd, rfl⟩

/-- **C104** Syslog: when `Wait` returns, what has been sent is what gets through of messages complete for the events of the input. -/
theorem syslog_program (S : Setup P) (dss : P → List (List Decl)) (ok : S.Core dss) (hdedup : S.dedup = false) {enc : Msg → Option Exporter.Datum} {Line : List (List Decl) → Event → Bytes → Prop}
    (henc : Encodes S enc Line) (sends : Nat → Bool) {rs : List Rec} {rd : Processor.State} {cs : List HCall} (hrun : Processor.run false S.fuel .init rs = some (rd, cs))
    (tr : List (Drain.Obs Msg)) (s : Drain.St (S.outNet enc (Exporter.syslog sends) ([], 0))) (h : Exec (S.outNet enc (Exporter.syslog sends) ([], 0)) tr s) (hw : Waited s) (hd : driven tr = rs.map Msg.sf) :
    ∃ ms, MessagesFor S dss Line (eventsAfter [] rs) ms ∧ GetsThrough sends S.buffer ms (S.outOf s).1 (S.outOf s).2 := by
  obtain ⟨ms, es, h1, h2, -, h4, h5, h6⟩ := out_delivered S dss ok hdedup henc _ _ hrun tr s h hw hd
  refine ⟨ms, h1, ?_⟩
  rw [h6, ← h2]
  exact Exporter.syslog_sent enc sends S.buffer S.start es h5 h4

/-! ### From the configuration -/

theorem world_encodes (W : World P) {m : Manifest} {c1 c2 : Pipeline.Conf} {dss : P → List (List Decl)} (ok : W.Ok m c1 c2 dss) {x : XConfig} (hx : x.jsonSchemaVersion = m.jsonSchema) (p : P)
    (hn : KindNames W.L) : Encodes (W.setup c1 c2 x p) (W.encode x) (W.Line c1 c2 x p) := by
  have hok := setup_ok W ok hx p
  by_cases hf : x.format = .ecs
  · have e1 := (ecs_encode W c1 c2 hf (p := p)).1
    have e2 : W.Line c1 c2 x p = EcsLine (W.setup c1 c2 x p) (W.ecsSide c1 c2 x p) := by unfold World.Line; rw [hf]
    rw [e1, e2]
    exact ecs_encodes _ _ hn
  · have e1 : W.encode x = (W.setup c1 c2 x p).enc := by
      funext m
      unfold World.encode
      cases hx : x.format <;> first | exact absurd hx hf | (cases m <;> rfl)
    have e2 : W.Line c1 c2 x p = LineFor (W.setup c1 c2 x p) := by
      unfold World.Line
      cases hx : x.format <;> first | exact absurd hx hf | rfl
    rw [e1, e2]
    exact json_encodes _ hok.lib hok.version

/-- The records of files that can be opened are what an orderly driver delivers. -/
theorem out_run {X : Type} (S : Setup P) (hwork : 0 < S.workers) (hcap : 0 < S.cap) {enc : Msg → Option Exporter.Datum} {T : Exporter.Transport X Exporter.Datum} {x0 : X} (fs : List (FileData Rec)) (hopen : ∀ f ∈ fs, f ≠ .noOpen)
    (hold : OlderParents (recordsIn fs)) (hfuel : (recordsIn fs).length ≤ S.fuel) {tr : List (Drain.Obs Msg)} {s : PSt Rec (S.outNet enc T x0)}
    (hx : PExec Msg.sf (S.outNet enc T x0) (fileDriver (fun _ => true) (some fs)) tr s) {e : Bool} (he : s.status = some e) :
    e = false ∧ Exec (S.outNet enc T x0) tr s.net ∧ Waited s.net ∧ driven tr = (recordsIn fs).map Msg.sf ∧ ∃ rd cs, Processor.run false S.fuel .init (recordsIn fs) = some (rd, cs) := by
  obtain ⟨⟨rd, cs⟩, hr⟩ := Processor.reader_returns _ (Processor.older_parents_not_stuck _ hold) S.fuel hfuel
  obtain ⟨body, h1, h2, -, -, -⟩ := file_driver_delivers (fun _ => true) (fun _ h => h) fs hopen
  obtain ⟨hT, hC⟩ := netWith_ok S (Exporter.allOrNone enc) T x0 hwork hcap
  obtain ⟨k1, k2, k3, k4⟩ := run_returned hT hC ⟨h1, h2⟩ hx he
  have : Pipeline.sent (fileDriver (fun _ => true) (some fs)) = recordsIn fs := file_driver_all fs hopen
  rw [this] at k4
  exact ⟨k1, k2, k3, k4, rd, cs, hr⟩

theorem usual_terminal (W : World P) (c1 c2 : Pipeline.Conf) {x : XConfig} {p : P} (ht : x.transport = .terminal) :
    chain [sync (readerStep W.F W.fuel W.clock) (W.setup c1 c2 x p).reader0 1, engine (W.setup c1 c2 x p).cfg p W.start W.pending, W.exporterComp x] chanSize =
      (W.setup c1 c2 x p).outNet (W.encode x) Exporter.terminal [] := by
  have e3 : W.exporterComp x = exporter (Exporter.allOrNone (W.encode x)) Exporter.terminal x.eventBuffer [] W.start := by
    unfold World.exporterComp
    rw [ht]
  rw [e3]
  rfl

theorem usual_syslog (W : World P) (c1 c2 : Pipeline.Conf) {x : XConfig} {p : P} (ht : x.transport = .syslog) :
    chain [sync (readerStep W.F W.fuel W.clock) (W.setup c1 c2 x p).reader0 1, engine (W.setup c1 c2 x p).cfg p W.start W.pending, W.exporterComp x] chanSize =
      (W.setup c1 c2 x p).outNet (W.encode x) (Exporter.syslog W.sends) ([], 0) := by
  have e3 : W.exporterComp x = exporter (Exporter.allOrNone (W.encode x)) (Exporter.syslog W.sends) x.eventBuffer ([], 0) W.start := by
    unfold World.exporterComp
    rw [ht]
  rw [e3]
  rfl

/-- **C104** From the configuration to the terminal: a usual configuration with terminal output, JSON or ECS, is loaded, and every run of the file driver over files that can be opened, with records whose process
parents are older, ends without an error, having printed one line for each message, complete for the events of the files. -/
theorem boot_terminal_run (W : World P) {m : Manifest} {env : List Str} {cs : List Pipeline.Conf} {c1 c2 c3 : Pipeline.Conf} {a b d : Str} (hm : setManifest m env cs = [c1, c2, c3])
    (u : Usual c1 c2 c3 a b d) {x : XConfig} {p : P} (h : W.Ready c2 c3 x p) (ht : x.transport = .terminal) {dss : P → List (List Decl)} (ok : W.Ok m c1 c2 dss) (hn : KindNames W.L) :
    ∃ l, loadStages W.env { regs := bootRegs } (setManifest m env cs) = .done l ∧ netOf W.comp (setManifest m env cs) l chanSize = (W.setup c1 c2 x p).outNet (W.encode x) Exporter.terminal [] ∧
      ∀ fs : List (FileData Rec), (∀ f ∈ fs, f ≠ .noOpen) → OlderParents (recordsIn fs) → (recordsIn fs).length ≤ W.fuel →
      ∀ (tr : List (Drain.Obs Msg)) (s : PSt Rec ((W.setup c1 c2 x p).outNet (W.encode x) Exporter.terminal [])), PExec Msg.sf _ (fileDriver (fun _ => true) (some fs)) tr s → ∀ e, s.status = some e →
        e = false ∧ ∃ ms, MessagesFor (W.setup c1 c2 x p) dss (W.Line c1 c2 x p) (eventsAfter [] (recordsIn fs)) ms ∧
          (W.setup c1 c2 x p).outOf s.net = ms.flatMap (fun l => l ++ [Exporter.newline]) ∧ Exporter.linesOf [] ((W.setup c1 c2 x p).outOf s.net) = ms := by
  obtain ⟨l, h1, -, -, h4⟩ := usual_boots W u h
  have hv := build_version W hm u h.conf
  have hok := setup_ok W ok hv p
  rw [hm]
  refine ⟨l, h1, h4.trans (usual_terminal W c1 c2 ht), ?_⟩
  intro fs hopen hold hfuel tr s hx e he
  obtain ⟨k1, k2, k3, k4, rd, cs', k5⟩ := out_run _ hok.workers hok.cap fs hopen hold hfuel hx he
  exact ⟨k1, terminal_program _ dss hok.toCore hok.dedup (world_encodes W ok hv p hn) k5 tr s.net k2 k3 k4⟩

/-- **C104** From the configuration to syslog: the same with syslog output if the daemon can be reached; what has been sent is what gets through of the messages. -/
theorem boot_syslog_run (W : World P) {m : Manifest} {env : List Str} {cs : List Pipeline.Conf} {c1 c2 c3 : Pipeline.Conf} {a b d : Str} (hm : setManifest m env cs = [c1, c2, c3])
    (u : Usual c1 c2 c3 a b d) {x : XConfig} {p : P} (h : W.Ready c2 c3 x p) (ht : x.transport = .syslog) {dss : P → List (List Decl)} (ok : W.Ok m c1 c2 dss) (hn : KindNames W.L) :
    ∃ l, loadStages W.env { regs := bootRegs } (setManifest m env cs) = .done l ∧ netOf W.comp (setManifest m env cs) l chanSize = (W.setup c1 c2 x p).outNet (W.encode x) (Exporter.syslog W.sends) ([], 0) ∧
      ∀ fs : List (FileData Rec), (∀ f ∈ fs, f ≠ .noOpen) → OlderParents (recordsIn fs) → (recordsIn fs).length ≤ W.fuel →
      ∀ (tr : List (Drain.Obs Msg)) (s : PSt Rec ((W.setup c1 c2 x p).outNet (W.encode x) (Exporter.syslog W.sends) ([], 0))), PExec Msg.sf _ (fileDriver (fun _ => true) (some fs)) tr s → ∀ e, s.status = some e →
        e = false ∧ ∃ ms, MessagesFor (W.setup c1 c2 x p) dss (W.Line c1 c2 x p) (eventsAfter [] (recordsIn fs)) ms ∧
          GetsThrough W.sends x.eventBuffer ms ((W.setup c1 c2 x p).outOf s.net).1 ((W.setup c1 c2 x p).outOf s.net).2 := by
  obtain ⟨l, h1, -, -, h4⟩ := usual_boots W u h
  have hv := build_version W hm u h.conf
  have hok := setup_ok W ok hv p
  rw [hm]
  refine ⟨l, h1, h4.trans (usual_syslog W c1 c2 ht), ?_⟩
  intro fs hopen hold hfuel tr s hx e he
  obtain ⟨k1, k2, k3, k4, rd, cs', k5⟩ := out_run _ hok.workers hok.cap fs hopen hold hfuel hx he
  exact ⟨k1, syslog_program _ dss hok.toCore hok.dedup (world_encodes W ok hv p hn) W.sends k5 tr s.net k2 k3 k4⟩

/-- **C104** If the syslog daemon cannot be reached when the program starts, it does not start. -/
theorem unreachable_never_loads (W : World P) {c1 c2 c3 : Pipeline.Conf} {a b d : Str} (u : Usual c1 c2 c3 a b d) {x : XConfig} (hx : createConfigX W.secrets (xconf c3) = some x)
    (ht : x.transport = .syslog ∨ x.transport = .es) (hc : W.connects x = false) (l : Load Factory) : loadStages W.env { regs := bootRegs } [c1, c2, c3] ≠ .done l := by
  refine exporter_never_loads W u (fun r => ?_) l
  unfold World.env
  dsimp only
  rw [hx]
  dsimp only
  rw [if_neg]
  unfold World.exports
  rw [hc]
  rcases ht with ht | ht <;> rw [ht] <;> simp

/-- **C104** With a format that this build has no encoder for, or the Kafka transport that it does not have, the program does not start. -/
theorem format_never_loads (W : World P) {c1 c2 c3 : Pipeline.Conf} {a b d : Str} (u : Usual c1 c2 c3 a b d) {x : XConfig} (hx : createConfigX W.secrets (xconf c3) = some x)
    (hf : (x.format ≠ .json ∧ x.format ≠ .ecs) ∨ x.transport = .kafka) (l : Load Factory) : loadStages W.env { regs := bootRegs } [c1, c2, c3] ≠ .done l := by
  refine exporter_never_loads W u (fun r => ?_) l
  unfold World.env
  dsimp only
  rw [hx]
  dsimp only
  rw [if_neg]
  unfold World.exports
  rcases hf with ⟨h1, h2⟩ | h
  · rw [beq_false_of_ne h1, beq_false_of_ne h2]
    simp
  · rw [h]
    simp

/-! ### Examples -/

/-- The demo configuration with terminal output. -/
def termConfs : List Pipeline.Conf :=
  [demoConfs[0], demoConfs[1],
   [(kProc, .str "exporter".toList), (kIn, .str "evt eventchan".toList), ("buffer".toList, .str "3".toList), ("kafka.topic".toList, .str "t".toList),
    ("kafka.config".toList, .map [("bootstrap.servers".toList, .str "h".toList)])]]

def termConfs' : List Pipeline.Conf := setManifest demoManifest [] termConfs

/-- The demo configuration with ECS documents sent to syslog one by one. -/
def sysConfs : List Pipeline.Conf :=
  [demoConfs[0], demoConfs[1],
   [(kProc, .str "exporter".toList), (kIn, .str "evt eventchan".toList), ("export".toList, .str "syslog".toList), ("format".toList, .str "ecs".toList), ("buffer".toList, .str "0".toList),
    ("kafka.topic".toList, .str "t".toList), ("kafka.config".toList, .map [("bootstrap.servers".toList, .str "h".toList)])]]

def sysConfs' : List Pipeline.Conf := setManifest demoManifest [] sysConfs

theorem term_usual : ∃ c1 c2 c3, setManifest demoManifest [] termConfs = [c1, c2, c3] ∧ Usual c1 c2 c3 "sysflow".toList "flat".toList "evt".toList ∧
    c1 = termConfs'[0]'(by decide +kernel) ∧ c2 = termConfs'[1]'(by decide +kernel) ∧ c3 = termConfs'[2]'(by decide +kernel) := by
  obtain ⟨c1, c2, c3, h1, h2, -⟩ := usual_manifest (c1 := termConfs[0]) (c2 := termConfs[1]) (c3 := termConfs[2]) (a := "sysflow".toList) (b := "flat".toList) (d := "evt".toList)
    demoManifest []
    ⟨by decide +kernel, by decide +kernel, by decide +kernel, by decide +kernel, ⟨_, rfl, by decide +kernel⟩, ⟨_, rfl, by decide +kernel⟩, ⟨_, "flattenerchan".toList, rfl, by decide +kernel⟩,
      ⟨_, rfl, by decide +kernel⟩, ⟨_, "eventchan".toList, rfl, by decide +kernel⟩, by decide +kernel, by decide, by decide, by decide⟩
  have e : termConfs' = [c1, c2, c3] := h1
  refine ⟨c1, c2, c3, h1, h2, ?_, ?_, ?_⟩ <;> simp only [e] <;> rfl

theorem sys_usual : ∃ c1 c2 c3, setManifest demoManifest [] sysConfs = [c1, c2, c3] ∧ Usual c1 c2 c3 "sysflow".toList "flat".toList "evt".toList ∧
    c1 = sysConfs'[0]'(by decide +kernel) ∧ c2 = sysConfs'[1]'(by decide +kernel) ∧ c3 = sysConfs'[2]'(by decide +kernel) := by
  obtain ⟨c1, c2, c3, h1, h2, -⟩ := usual_manifest (c1 := sysConfs[0]) (c2 := sysConfs[1]) (c3 := sysConfs[2]) (a := "sysflow".toList) (b := "flat".toList) (d := "evt".toList)
    demoManifest []
    ⟨by decide +kernel, by decide +kernel, by decide +kernel, by decide +kernel, ⟨_, rfl, by decide +kernel⟩, ⟨_, rfl, by decide +kernel⟩, ⟨_, "flattenerchan".toList, rfl, by decide +kernel⟩,
      ⟨_, rfl, by decide +kernel⟩, ⟨_, "eventchan".toList, rfl, by decide +kernel⟩, by decide +kernel, by decide, by decide, by decide⟩
  have e : sysConfs' = [c1, c2, c3] := h1
  refine ⟨c1, c2, c3, h1, h2, ?_, ?_, ?_⟩ <;> simp only [e] <;> rfl

theorem term_settings : (engineConf (termConfs'[1]'(by decide +kernel))).policiesPath = "p".toList ∧ (engineConf (termConfs'[1]'(by decide +kernel))).concurrency = 4 ∧
    (createFlattenerConfig (Config.toConf (xconf (termConfs'[0]'(by decide +kernel))))).1.filterOn = false ∧
    (createConfigX ⟨fun _ => none, fun _ => none⟩ (xconf (termConfs'[2]'(by decide +kernel)))).map (fun x => (x.format, x.transport, x.eventBuffer)) = some (.json, .terminal, 3) := by
  decide +kernel

theorem sys_settings : (engineConf (sysConfs'[1]'(by decide +kernel))).policiesPath = "p".toList ∧ (engineConf (sysConfs'[1]'(by decide +kernel))).concurrency = 4 ∧
    (createFlattenerConfig (Config.toConf (xconf (sysConfs'[0]'(by decide +kernel))))).1.filterOn = false ∧
    (createConfigX ⟨fun _ => none, fun _ => none⟩ (xconf (sysConfs'[2]'(by decide +kernel)))).map (fun x => (x.format, x.transport, x.eventBuffer)) = some (.ecs, .syslog, 0) := by
  decide +kernel

/-- The demo world, with every second send failing. -/
def halfWorld (code : List (Rule Record) × List (Filter Record)) : World Unit := { demoWorld code with sends := fun i => i % 2 == 0 }

/-- The hypotheses of `boot_terminal_run` are met: the demo configuration starts the program, which runs to the end on a file. -/
example : ∃ code c1 c2 c3 x l tr, loadStages (demoWorld code).env { regs := bootRegs } (setManifest demoManifest [] termConfs) = .done l ∧ setManifest demoManifest [] termConfs = [c1, c2, c3] ∧
    ∃ s : PSt Rec (((demoWorld code).setup c1 c2 x ()).outNet ((demoWorld code).encode x) Exporter.terminal []),
    PExec Msg.sf _ (fileDriver (fun _ => true) (some [.data (Processor.saneStream.map .record)])) tr s ∧ s.status = some false ∧
    ∃ ms, MessagesFor ((demoWorld code).setup c1 c2 x ()) (fun _ => [lsDecls]) (LineFor ((demoWorld code).setup c1 c2 x ())) (eventsAfter [] Processor.saneStream) ms ∧
      ((demoWorld code).setup c1 c2 x ()).outOf s.net = ms.flatMap (fun l => l ++ [Exporter.newline]) := by
  obtain ⟨k, rules, filters, hcomp, _⟩ := policy_texts_to_alerts demoLib simple_rule [lsText] [lsDecls] (.cons ls_parses .nil) ls_acyclic
  obtain ⟨c1, c2, c3, hm, hu, e1, e2, e3⟩ := term_usual
  obtain ⟨s1, s2, s4, s5⟩ := term_settings
  rw [← e2] at s1 s2
  rw [← e1] at s4
  rw [← e3] at s5
  obtain ⟨x, hx, hs⟩ := Option.map_eq_some_iff.1 s5
  simp only [Prod.mk.injEq] at hs
  obtain ⟨f1, f2, f3⟩ := hs
  have hready : (demoWorld (rules, filters)).Ready c2 c3 x () := by
    refine ⟨by rw [s1]; decide, ?_, by rw [s2]; decide, hx, ?_⟩
    · change (if (engineConf c2).policiesPath = "p".toList then some () else none) = _
      rw [if_pos s1]
    · unfold World.exports
      rw [f1, f2]
      rfl
  have hok : (demoWorld (rules, filters)).Ok demoManifest c1 c2 (fun _ => [lsDecls]) := by
    refine ⟨simple_rule, fun _ => .cons ls_parses .nil, fun _ => ls_acyclic, fun _ => ⟨k, hcomp⟩, ?_, by rw [s2]; decide, s4, Json.demo_ok, ?_⟩
    · intro a f hf
      rcases hf with hf | hf <;> cases hf
    · exact Json.demo_version
  obtain ⟨l, h1, h2, h3⟩ := boot_terminal_run (demoWorld (rules, filters)) hm hu hready f2 hok demo_names
  have hopen : ∀ f ∈ [FileData.data (Processor.saneStream.map .record)], f ≠ .noOpen := by
    intro f hf
    rw [List.mem_singleton.1 hf]; intro h; cases h
  obtain ⟨hT, hC⟩ := netWith_ok ((demoWorld (rules, filters)).setup c1 c2 x ()) (Exporter.allOrNone ((demoWorld (rules, filters)).encode x)) Exporter.terminal []
    (by change 0 < (engineConf c2).concurrency.toNat; rw [s2]; decide) (by change 0 < 100000; decide)
  obtain ⟨body, b1, b2, _⟩ := file_driver_delivers (fun _ => true) (fun _ h => h) _ hopen
  obtain ⟨tr, s, hx, he⟩ := complete_run hT hC ⟨b1, b2⟩ Msg.sf
  obtain ⟨-, ms, g1, g2, -⟩ := h3 _ hopen (by change OlderParents Processor.saneStream; exact Processor.sane_older) (by change 7 ≤ 10; decide) tr s hx _ he
  refine ⟨(rules, filters), c1, c2, c3, x, l, tr, h1, hm, s, hx, he, ms, ?_, g2⟩
  unfold World.Line at g1
  rw [f1] at g1
  exact g1

/-- The hypotheses of `boot_syslog_run` are met, with ECS documents and every second send failing. -/
example : ∃ code c1 c2 c3 x l tr, loadStages (halfWorld code).env { regs := bootRegs } (setManifest demoManifest [] sysConfs) = .done l ∧ setManifest demoManifest [] sysConfs = [c1, c2, c3] ∧
    ∃ s : PSt Rec (((halfWorld code).setup c1 c2 x ()).outNet ((halfWorld code).encode x) (Exporter.syslog (halfWorld code).sends) ([], 0)),
    PExec Msg.sf _ (fileDriver (fun _ => true) (some [.data (Processor.saneStream.map .record)])) tr s ∧ s.status = some false ∧
    ∃ ms, MessagesFor ((halfWorld code).setup c1 c2 x ()) (fun _ => [lsDecls]) (EcsLine ((halfWorld code).setup c1 c2 x ()) ((halfWorld code).ecsSide c1 c2 x ())) (eventsAfter [] Processor.saneStream) ms ∧
      (((halfWorld code).setup c1 c2 x ()).outOf s.net).1 = (ms.zipIdx.filter (fun y => y.2 % 2 == 0)).map Prod.fst := by
  obtain ⟨k, rules, filters, hcomp, _⟩ := policy_texts_to_alerts demoLib simple_rule [lsText] [lsDecls] (.cons ls_parses .nil) ls_acyclic
  obtain ⟨c1, c2, c3, hm, hu, e1, e2, e3⟩ := sys_usual
  obtain ⟨s1, s2, s4, s5⟩ := sys_settings
  rw [← e2] at s1 s2
  rw [← e1] at s4
  rw [← e3] at s5
  obtain ⟨x, hx, hs⟩ := Option.map_eq_some_iff.1 s5
  simp only [Prod.mk.injEq] at hs
  obtain ⟨f1, f2, f3⟩ := hs
  have hready : (halfWorld (rules, filters)).Ready c2 c3 x () := by
    refine ⟨by rw [s1]; decide, ?_, by rw [s2]; decide, hx, ?_⟩
    · change (if (engineConf c2).policiesPath = "p".toList then some () else none) = _
      rw [if_pos s1]
    · unfold World.exports
      rw [f1, f2]
      rfl
  have hok : (halfWorld (rules, filters)).Ok demoManifest c1 c2 (fun _ => [lsDecls]) := by
    refine ⟨simple_rule, fun _ => .cons ls_parses .nil, fun _ => ls_acyclic, fun _ => ⟨k, hcomp⟩, ?_, by rw [s2]; decide, s4, Json.demo_ok, ?_⟩
    · intro a f hf
      rcases hf with hf | hf <;> cases hf
    · exact Json.demo_version
  obtain ⟨l, h1, h2, h3⟩ := boot_syslog_run (halfWorld (rules, filters)) hm hu hready f2 hok demo_names
  have hopen : ∀ f ∈ [FileData.data (Processor.saneStream.map .record)], f ≠ .noOpen := by
    intro f hf
    rw [List.mem_singleton.1 hf]; intro h; cases h
  obtain ⟨hT, hC⟩ := netWith_ok ((halfWorld (rules, filters)).setup c1 c2 x ()) (Exporter.allOrNone ((halfWorld (rules, filters)).encode x)) (Exporter.syslog (halfWorld (rules, filters)).sends) ([], 0)
    (by change 0 < (engineConf c2).concurrency.toNat; rw [s2]; decide) (by change 0 < 100000; decide)
  obtain ⟨body, b1, b2, _⟩ := file_driver_delivers (fun _ => true) (fun _ h => h) _ hopen
  obtain ⟨tr, s, hx, he⟩ := complete_run hT hC ⟨b1, b2⟩ Msg.sf
  obtain ⟨-, ms, g1, g2⟩ := h3 _ hopen (by change OlderParents Processor.saneStream; exact Processor.sane_older) (by change 7 ≤ 10; decide) tr s hx _ he
  refine ⟨(rules, filters), c1, c2, c3, x, l, tr, h1, hm, s, hx, he, ms, ?_, (g2.single (by rw [f3]; decide)).2⟩
  unfold World.Line at g1
  rw [f1] at g1
  exact g1

/-- The hypotheses of `unreachable_never_loads` are met. -/
example (code : List (Rule Record) × List (Filter Record)) (l : Load Factory) :
    loadStages ({ demoWorld code with connects := fun _ => false } : World Unit).env { regs := bootRegs } (setManifest demoManifest [] sysConfs) ≠ .done l := by
  obtain ⟨c1, c2, c3, hm, hu, e1, e2, e3⟩ := sys_usual
  obtain ⟨-, -, -, s5⟩ := sys_settings
  rw [← e3] at s5
  obtain ⟨x, hx, hs⟩ := Option.map_eq_some_iff.1 s5
  simp only [Prod.mk.injEq] at hs
  rw [hm]
  exact unreachable_never_loads ({ demoWorld code with connects := fun _ => false } : World Unit) hu hx (.inl hs.2.1) rfl l

end Verif.Whole
