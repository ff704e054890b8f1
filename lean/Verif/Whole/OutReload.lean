import Verif.Whole.EcsReload
/-
C122: policies reloaded while messages go to the terminal, to syslog or to a file that cannot always be written, as JSON records or ECS documents.
Sources: /repo/core/policyengine/policyengine.go:76-206, 221-234, /repo/core/policyengine/monitor/localpolicymonitor.go:51-231, /repo/core/exporter/transports/terminal.go:44-56, syslog.go:47-82, file.go:43-72,
and the sources of the whole program (Verif/Whole/Program.lean, Verif/Whole/Boot.lean)
-/
namespace Verif.Whole
open Verif.Decimal (Str)
open Verif.Exporter (Bytes GetsThrough KeptOf)
open Verif.FlatRecord
open Verif.Policy
open Verif.Falco
open Verif.Processor (Rec HCall OlderParents)
open Verif.Flattener (eventsAfter StoresEvent)
open Verif.Pipeline
open Verif.Pipeline.Drain (driven rootClosed Waited sync engine exporter chain)
open Verif.Config (XConf XVal XConfig ConfEnv EngineConfig createConfigX createEngineConfig createFlattenerConfig engineInit)

variable {P : Type}

/-! ### Model -/

/-- Runs of the whole program with an encoder and a transport of data beside a policy directory, at first `d`, that changes at any time, and its monitor. -/
abbrev OutReloadRun {C X : Type} [DecidableEq C] (S : Setup P) (hp : S.pending = []) (enc : Msg → Option Exporter.Datum) (T : Exporter.Transport X Exporter.Datum) (x0 : X) (sha : Str → C)
    (comp : List (Str × Option Str) → Option P) (d : List (Monitor.FileEnt Str)) :=
  Reload.Exec (S.engineIn hp (Exporter.allOrNone enc) T x0) sha comp d

/-! ### Specification -/

open Classical in
/-- Messages are complete for the events `evs` under the policy sets `pols`, where `Want` says which events a policy set wants logged and `Line` describes the message of an event: the events fall into
consecutive stretches, one for each of these policy sets; the messages are, stretch by stretch, one for each event that its policies want logged; in the order of the events if there is one worker. -/
def MessagesAs (S : Setup P) (Want : P → Event → Prop) (Line : P → Event → Bytes → Prop) (pols : List P) (evs : List Event) (ms : List Bytes) : Prop :=
  ∃ ss : List (Stretch P), ss.map Stretch.pol = pols ∧ ss.flatMap Stretch.events = evs ∧ ss.flatMap Stretch.lines = ms ∧
    ∀ g ∈ ss, ∃ picked, List.Perm picked (g.events.filter (fun x => decide (Want g.pol x))) ∧
      (S.workers = 1 → picked = g.events.filter (fun x => decide (Want g.pol x))) ∧
      List.Forall₂ (Line g.pol) picked g.lines

/-- The same under Falco policies. -/
def MessagesUnder (S : Setup P) (dss : P → List (List Decl)) (Line : List (List Decl) → Event → Bytes → Prop) (pols : List P) (evs : List Event) (ms : List Bytes) : Prop :=
  MessagesAs S (fun p => Logged S (dss p)) (fun p => Line (dss p)) pols evs ms

/-- A policy set comes from files of the directory as they were: it is what the compiler made of files read, with contents that they had at some time. -/
def CompiledFrom (comp : List (Str × Option Str) → Option P) (h : List (List (Monitor.FileEnt Str))) (p : P) : Prop :=
  ∃ got, comp got = some p ∧ ∀ f v, (f, v) ∈ got → Reload.PolicyName f ∧ ∃ e ∈ h, v = (Monitor.Live.look e f).join

/-! ### Proofs -/

/-- An encoder whose data are bytes or documents of one line, as `Line` says of the alerts described by `Alert`. -/
def EncodesAs (enc : Msg → Option Exporter.Datum) (Alert : P → Event → Msg → Prop) (Line : P → Event → Bytes → Prop) : Prop :=
  ∀ p x m, Processor.isEvent x.2 = true → Alert p x m → ∃ d, enc m = some d ∧ Line p x d.text ∧ (∃ b, d = .bytes b ∨ d = .obj b) ∧ Exporter.newline ∉ d.text

open Classical in
/-- What reaches the transport. -/
theorem reload_out {C X : Type} [DecidableEq C] (S : Setup P) (hwork : 0 < S.workers) (hcap : 0 < S.cap) (hdedup : S.dedup = false) {Want : P → Event → Prop} {Alert : P → Event → Msg → Prop}
    (hstep : ∀ p x fr, StoresEvent S.F x fr → (¬ Want p x → S.proc p (.flat fr) = none) ∧ (Want p x → ∃ m, S.proc p (.flat fr) = some m ∧ Alert p x m))
    {enc : Msg → Option Exporter.Datum} {Line : P → Event → Bytes → Prop}
    (henc : EncodesAs enc Alert Line) (T : Exporter.Transport X Exporter.Datum) (x0 : X) (hp : S.pending = []) {sha : Str → C} {comp : List (Str × Option Str) → Option P}
    {d : List (Monitor.FileEnt Str)} {rs : List Rec} {rd : Processor.State} {cs : List HCall} (hrun : Processor.run false S.fuel .init rs = some (rd, cs))
    {tr : List (Drain.Obs Msg)} {mo : List (Monitor.Live.Obs Str P)} {x : Drain.St (S.outNet enc T x0) × Monitor.Live.LSt Str C P} (h : OutReloadRun S hp enc T x0 sha comp d tr mo x)
    (hw : Waited x.1) (hd : driven tr = rs.map Msg.sf) :
    ∃ (as : List P) (ms : List Bytes) (es : List (Exporter.Ev Msg)), MessagesAs S Want Line (S.policies :: as) (eventsAfter [] rs) ms ∧ as ++ x.2.chan = Monitor.Live.pushed mo ∧
      (∀ p ∈ as, CompiledFrom comp (Reload.dirsOf d mo) p) ∧
      ((Exporter.received es).filterMap enc).map Exporter.Datum.text = ms ∧ (∀ l ∈ ms, Exporter.newline ∉ l) ∧
      (∀ m ∈ Exporter.received es, ∃ b, enc m = some (.bytes b) ∨ enc m = some (.obj b)) ∧ Exporter.closed es = true ∧
      S.outOf x.1 = (Exporter.run (Exporter.perRecord enc) T S.buffer (Exporter.init x0 S.start) es).tr := by
  obtain ⟨as, gs, es, g1, g2, g3, g4, g5, g6, g7, g8⟩ := reload_delivered S hwork hcap hdedup _ _ hstep _ _ _ hp hrun h hw hd
  obtain ⟨ss, ds, s1, s5, s4, s6, s3, hfm, hnone⟩ := data_of_handled S _ _ enc Line (fun d => (∃ b, d = .bytes b ∨ d = .obj b) ∧ Exporter.newline ∉ d.text)
    (fun p x m a b => henc p x m a b) gs g6
  rw [g3] at s3 hfm hnone
  have e1 : ss.map Stretch.pol = gs.map Handled.pol := by
    have := congrArg (List.map Prod.fst) s1
    simpa [List.map_map, Function.comp_def] using this
  have e2 : ss.flatMap Stretch.events = gs.flatMap Handled.events := by
    have := congrArg (List.flatMap Prod.snd) s1
    simpa [List.flatMap_map] using this
  have hfin := g5.trans (run_allOrNone enc _ _ es _ (fun r hr => (by cases hr)) hnone)
  refine ⟨as, ds.map Exporter.Datum.text, es, ⟨ss, e1.trans g1, e2.trans g2, s5, s6⟩, g7, ?_, by rw [hfm], ?_, ?_, g4, congrArg Exporter.State.tr hfin⟩
  · intro p hp
    obtain ⟨got, -, h1, h2⟩ := g8 p hp
    exact ⟨got, h1, h2⟩
  · intro l hl
    obtain ⟨d, hd, rfl⟩ := List.mem_map.1 hl
    exact (s4 d hd).2
  · intro m hm
    have : enc m ∈ (Exporter.received es).map enc := List.mem_map.2 ⟨m, hm, rfl⟩
    rw [s3] at this
    obtain ⟨d, hd, he⟩ := List.mem_map.1 this
    rw [← he]
    obtain ⟨b, rfl | rfl⟩ := (s4 d hd).1
    · exact ⟨b, .inl rfl⟩
    · exact ⟨b, .inr rfl⟩

/-- What a transport has done with messages that have all been handed to it. -/
structure Delivers {X : Type} (S : Setup P) (enc : Msg → Option Exporter.Datum) (T : Exporter.Transport X Exporter.Datum) (x0 : X) (Result : List Bytes → X → Prop) : Prop where
  all : ∀ es : List (Exporter.Ev Msg), Exporter.closed es = true → (∀ m ∈ Exporter.received es, ∃ b, enc m = some (.bytes b) ∨ enc m = some (.obj b)) →
    (∀ d ∈ (Exporter.received es).filterMap enc, Exporter.newline ∉ d.text) →
    Result (((Exporter.received es).filterMap enc).map Exporter.Datum.text) (Exporter.run (Exporter.perRecord enc) T S.buffer (Exporter.init x0 S.start) es).tr

/-- Terminal: one line for each message (terminal.go:44-56). -/
def Printed (ms : List Bytes) (out : Bytes) : Prop := out = ms.flatMap (fun l => l ++ [Exporter.newline]) ∧ Exporter.linesOf [] out = ms

theorem terminal_delivers (S : Setup P) (enc : Msg → Option Exporter.Datum) : Delivers S enc Exporter.terminal [] Printed := by
  refine ⟨fun es hc _ hnl => ?_⟩
  have hlog := Exporter.terminal_log enc S.buffer S.start es hc
  constructor
  · rw [hlog, List.flatMap_map]; rfl
  · rw [hlog]
    exact Exporter.linesOf_log _ hnl

theorem syslog_delivers (S : Setup P) (enc : Msg → Option Exporter.Datum) (sends : Nat → Bool) :
    Delivers S enc (Exporter.syslog sends) ([], 0) (fun ms o => GetsThrough sends S.buffer ms o.1 o.2) :=
  ⟨fun es hc hb _ => Exporter.syslog_sent enc sends S.buffer S.start es hc hb⟩

theorem file_delivers (S : Setup P) (enc : Msg → Option Exporter.Datum) (writes : Nat → Option Nat) :
    Delivers S enc (Exporter.fileTransport writes) Exporter.newFile (fun ms o => ∃ fates, KeptOf writes S.buffer ms o.contents o.writes fates) :=
  ⟨fun es hc hb _ => Exporter.file_kept enc writes S.buffer S.start es hc hb⟩

/-- Runs with a transport of data beside a changing policy directory. -/
theorem reload_result_as {C X : Type} [DecidableEq C] (S : Setup P) (hwork : 0 < S.workers) (hcap : 0 < S.cap) (hdedup : S.dedup = false) {Want : P → Event → Prop} {Alert : P → Event → Msg → Prop}
    (hstep : ∀ p x fr, StoresEvent S.F x fr → (¬ Want p x → S.proc p (.flat fr) = none) ∧ (Want p x → ∃ m, S.proc p (.flat fr) = some m ∧ Alert p x m))
    {enc : Msg → Option Exporter.Datum} {Line : P → Event → Bytes → Prop} (henc : EncodesAs enc Alert Line) {T : Exporter.Transport X Exporter.Datum} {x0 : X} {Result : List Bytes → X → Prop} (hT : Delivers S enc T x0 Result) (hp : S.pending = []) {sha : Str → C}
    {comp : List (Str × Option Str) → Option P} {d : List (Monitor.FileEnt Str)} {rs : List Rec} {rd : Processor.State} {cs : List HCall} (hrun : Processor.run false S.fuel .init rs = some (rd, cs))
    {tr : List (Drain.Obs Msg)} {mo : List (Monitor.Live.Obs Str P)} {x : Drain.St (S.outNet enc T x0) × Monitor.Live.LSt Str C P} (h : OutReloadRun S hp enc T x0 sha comp d tr mo x)
    (hw : Waited x.1) (hd : driven tr = rs.map Msg.sf) :
    ∃ as ms, MessagesAs S Want Line (S.policies :: as) (eventsAfter [] rs) ms ∧ Result ms (S.outOf x.1) ∧ as ++ x.2.chan = Monitor.Live.pushed mo ∧
      ∀ p ∈ as, CompiledFrom comp (Reload.dirsOf d mo) p := by
  obtain ⟨as, ms, es, h1, h2, h3, h4, h5, h6, h7, h8⟩ := reload_out S hwork hcap hdedup hstep henc T x0 hp hrun h hw hd
  refine ⟨as, ms, h1, ?_, h2, h3⟩
  rw [h8, ← h4]
  refine hT.all es h7 h6 (fun d hd => h5 _ ?_)
  rw [← h4]
  exact List.mem_map.2 ⟨d, hd, rfl⟩

/-- The same under Falco policies. -/
theorem reload_result {C X : Type} [DecidableEq C] (S : Setup P) (dss : P → List (List Decl)) (ok : S.Ok dss) {enc : Msg → Option Exporter.Datum} {Line : List (List Decl) → Event → Bytes → Prop}
    (henc : Encodes S enc Line) {T : Exporter.Transport X Exporter.Datum} {x0 : X} {Result : List Bytes → X → Prop} (hT : Delivers S enc T x0 Result) (hp : S.pending = []) {sha : Str → C}
    {comp : List (Str × Option Str) → Option P} {d : List (Monitor.FileEnt Str)} {rs : List Rec} {rd : Processor.State} {cs : List HCall} (hrun : Processor.run false S.fuel .init rs = some (rd, cs))
    {tr : List (Drain.Obs Msg)} {mo : List (Monitor.Live.Obs Str P)} {x : Drain.St (S.outNet enc T x0) × Monitor.Live.LSt Str C P} (h : OutReloadRun S hp enc T x0 sha comp d tr mo x)
    (hw : Waited x.1) (hd : driven tr = rs.map Msg.sf) :
    ∃ as ms, MessagesUnder S dss Line (S.policies :: as) (eventsAfter [] rs) ms ∧ Result ms (S.outOf x.1) ∧ as ++ x.2.chan = Monitor.Live.pushed mo ∧
      ∀ p ∈ as, CompiledFrom comp (Reload.dirsOf d mo) p :=
  reload_result_as S ok.workers ok.cap ok.dedup (engine_step S dss ok.toCore) (fun p x m a b => henc (dss p) x m a b) hT hp hrun h hw hd

/-- **C122** Terminal: when `Wait` returns, what has been printed is one line for each message; the messages are complete under the first policies and then those adopted; those adopted are the first of those
pushed by the monitor, all of them if none is left waiting; and each is what the compiler made of files read, with contents that the directory's files had at some time. -/
theorem reload_terminal {C : Type} [DecidableEq C] (S : Setup P) (dss : P → List (List Decl)) (ok : S.Ok dss) {enc : Msg → Option Exporter.Datum} {Line : List (List Decl) → Event → Bytes → Prop}
    (henc : Encodes S enc Line) (hp : S.pending = []) {sha : Str → C}
    {comp : List (Str × Option Str) → Option P} {d : List (Monitor.FileEnt Str)} {rs : List Rec} {rd : Processor.State} {cs : List HCall} (hrun : Processor.run false S.fuel .init rs = some (rd, cs))
    {tr : List (Drain.Obs Msg)} {mo : List (Monitor.Live.Obs Str P)} {x : Drain.St (S.outNet enc Exporter.terminal []) × Monitor.Live.LSt Str C P} (h : OutReloadRun S hp enc Exporter.terminal [] sha comp d tr mo x)
    (hw : Waited x.1) (hd : driven tr = rs.map Msg.sf) :
    ∃ as ms, MessagesUnder S dss Line (S.policies :: as) (eventsAfter [] rs) ms ∧ S.outOf x.1 = ms.flatMap (fun l => l ++ [Exporter.newline]) ∧ Exporter.linesOf [] (S.outOf x.1) = ms ∧
      as ++ x.2.chan = Monitor.Live.pushed mo ∧ ∀ p ∈ as, CompiledFrom comp (Reload.dirsOf d mo) p := by
  obtain ⟨as, ms, h1, ⟨h2, h3⟩, h4⟩ := reload_result S dss ok henc (terminal_delivers S enc) hp hrun h hw hd
  exact ⟨as, ms, h1, h2, h3, h4⟩

/-- **C122** Syslog: the same; what has been sent is what gets through of the messages. -/
theorem reload_syslog {C : Type} [DecidableEq C] (S : Setup P) (dss : P → List (List Decl)) (ok : S.Ok dss) {enc : Msg → Option Exporter.Datum} {Line : List (List Decl) → Event → Bytes → Prop}
    (henc : Encodes S enc Line) (sends : Nat → Bool) (hp : S.pending = []) {sha : Str → C}
    {comp : List (Str × Option Str) → Option P} {d : List (Monitor.FileEnt Str)} {rs : List Rec} {rd : Processor.State} {cs : List HCall} (hrun : Processor.run false S.fuel .init rs = some (rd, cs))
    {tr : List (Drain.Obs Msg)} {mo : List (Monitor.Live.Obs Str P)} {x : Drain.St (S.outNet enc (Exporter.syslog sends) ([], 0)) × Monitor.Live.LSt Str C P}
    (h : OutReloadRun S hp enc (Exporter.syslog sends) ([], 0) sha comp d tr mo x) (hw : Waited x.1) (hd : driven tr = rs.map Msg.sf) :
    ∃ as ms, MessagesUnder S dss Line (S.policies :: as) (eventsAfter [] rs) ms ∧ GetsThrough sends S.buffer ms (S.outOf x.1).1 (S.outOf x.1).2 ∧
      as ++ x.2.chan = Monitor.Live.pushed mo ∧ ∀ p ∈ as, CompiledFrom comp (Reload.dirsOf d mo) p :=
  reload_result S dss ok henc (syslog_delivers S enc sends) hp hrun h hw hd

/-- **C122** File: the same; the file holds what is kept of the messages. -/
theorem reload_kept {C : Type} [DecidableEq C] (S : Setup P) (dss : P → List (List Decl)) (ok : S.Ok dss) {enc : Msg → Option Exporter.Datum} {Line : List (List Decl) → Event → Bytes → Prop}
    (henc : Encodes S enc Line) (writes : Nat → Option Nat) (hp : S.pending = []) {sha : Str → C}
    {comp : List (Str × Option Str) → Option P} {d : List (Monitor.FileEnt Str)} {rs : List Rec} {rd : Processor.State} {cs : List HCall} (hrun : Processor.run false S.fuel .init rs = some (rd, cs))
    {tr : List (Drain.Obs Msg)} {mo : List (Monitor.Live.Obs Str P)} {x : Drain.St (S.outNet enc (Exporter.fileTransport writes) Exporter.newFile) × Monitor.Live.LSt Str C P}
    (h : OutReloadRun S hp enc (Exporter.fileTransport writes) Exporter.newFile sha comp d tr mo x) (hw : Waited x.1) (hd : driven tr = rs.map Msg.sf) :
    ∃ as ms, MessagesUnder S dss Line (S.policies :: as) (eventsAfter [] rs) ms ∧ (∃ fates, KeptOf writes S.buffer ms (S.outOf x.1).contents (S.outOf x.1).writes fates) ∧
      as ++ x.2.chan = Monitor.Live.pushed mo ∧ ∀ p ∈ as, CompiledFrom comp (Reload.dirsOf d mo) p :=
  reload_result S dss ok henc (file_delivers S enc writes) hp hrun h hw hd

/-- An edit takes effect, whatever the transport does with the messages (`terminal_delivers`, `syslog_delivers`, `file_delivers`). -/
theorem out_edit_takes_effect {C X : Type} [DecidableEq C] (S : Setup P) (dss : P → List (List Decl)) (ok : S.Ok dss) {enc : Msg → Option Exporter.Datum} {Line : List (List Decl) → Event → Bytes → Prop}
    (henc : Encodes S enc Line) {T : Exporter.Transport X Exporter.Datum} {x0 : X} {Result : List Bytes → X → Prop} (hT : Delivers S enc T x0 Result) (hmon : S.monitor = true) (hp : S.pending = [])
    (sha : Str → C) {comp : List (Str × Option Str) → Option P} {f : Str} (hf : Monitor.Live.Yaml f) (t0 t : Str) {p : P} (hc : comp [(f, some t)] = some p)
    {rs : List Rec} {rd : Processor.State} {cs : List HCall} (hrun : Processor.run false S.fuel .init rs = some (rd, cs)) (hev : eventsAfter [] rs ≠ []) (hroom : rs.length ≤ S.cap) :
    ∃ tr mo y, OutReloadRun S hp enc T x0 sha comp (Monitor.Live.sole f t0) tr mo y ∧ Waited y.1 ∧ driven tr = rs.map Msg.sf ∧ y.2.dir = Monitor.Live.sole f t ∧
      ∃ ms, MessagesUnder S dss Line [S.policies, p] (eventsAfter [] rs) ms ∧ Result ms (S.outOf y.1) := by
  obtain ⟨tr, mo, y, e3, w3, d3, k1, -, -, -, c3, -, hpush⟩ := edit_adopted S (Exporter.allOrNone enc) T x0 ok.workers ok.cap ok.dedup hmon hp sha hf t0 t hc hrun hev hroom
  obtain ⟨as, ms, h1, h2, h3, -⟩ := reload_result S dss ok henc hT hp hrun e3 w3 d3
  rw [c3, List.append_nil, hpush] at h3
  rw [h3] at h1
  exact ⟨tr, mo, y, e3, w3, d3, k1, ms, h1, h2⟩

/-! ### From the configuration -/

/-- With policy files in the directory and everything else in order, the program is ready, with the policies in these files. -/
theorem hot_ready (W : World Unit) (fs : Str → Dir) {m : Manifest} {c1 c2 c3 : Pipeline.Conf} (hs : StrRule W.str)
    (hp : (engineConf c2).policiesPath ≠ []) (hl : (engineConf c2).language = .falco) (hmon : (engineConf c2).monitor = .loc) (hw : 0 < (engineConf c2).concurrency)
    {x : XConfig} (hx : createConfigX W.secrets (xconf c3) = some x) (ho : W.exports x = true)
    (hb : Benign W.builtIn W.user) (hd : (createFlattenerConfig (Config.toConf (xconf c1))).1.filterOn = false) (hlib : Json.Spec.LibOk W.L) (hv : Json.Spec.VersionOk (Utf8.bytes m.jsonSchema))
    {files : List (Monitor.FileEnt Str)} {texts : List Str} {dss : List (List Decl)} (h1 : fs (engineConf c2).policiesPath = some files)
    (h2 : PolicyFiles true files texts) (h3 : List.Forall₂ (fun s ds => GPolicy (ltokens W.str s) ds) texts dss)
    (h4 : ∀ y ∈ sites dss, ∀ e, siteCond y = some e → ¬ Cyclic y.2 e) :
    ∃ p : PolicySet W.L W.str, (W.withDirs fs []).Ready c2 c3 x p ∧ (W.withDirs fs []).Ok m c1 c2 PolicySetOf.decls ∧ p.texts = texts ∧ p.decls = dss := by
  obtain ⟨n, rules, filters, hc, -⟩ := policy_texts_to_alerts W.L hs texts dss h3 h4
  obtain ⟨p, hp1, hp2, hp3⟩ := withDirs_policyAt W fs [] (engineConf c2) hl h1 (by rw [hmon]; exact h2) hc
  have hdecls : p.decls = dss := by
    unfold PolicySetOf.decls
    rw [hp2]
    have hfiles : texts.map (fileOf W.str) = dss.map Falco.File.ok := by
      clear hc hp2 h2 h4
      induction h3 with
      | nil => rfl
      | cons h _ ih => rw [List.map_cons, List.map_cons, (policy_accepted_iff hs _ _).2 h, ih]
    exact (decls_of_ok hs _ _ hfiles).2
  exact ⟨p, ⟨hp, hp1, Int.le_of_lt hw, hx, ho⟩, ⟨hs, fun q => (policySet_good hs q).1, fun q => (policySet_good hs q).2, fun q => q.built, hb, hw, hd, hlib, hv⟩, hp2, hdecls⟩

theorem compiledFrom_history {R : Type} {ops : Operations R} {str : Str → Option Nat} {h : List (List (Monitor.FileEnt Str))} {p : PolicySetOf ops str} (hp : CompiledFrom (compileRead ops str) h p) : FromHistory h p.texts := by
  obtain ⟨got, hcomp, hread⟩ := hp
  intro t htx
  have hsnd := compileRead_some.1 hcomp
  have : some t ∈ got.map Prod.snd := by rw [hsnd]; exact List.mem_map.2 ⟨t, htx, rfl⟩
  obtain ⟨⟨f, v⟩, hfv, hv'⟩ := List.mem_map.1 this
  cases hv'
  obtain ⟨hname, e, he, hlook⟩ := hread f _ hfv
  refine ⟨e, he, f, hname, ?_⟩
  revert hlook
  generalize Monitor.Live.look e f = o
  intro hlook
  match o, hlook with
  | some (some _), rfl => rfl

/-- From the configuration to a transport of data. -/
theorem hot_out {C X : Type} [DecidableEq C] (W : World Unit) (fs : Str → Dir) {m : Manifest} {env : List Str} {cs : List Pipeline.Conf} {c1 c2 c3 : Pipeline.Conf} {a b d : Str}
    (hm : setManifest m env cs = [c1, c2, c3]) (u : Usual c1 c2 c3 a b d) (hs : StrRule W.str)
    (hp : (engineConf c2).policiesPath ≠ []) (hl : (engineConf c2).language = .falco) (hmon : (engineConf c2).monitor = .loc) (hw : 0 < (engineConf c2).concurrency)
    {x : XConfig} (hx : createConfigX W.secrets (xconf c3) = some x) (ho : W.exports x = true)
    (hb : Benign W.builtIn W.user) (hd : (createFlattenerConfig (Config.toConf (xconf c1))).1.filterOn = false) (hlib : Json.Spec.LibOk W.L) (hv : Json.Spec.VersionOk (Utf8.bytes m.jsonSchema)) (hn : KindNames W.L)
    {files : List (Monitor.FileEnt Str)} {texts : List Str} {dss : List (List Decl)} (h1 : fs (engineConf c2).policiesPath = some files)
    (h2 : PolicyFiles true files texts) (h3 : List.Forall₂ (fun s ds => GPolicy (ltokens W.str s) ds) texts dss)
    (h4 : ∀ y ∈ sites dss, ∀ e, siteCond y = some e → ¬ Cyclic y.2 e) {T : Exporter.Transport X Exporter.Datum} {x0 : X} {Result : List Bytes → X → Prop}
    (hcomp : ∀ p : PolicySet W.L W.str, chain [sync (readerStep W.F W.fuel W.clock) ((W.withDirs fs []).setup c1 c2 x p).reader0 1, engine ((W.withDirs fs []).setup c1 c2 x p).cfg p W.start [],
      (W.withDirs fs []).exporterComp x] chanSize = ((W.withDirs fs []).setup c1 c2 x p).outNet ((W.withDirs fs []).encode x) T x0)
    (hT : ∀ p : PolicySet W.L W.str, Delivers ((W.withDirs fs []).setup c1 c2 x p) ((W.withDirs fs []).encode x) T x0 Result) :
    ∃ (l : Load Factory) (p : PolicySet W.L W.str), loadStages (W.withDirs fs []).env { regs := bootRegs } (setManifest m env cs) = .done l ∧
      netOf (W.withDirs fs []).comp (setManifest m env cs) l chanSize = ((W.withDirs fs []).setup c1 c2 x p).outNet ((W.withDirs fs []).encode x) T x0 ∧ p.texts = texts ∧ p.decls = dss ∧
      ((W.withDirs fs []).setup c1 c2 x p).Ok PolicySetOf.decls ∧ Encodes ((W.withDirs fs []).setup c1 c2 x p) ((W.withDirs fs []).encode x) ((W.withDirs fs []).Line c1 c2 x p) ∧
      ∀ (sha : Str → C) (rs : List Rec), OlderParents rs → rs.length ≤ W.fuel →
      ∀ (tr : List (Drain.Obs Msg)) (mo : List (Monitor.Live.Obs Str (PolicySet W.L W.str))) (y : Drain.St (((W.withDirs fs []).setup c1 c2 x p).outNet ((W.withDirs fs []).encode x) T x0) × Monitor.Live.LSt Str C (PolicySet W.L W.str)),
        OutReloadRun ((W.withDirs fs []).setup c1 c2 x p) rfl ((W.withDirs fs []).encode x) T x0 sha (compileRead (flatOps W.L getMappers) W.str) files tr mo y →
        (Waited y.1 → driven tr = rs.map Msg.sf →
          ∃ as ms, MessagesUnder ((W.withDirs fs []).setup c1 c2 x p) PolicySetOf.decls ((W.withDirs fs []).Line c1 c2 x p) (p :: as) (eventsAfter [] rs) ms ∧
            Result ms (((W.withDirs fs []).setup c1 c2 x p).outOf y.1) ∧ as ++ y.2.chan = Monitor.Live.pushed mo ∧ ∀ q ∈ as, FromHistory (Reload.dirsOf files mo) q.texts) ∧
        (rootClosed tr = true → ∃ tr' ms y', OutReloadRun ((W.withDirs fs []).setup c1 c2 x p) rfl ((W.withDirs fs []).encode x) T x0 sha (compileRead (flatOps W.L getMappers) W.str) files tr' (mo ++ ms) y' ∧
          Waited y'.1 ∧ driven tr' = driven tr ∧ y'.2.dir = y.2.dir ∧ Monitor.Live.pushed ms = []) := by
  obtain ⟨p, hready, hok, e1, e2⟩ := hot_ready W fs (m := m) (c1 := c1) hs hp hl hmon hw hx ho hb hd hlib hv h1 h2 h3 h4
  obtain ⟨l, k1, -, -, k4⟩ := usual_boots (W.withDirs fs []) u hready
  have hver := build_version (W.withDirs fs []) hm u hready.conf
  have ok := setup_ok (W.withDirs fs []) hok hver p
  have henc := world_encodes (W.withDirs fs []) hok hver p hn
  rw [hm]
  refine ⟨l, p, k1, k4.trans (hcomp p), e1, e2, ok, henc, ?_⟩
  intro sha rs hold hfuel tr mo y hrun
  obtain ⟨hN, hC⟩ := netWith_ok ((W.withDirs fs []).setup c1 c2 x p) (Exporter.allOrNone ((W.withDirs fs []).encode x)) T x0 ok.workers ok.cap
  refine ⟨fun hwait hdr => ?_, fun hroot => Reload.can_finish hN hC hrun hroot⟩
  obtain ⟨⟨rd, hcs⟩, hr⟩ := Processor.reader_returns _ (Processor.older_parents_not_stuck _ hold) W.fuel hfuel
  obtain ⟨as, ms, g1, g2, g3, g4⟩ := reload_result _ _ ok henc (hT p) rfl hr hrun hwait hdr
  exact ⟨as, ms, g1, g2, g3, fun q hq => compiledFrom_history (g4 q hq)⟩

/-- **C122** From the configuration and the policy directory, through its changes, to the terminal. -/
theorem hot_reload_terminal {C : Type} [DecidableEq C] (W : World Unit) (fs : Str → Dir) {m : Manifest} {env : List Str} {cs : List Pipeline.Conf} {c1 c2 c3 : Pipeline.Conf} {a b d : Str}
    (hm : setManifest m env cs = [c1, c2, c3]) (u : Usual c1 c2 c3 a b d) (hs : StrRule W.str)
    (hp : (engineConf c2).policiesPath ≠ []) (hl : (engineConf c2).language = .falco) (hmon : (engineConf c2).monitor = .loc) (hw : 0 < (engineConf c2).concurrency)
    {x : XConfig} (hx : createConfigX W.secrets (xconf c3) = some x) (ho : W.exports x = true) (ht : x.transport = .terminal)
    (hb : Benign W.builtIn W.user) (hd : (createFlattenerConfig (Config.toConf (xconf c1))).1.filterOn = false) (hlib : Json.Spec.LibOk W.L) (hv : Json.Spec.VersionOk (Utf8.bytes m.jsonSchema)) (hn : KindNames W.L)
    {files : List (Monitor.FileEnt Str)} {texts : List Str} {dss : List (List Decl)} (h1 : fs (engineConf c2).policiesPath = some files)
    (h2 : PolicyFiles true files texts) (h3 : List.Forall₂ (fun s ds => GPolicy (ltokens W.str s) ds) texts dss)
    (h4 : ∀ y ∈ sites dss, ∀ e, siteCond y = some e → ¬ Cyclic y.2 e) :
    ∃ (l : Load Factory) (p : PolicySet W.L W.str), loadStages (W.withDirs fs []).env { regs := bootRegs } (setManifest m env cs) = .done l ∧
      netOf (W.withDirs fs []).comp (setManifest m env cs) l chanSize = ((W.withDirs fs []).setup c1 c2 x p).outNet ((W.withDirs fs []).encode x) Exporter.terminal [] ∧ p.texts = texts ∧ p.decls = dss ∧
      ((W.withDirs fs []).setup c1 c2 x p).Ok PolicySetOf.decls ∧ Encodes ((W.withDirs fs []).setup c1 c2 x p) ((W.withDirs fs []).encode x) ((W.withDirs fs []).Line c1 c2 x p) ∧
      ∀ (sha : Str → C) (rs : List Rec), OlderParents rs → rs.length ≤ W.fuel →
      ∀ (tr : List (Drain.Obs Msg)) (mo : List (Monitor.Live.Obs Str (PolicySet W.L W.str))) (y : Drain.St (((W.withDirs fs []).setup c1 c2 x p).outNet ((W.withDirs fs []).encode x) Exporter.terminal []) × Monitor.Live.LSt Str C (PolicySet W.L W.str)),
        OutReloadRun ((W.withDirs fs []).setup c1 c2 x p) rfl ((W.withDirs fs []).encode x) Exporter.terminal [] sha (compileRead (flatOps W.L getMappers) W.str) files tr mo y →
        (Waited y.1 → driven tr = rs.map Msg.sf →
          ∃ as ms, MessagesUnder ((W.withDirs fs []).setup c1 c2 x p) PolicySetOf.decls ((W.withDirs fs []).Line c1 c2 x p) (p :: as) (eventsAfter [] rs) ms ∧
            Printed ms (((W.withDirs fs []).setup c1 c2 x p).outOf y.1) ∧ as ++ y.2.chan = Monitor.Live.pushed mo ∧ ∀ q ∈ as, FromHistory (Reload.dirsOf files mo) q.texts) ∧
        (rootClosed tr = true → ∃ tr' ms y', OutReloadRun ((W.withDirs fs []).setup c1 c2 x p) rfl ((W.withDirs fs []).encode x) Exporter.terminal [] sha (compileRead (flatOps W.L getMappers) W.str) files tr' (mo ++ ms) y' ∧
          Waited y'.1 ∧ driven tr' = driven tr ∧ y'.2.dir = y.2.dir ∧ Monitor.Live.pushed ms = []) :=
  hot_out W fs hm u hs hp hl hmon hw hx ho hb hd hlib hv hn h1 h2 h3 h4 (fun _ => usual_terminal (W.withDirs fs []) c1 c2 ht) (fun _ => terminal_delivers _ _)

/-- **C122** From the configuration and the policy directory, through its changes, to syslog. -/
theorem hot_reload_syslog {C : Type} [DecidableEq C] (W : World Unit) (fs : Str → Dir) {m : Manifest} {env : List Str} {cs : List Pipeline.Conf} {c1 c2 c3 : Pipeline.Conf} {a b d : Str}
    (hm : setManifest m env cs = [c1, c2, c3]) (u : Usual c1 c2 c3 a b d) (hs : StrRule W.str)
    (hp : (engineConf c2).policiesPath ≠ []) (hl : (engineConf c2).language = .falco) (hmon : (engineConf c2).monitor = .loc) (hw : 0 < (engineConf c2).concurrency)
    {x : XConfig} (hx : createConfigX W.secrets (xconf c3) = some x) (ho : W.exports x = true) (ht : x.transport = .syslog)
    (hb : Benign W.builtIn W.user) (hd : (createFlattenerConfig (Config.toConf (xconf c1))).1.filterOn = false) (hlib : Json.Spec.LibOk W.L) (hv : Json.Spec.VersionOk (Utf8.bytes m.jsonSchema)) (hn : KindNames W.L)
    {files : List (Monitor.FileEnt Str)} {texts : List Str} {dss : List (List Decl)} (h1 : fs (engineConf c2).policiesPath = some files)
    (h2 : PolicyFiles true files texts) (h3 : List.Forall₂ (fun s ds => GPolicy (ltokens W.str s) ds) texts dss)
    (h4 : ∀ y ∈ sites dss, ∀ e, siteCond y = some e → ¬ Cyclic y.2 e) :
    ∃ (l : Load Factory) (p : PolicySet W.L W.str), loadStages (W.withDirs fs []).env { regs := bootRegs } (setManifest m env cs) = .done l ∧
      netOf (W.withDirs fs []).comp (setManifest m env cs) l chanSize = ((W.withDirs fs []).setup c1 c2 x p).outNet ((W.withDirs fs []).encode x) (Exporter.syslog W.sends) ([], 0) ∧ p.texts = texts ∧ p.decls = dss ∧
      ((W.withDirs fs []).setup c1 c2 x p).Ok PolicySetOf.decls ∧ Encodes ((W.withDirs fs []).setup c1 c2 x p) ((W.withDirs fs []).encode x) ((W.withDirs fs []).Line c1 c2 x p) ∧
      ∀ (sha : Str → C) (rs : List Rec), OlderParents rs → rs.length ≤ W.fuel →
      ∀ (tr : List (Drain.Obs Msg)) (mo : List (Monitor.Live.Obs Str (PolicySet W.L W.str)))
        (y : Drain.St (((W.withDirs fs []).setup c1 c2 x p).outNet ((W.withDirs fs []).encode x) (Exporter.syslog W.sends) ([], 0)) × Monitor.Live.LSt Str C (PolicySet W.L W.str)),
        OutReloadRun ((W.withDirs fs []).setup c1 c2 x p) rfl ((W.withDirs fs []).encode x) (Exporter.syslog W.sends) ([], 0) sha (compileRead (flatOps W.L getMappers) W.str) files tr mo y →
        (Waited y.1 → driven tr = rs.map Msg.sf →
          ∃ as ms, MessagesUnder ((W.withDirs fs []).setup c1 c2 x p) PolicySetOf.decls ((W.withDirs fs []).Line c1 c2 x p) (p :: as) (eventsAfter [] rs) ms ∧
            GetsThrough W.sends x.eventBuffer ms (((W.withDirs fs []).setup c1 c2 x p).outOf y.1).1 (((W.withDirs fs []).setup c1 c2 x p).outOf y.1).2 ∧
            as ++ y.2.chan = Monitor.Live.pushed mo ∧ ∀ q ∈ as, FromHistory (Reload.dirsOf files mo) q.texts) ∧
        (rootClosed tr = true → ∃ tr' ms y', OutReloadRun ((W.withDirs fs []).setup c1 c2 x p) rfl ((W.withDirs fs []).encode x) (Exporter.syslog W.sends) ([], 0) sha (compileRead (flatOps W.L getMappers) W.str) files tr' (mo ++ ms) y' ∧
          Waited y'.1 ∧ driven tr' = driven tr ∧ y'.2.dir = y.2.dir ∧ Monitor.Live.pushed ms = []) :=
  hot_out (T := Exporter.syslog W.sends) (x0 := ([], 0)) (Result := fun ms o => GetsThrough W.sends x.eventBuffer ms o.1 o.2) W fs hm u hs hp hl hmon hw hx ho hb hd hlib hv hn h1 h2 h3 h4 (fun p => usual_syslog (W.withDirs fs []) c1 c2 (p := p) ht) (fun p => syslog_delivers ((W.withDirs fs []).setup c1 c2 x p) _ W.sends)

/-- **C122** From the configuration and the policy directory, through its changes, to a file that cannot always be written, as JSON records or ECS documents. -/
theorem hot_reload_kept {C : Type} [DecidableEq C] (W : World Unit) (fs : Str → Dir) {m : Manifest} {env : List Str} {cs : List Pipeline.Conf} {c1 c2 c3 : Pipeline.Conf} {a b d : Str}
    (hm : setManifest m env cs = [c1, c2, c3]) (u : Usual c1 c2 c3 a b d) (hs : StrRule W.str)
    (hp : (engineConf c2).policiesPath ≠ []) (hl : (engineConf c2).language = .falco) (hmon : (engineConf c2).monitor = .loc) (hw : 0 < (engineConf c2).concurrency)
    {x : XConfig} (hx : createConfigX W.secrets (xconf c3) = some x) (ho : W.exports x = true) (ht : x.transport = .file)
    (hb : Benign W.builtIn W.user) (hd : (createFlattenerConfig (Config.toConf (xconf c1))).1.filterOn = false) (hlib : Json.Spec.LibOk W.L) (hv : Json.Spec.VersionOk (Utf8.bytes m.jsonSchema)) (hn : KindNames W.L)
    {files : List (Monitor.FileEnt Str)} {texts : List Str} {dss : List (List Decl)} (h1 : fs (engineConf c2).policiesPath = some files)
    (h2 : PolicyFiles true files texts) (h3 : List.Forall₂ (fun s ds => GPolicy (ltokens W.str s) ds) texts dss)
    (h4 : ∀ y ∈ sites dss, ∀ e, siteCond y = some e → ¬ Cyclic y.2 e) :
    ∃ (l : Load Factory) (p : PolicySet W.L W.str), loadStages (W.withDirs fs []).env { regs := bootRegs } (setManifest m env cs) = .done l ∧
      netOf (W.withDirs fs []).comp (setManifest m env cs) l chanSize = ((W.withDirs fs []).setup c1 c2 x p).outNet ((W.withDirs fs []).encode x) (Exporter.fileTransport W.writes) Exporter.newFile ∧ p.texts = texts ∧ p.decls = dss ∧
      ((W.withDirs fs []).setup c1 c2 x p).Ok PolicySetOf.decls ∧ Encodes ((W.withDirs fs []).setup c1 c2 x p) ((W.withDirs fs []).encode x) ((W.withDirs fs []).Line c1 c2 x p) ∧
      ∀ (sha : Str → C) (rs : List Rec), OlderParents rs → rs.length ≤ W.fuel →
      ∀ (tr : List (Drain.Obs Msg)) (mo : List (Monitor.Live.Obs Str (PolicySet W.L W.str)))
        (y : Drain.St (((W.withDirs fs []).setup c1 c2 x p).outNet ((W.withDirs fs []).encode x) (Exporter.fileTransport W.writes) Exporter.newFile) × Monitor.Live.LSt Str C (PolicySet W.L W.str)),
        OutReloadRun ((W.withDirs fs []).setup c1 c2 x p) rfl ((W.withDirs fs []).encode x) (Exporter.fileTransport W.writes) Exporter.newFile sha (compileRead (flatOps W.L getMappers) W.str) files tr mo y →
        (Waited y.1 → driven tr = rs.map Msg.sf →
          ∃ as ms, MessagesUnder ((W.withDirs fs []).setup c1 c2 x p) PolicySetOf.decls ((W.withDirs fs []).Line c1 c2 x p) (p :: as) (eventsAfter [] rs) ms ∧
            (∃ fates, KeptOf W.writes x.eventBuffer ms (((W.withDirs fs []).setup c1 c2 x p).outOf y.1).contents (((W.withDirs fs []).setup c1 c2 x p).outOf y.1).writes fates) ∧
            as ++ y.2.chan = Monitor.Live.pushed mo ∧ ∀ q ∈ as, FromHistory (Reload.dirsOf files mo) q.texts) ∧
        (rootClosed tr = true → ∃ tr' ms y', OutReloadRun ((W.withDirs fs []).setup c1 c2 x p) rfl ((W.withDirs fs []).encode x) (Exporter.fileTransport W.writes) Exporter.newFile sha (compileRead (flatOps W.L getMappers) W.str) files tr' (mo ++ ms) y' ∧
          Waited y'.1 ∧ driven tr' = driven tr ∧ y'.2.dir = y.2.dir ∧ Monitor.Live.pushed ms = []) :=
  hot_out (T := Exporter.fileTransport W.writes) (x0 := Exporter.newFile) (Result := fun ms o => ∃ fates, KeptOf W.writes x.eventBuffer ms o.contents o.writes fates) W fs hm u hs hp hl hmon hw hx ho hb hd hlib hv hn h1 h2 h3 h4 (fun p => usual_failing_file (W.withDirs fs []) c1 c2 (p := p) ht) (fun p => file_delivers ((W.withDirs fs []).setup c1 c2 x p) _ W.writes)

/-! ### Concrete cases -/

/-- The demo configuration with a monitor and terminal output. -/
def watchTermConfs : List Pipeline.Conf := [demoConfs[0], watchConfs[1], termConfs[2]]

def watchTermConfs' : List Pipeline.Conf := setManifest demoManifest [] watchTermConfs

theorem watchTerm_usual : ∃ c1 c2 c3, setManifest demoManifest [] watchTermConfs = [c1, c2, c3] ∧ Usual c1 c2 c3 "sysflow".toList "flat".toList "evt".toList ∧
    c1 = watchTermConfs'[0]'(by decide +kernel) ∧ c2 = watchTermConfs'[1]'(by decide +kernel) ∧ c3 = watchTermConfs'[2]'(by decide +kernel) := by
  obtain ⟨c1, c2, c3, h1, h2, -⟩ := usual_manifest (c1 := watchTermConfs[0]) (c2 := watchTermConfs[1]) (c3 := watchTermConfs[2]) (a := "sysflow".toList) (b := "flat".toList) (d := "evt".toList)
    demoManifest []
    ⟨by decide +kernel, by decide +kernel, by decide +kernel, by decide +kernel, ⟨_, rfl, by decide +kernel⟩, ⟨_, rfl, by decide +kernel⟩, ⟨_, "flattenerchan".toList, rfl, by decide +kernel⟩,
      ⟨_, rfl, by decide +kernel⟩, ⟨_, "eventchan".toList, rfl, by decide +kernel⟩, by decide +kernel, by decide, by decide, by decide⟩
  have e : watchTermConfs' = [c1, c2, c3] := h1
  refine ⟨c1, c2, c3, h1, h2, ?_, ?_, ?_⟩ <;> simp only [e] <;> rfl

theorem watchTerm_settings : (engineConf (watchTermConfs'[1]'(by decide +kernel))).policiesPath = "p".toList ∧ (engineConf (watchTermConfs'[1]'(by decide +kernel))).concurrency = 4 ∧
    (engineConf (watchTermConfs'[1]'(by decide +kernel))).monitor = .loc ∧ (engineConf (watchTermConfs'[1]'(by decide +kernel))).language = .falco ∧
    (createFlattenerConfig (Config.toConf (xconf (watchTermConfs'[0]'(by decide +kernel))))).1.filterOn = false ∧
    (createConfigX ⟨fun _ => none, fun _ => none⟩ (xconf (watchTermConfs'[2]'(by decide +kernel)))).map (fun x => (x.format, x.transport, x.eventBuffer)) = some (.json, .terminal, 3) := by
  decide +kernel

/-- With it the hypotheses of `hot_reload_terminal` are met, and there is a run in which the policy file is edited from one program to another and the other policy is adopted. -/
example : ∃ (c1 c2 : Pipeline.Conf) (x : XConfig) (l : Load Factory) (p q : PolicySet (badWorld ([], [])).L simpleStr),
    loadStages ((badWorld ([], [])).withDirs (fun s => if s = "p".toList then some (watchDir lsText) else none) []).env { regs := bootRegs } (setManifest demoManifest [] watchTermConfs) = .done l ∧
    p.decls = [lsDecls] ∧ q.texts = [catText] ∧
    let V := (badWorld ([], [])).withDirs (fun s => if s = "p".toList then some (watchDir lsText) else none) []
    ∃ tr mo y, OutReloadRun (V.setup c1 c2 x p) rfl (V.encode x) Exporter.terminal [] (id : Str → Str) (compileRead (flatOps (badWorld ([], [])).L getMappers) simpleStr) (watchDir lsText) tr mo y ∧
      Waited y.1 ∧ driven tr = Processor.saneStream.map Msg.sf ∧
      ∃ ms, MessagesUnder (V.setup c1 c2 x p) PolicySetOf.decls (V.Line c1 c2 x p) [p, q] (eventsAfter [] Processor.saneStream) ms ∧ Printed ms ((V.setup c1 c2 x p).outOf y.1) := by
  obtain ⟨c1, c2, c3, hm, hu, e1, e2, e3⟩ := watchTerm_usual
  obtain ⟨s1, s2, s3, s6, s4, s5⟩ := watchTerm_settings
  rw [← e2] at s1 s2 s3 s6
  rw [← e1] at s4
  rw [← e3] at s5
  obtain ⟨x, hx, hs⟩ := Option.map_eq_some_iff.1 s5
  simp only [Prod.mk.injEq] at hs
  obtain ⟨f1, f2, f3⟩ := hs
  obtain ⟨l, p, h1, -, h2, h3, ok, henc, -⟩ := hot_reload_terminal (C := Str) (badWorld ([], [])) (fun s => if s = "p".toList then some (watchDir lsText) else none) hm hu simple_rule
    (by rw [s1]; decide) s6 s3 (by rw [s2]; decide) hx (by unfold World.exports; rw [f1, f2]; rfl) f2 (fun a f hf => by rcases hf with hf | hf <;> cases hf) s4 Json.demo_ok Json.demo_version demo_names
    (by rw [if_pos s1]; rfl) (sole_policyFiles a_yaml lsText) (.cons ls_parses .nil) ls_acyclic
  obtain ⟨-, n, c, hc⟩ := policy_texts_compile (flatOps (badWorld ([], [])).L getMappers) simple_rule (.cons cat_parses .nil) cat_acyclic
  obtain ⟨⟨rd, hcs⟩, hr⟩ := Processor.reader_returns _ (Processor.older_parents_not_stuck _ Processor.sane_older) 10 (by change 7 ≤ 10; decide)
  obtain ⟨tr, mo, y, k1, k2, k3, -, ms, k4, k5⟩ := out_edit_takes_effect _ _ ok henc (terminal_delivers _ _) (by change (_ == _) = true; rw [s3]; rfl) rfl (id : Str → Str) a_yaml lsText catText
    (comp := compileRead (flatOps (badWorld ([], [])).L getMappers) simpleStr) (p := ⟨[catText], c, n, hc⟩) (compileRead_some.2 rfl) hr (by
      intro h
      have : (eventsAfter [] Processor.saneStream).length = 0 := by rw [h]; rfl
      revert this
      decide) (by change 7 ≤ 100000; decide)
  exact ⟨c1, c2, x, l, p, ⟨[catText], c, n, hc⟩, h1, h3, rfl, tr, mo, y, k1, k2, k3, ms, k4, k5⟩

end Verif.Whole
