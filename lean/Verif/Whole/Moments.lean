import Verif.Whole.Tree
import Verif.Whole.Bypass
import Verif.Whole.Crash
import Verif.Whole.Sigma
import Verif.Pipeline.Moment
/-
C126: what has come out of the exporters at every moment of a run, in configurations with several policy engines and exporters and in the pipelines without policies or with another runtime.
Sources: /repo/driver/pipeline/pipeline.go:95-201, /repo/core/exporter/exporter.go:104-160, /repo/core/exporter/transports/file.go:60-84, /repo/core/exporter/transports/terminal.go:45-56,
/repo/core/exporter/transports/syslog.go:67-82, /repo/core/exporter/transports/elastic.go:81-139
-/
namespace Verif.Whole
open Verif.Decimal (Str)
open Verif.Exporter (Bytes GetsThrough)
open Verif.FlatRecord
open Verif.Policy
open Verif.Falco
open Verif.Processor (Rec HCall OlderParents demoStream)
open Verif.Flattener (FLib Known fields eventsAfter StoresEvent)
open Verif.Pipeline
open Verif.Pipeline.Process
open Verif.Pipeline.Drain (driven Exec Waited Net Comp sync engine exporter chain emitted Later)
open Verif.Config (XConf XVal XConfig ConfEnv EngineConfig createConfigX createEngineConfig createFlattenerConfig)

variable {P : Type}

/-! ### Specification -/

/-- The exporter that is stage `j` has put out the beginning of what it would put out for the messages `ms`. -/
def BegunOut (W : World P) (x : XConfig) (ms : List Bytes) {N : Net Msg} (s : Drain.St N) (j : Nat) : Prop :=
  match x.transport with
  | .terminal => ∃ printed : Bytes, TransportAt s j printed ∧ printed <+: ms.flatMap (fun l => l ++ [Exporter.newline])
  | .file => ∃ (now : Exporter.OutFile) (full : Bytes) (n : Nat) (fates : List Exporter.Fate), TransportAt s j now ∧ Exporter.KeptOf W.writes x.eventBuffer ms full n fates ∧ now.contents <+: full
  | .syslog => ∃ (now : List Bytes × Nat) (sent : List Bytes) (n : Nat), TransportAt s j now ∧ GetsThrough W.sends x.eventBuffer ms sent n ∧ now.1 <+: sent
  | .es => ∃ now full : Exporter.Bulk, TransportAt s j now (D := Exporter.EDatum) ∧ now.ops <+: full.ops ∧
      (x.format = .ecs → ∃ docs parts, docs.map Prod.snd = ms ∧ (∀ d ∈ docs, ∃ r : Ecs.Rec, d = (Utf8.bytes r.id, Ecs.recText r)) ∧
        Exporter.RequestsFor W.sends x.eventBuffer docs full.ops full.calls parts) ∧
      (x.format ≠ .ecs → ∀ op ∈ now.ops, op = .opened ∨ op = .closed)
  | _ => True

/-! ### Proofs -/

theorem terminal_grows (x : Bytes) (ds : List Exporter.Datum) : x <+: (Exporter.terminal.send x ds).1 := ⟨_, rfl⟩

theorem syslogExport_grows (ok : Nat → Bool) (ds : List Exporter.Datum) : ∀ x : List Bytes × Nat, x.1 <+: (Exporter.syslogExport ok x ds).1.1 := by
  induction ds with
  | nil => intro x; exact List.prefix_rfl
  | cons d ds ih =>
    intro x
    cases d with
    | odd p => unfold Exporter.syslogExport; exact List.prefix_rfl
    | bytes b =>
      unfold Exporter.syslogExport
      split
      · exact (List.prefix_append x.1 [b]).trans (ih (x.1 ++ [b], x.2 + 1))
      · exact List.prefix_rfl
    | obj b =>
      unfold Exporter.syslogExport
      split
      · exact (List.prefix_append x.1 [b]).trans (ih (x.1 ++ [b], x.2 + 1))
      · exact List.prefix_rfl

theorem elasticAdds_grows (ok : Nat → Bool) (ds : List Exporter.EDatum) : ∀ x : Exporter.Bulk, x.ops <+: (Exporter.elasticAdds ok x ds).1.ops := by
  induction ds with
  | nil => intro x; exact List.prefix_rfl
  | cons d ds ih =>
    intro x
    cases d with
    | other => unfold Exporter.elasticAdds; exact List.prefix_rfl
    | ecs id j =>
      cases j with
      | none => unfold Exporter.elasticAdds; exact List.prefix_rfl
      | some body =>
        unfold Exporter.elasticAdds
        split
        · exact (List.prefix_append x.ops [.add id body]).trans (ih ⟨x.ops ++ [.add id body], x.calls + 1⟩)
        · exact List.prefix_rfl

theorem elasticExport_grows (ok : Nat → Bool) (x : Exporter.Bulk) (ds : List Exporter.EDatum) : x.ops <+: (Exporter.elasticExport ok x ds).1.ops := by
  have h : x.ops <+: (Exporter.elasticAdds ok ⟨x.ops ++ [.opened], x.calls + 1⟩ ds).1.ops := (List.prefix_append x.ops [.opened]).trans (elasticAdds_grows ok ds ⟨x.ops ++ [.opened], x.calls + 1⟩)
  unfold Exporter.elasticExport
  split
  · dsimp only
    split
    · split
      · exact h.trans ⟨[_], rfl⟩
      · exact h
    · exact h
  · exact List.prefix_rfl

/-- What the exporter that is stage `j` has come to, from what it comes to later. -/
theorem transport_before {N : Net Msg} {s t : Drain.St N} {j : Nat} (hl : Later (N.comp j) (s.st j) (t.st j)) {X D α : Type} {K : Exporter.Codec Msg D} {T : Exporter.Transport X D} {eb : Int} {x0 : X} {start : Int}
    (hcomp : N.comp j = exporter K T eb x0 start) (g : X → List α) (hg : ∀ x ds, g x <+: g (T.send x ds).1) {out : X} (ho : TransportAt t j out D) :
    ∃ now : X, TransportAt s j now D ∧ g now <+: g out := by
  obtain ⟨a, b, h1, h2, h3⟩ := Drain.exporter_later hcomp g hg hl
  obtain ⟨o, o1, o2⟩ := ho
  have e : b = o := eq_of_heq (h2.symm.trans o1)
  subst e
  subst o2
  exact ⟨a.1.tr, ⟨a, h1, rfl⟩, h3⟩

theorem begun_out (W : World P) (x : XConfig) (ms : List Bytes) {N : Net Msg} {s t : Drain.St N} {j : Nat} (hcomp : N.comp j = W.exporterComp x) (hl : Later (N.comp j) (s.st j) (t.st j))
    (h : PutOut W x ms t j) : BegunOut W x ms s j := by
  unfold PutOut at h
  unfold BegunOut
  cases ht : x.transport with
  | terminal =>
    rw [ht] at h
    obtain ⟨now, n1, n2⟩ := transport_before hl (hcomp.trans (show W.exporterComp x = exporter (Exporter.allOrNone (W.encode x)) Exporter.terminal x.eventBuffer [] W.start by
      unfold World.exporterComp; rw [ht])) id terminal_grows h
    exact ⟨now, n1, n2⟩
  | file =>
    rw [ht] at h
    obtain ⟨f, fates, h1, h2⟩ := h
    obtain ⟨now, n1, n2⟩ := transport_before hl (hcomp.trans (show W.exporterComp x = exporter (Exporter.allOrNone (W.encode x)) (Exporter.fileTransport W.writes) x.eventBuffer Exporter.newFile W.start by
      unfold World.exporterComp; rw [ht])) Exporter.OutFile.contents (fun f ds => fileExport_grows _ ds f) h1
    exact ⟨now, _, _, fates, n1, h2, n2⟩
  | syslog =>
    rw [ht] at h
    obtain ⟨sent, n, h1, h2⟩ := h
    obtain ⟨now, n1, n2⟩ := transport_before hl (hcomp.trans (show W.exporterComp x = exporter (Exporter.allOrNone (W.encode x)) (Exporter.syslog W.sends) x.eventBuffer ([], 0) W.start by
      unfold World.exporterComp; rw [ht])) Prod.fst (fun f ds => syslogExport_grows _ ds f) h1
    exact ⟨now, sent, n, n1, h2, n2⟩
  | es =>
    rw [ht] at h
    obtain ⟨b, h1, h2, h3⟩ := h
    obtain ⟨now, n1, n2⟩ := transport_before hl (hcomp.trans (show W.exporterComp x = exporter (Exporter.allOrNone (W.encodeE x)) (Exporter.elastic W.sends) x.eventBuffer ⟨[], 0⟩ W.start by
      unfold World.exporterComp; rw [ht])) Exporter.Bulk.ops (fun f ds => elasticExport_grows _ f ds) h1
    exact ⟨now, b, n1, n2, h2, fun hf op hop => h3 hf op (n2.subset hop)⟩
  | null => trivial
  | kafka => trivial

/-! ## C126 -/

/-- **C126** Several policy engines and exporters, at every moment: if a configuration in which the reader feeds policy engines and these feed exporters is loaded, then at every moment of every run of
any driver the records sent so far are the first of those it has to send, and for every policy engine with policies the events of the records sent so far fall into stretches, one for each of its
policy sets, from the first one on, such that every exporter it feeds has put out the beginning of what it would put out for messages that are complete for these stretches. -/
theorem tree_at_every_moment (W : World P) (hW : W.NoPlugins) {m : Manifest} {env : List Str} {cs0 : List Pipeline.Conf} {cs : List Pipeline.Conf} (hm : setManifest m env cs0 = cs) (ht : Layout cs)
    {l : Load Factory} (h : loadStages W.env { regs := bootRegs } cs = .done l)
    (prog : List (DAct Rec)) (hold : OlderParents (Pipeline.sent prog)) (hfuel : (Pipeline.sent prog).length ≤ W.fuel)
    {tr : List (Drain.Obs Msg)} {s : PSt Rec (netOf W.comp cs l chanSize)} (hx : PExec Msg.sf _ prog tr s) :
    ∃ rs : List Rec, rs <+: Pipeline.sent prog ∧ driven tr = rs.map Msg.sf ∧
      ∀ c1, cs[0]? = some c1 → ∀ (i : Nat) c2, cs[i]? = some c2 → strAt c2 "processor".toList = some "policyengine".toList → (engineConf c2).policiesPath ≠ [] →
      ∃ p, W.policyAt (engineConf c2) = some p ∧ ∀ dss, W.Ok m c1 c2 dss → KindNames W.L →
        ∃ div : List (P × List Event), (∃ rest, div.map Prod.fst = p :: rest) ∧ div.flatMap Prod.snd = eventsAfter [] rs ∧
          ∀ (j : Nat) c3, cs[j]? = some c3 → strAt c3 "processor".toList = some "exporter".toList → Feeds c2 c3 →
          ∃ x, createConfigX W.secrets (xconf c3) = some x ∧ ∃ ms, MessagesIn (W.setup c1 c2 x p) dss (W.Line c1 c2 x p) div ms ∧ BegunOut W x ms s.net j := by
  obtain ⟨hT, hC, hat⟩ := layout_ok W hW ht h
  obtain ⟨done, hI⟩ := pinv hT hC hx
  have hp : Pipeline.sent prog = Pipeline.sent done ++ Pipeline.sent s.todo := by rw [← sent_append, ← hI.split]
  obtain ⟨r, hret⟩ := Processor.reader_returns _ (Processor.older_parents_not_stuck _ hold) W.fuel hfuel
  rw [hp] at hret
  obtain ⟨⟨rd, hcs⟩, hr⟩ := run_prefix false W.fuel _ _ .init r hret
  obtain ⟨tr', s', h1, h2, h3, h4⟩ := Drain.completes_all hT hC hI.net
  refine ⟨Pipeline.sent done, ⟨_, hp.symm⟩, hI.sentOk, ?_⟩
  intro c1 hc1 i c2 hc2 hp2 hpath
  obtain ⟨p, hpol, hall⟩ := tree_drained W hW hm ht h hr h1 h2 (h3.trans hI.sentOk) c1 hc1 i c2 hc2 hp2 hpath
  refine ⟨p, hpol, fun dss ok hnames => ?_⟩
  obtain ⟨div, d1, d2, d3⟩ := hall dss ok hnames
  refine ⟨div, d1, d2, ?_⟩
  intro j c3 hc3 hp3 hf
  obtain ⟨x, hx, ms, m1, m2⟩ := d3 j c3 hc3 hp3 hf
  refine ⟨x, hx, ms, m1, ?_⟩
  obtain ⟨st, hs, hlt, hcomp, -⟩ := hat j c3 hc3
  have hcompX : (netOf W.comp cs l chanSize).comp j = W.exporterComp x := by
    rcases layout_comp W hW ht h hc3 hs with ⟨hp, -⟩ | ⟨hp, -⟩ | ⟨hp, -⟩ | ⟨-, -, x', hx', e⟩
    · exact absurd (hp3.symm.trans hp) (by decide)
    · exact absurd (hp3.symm.trans hp) (by decide)
    · exact absurd (hp3.symm.trans hp) (by decide)
    · rw [hx] at hx'
      cases hx'
      exact hcomp.trans e
  exact begun_out W x ms hcompX (h4 j) m2

/-! ### One policy engine, or none -/

/-- What the driver has sent, and the reader's run on it. -/
theorem sent_before {N : Net Msg} (hT : Drain.Tree N) (hC : ∀ i, i < N.n → Drain.Contract (N.comp i)) {prog : List (DAct Rec)} {fuel : Nat} (hret : ∃ r, Processor.run false fuel .init (Pipeline.sent prog) = some r)
    {tr : List (Drain.Obs Msg)} {s : PSt Rec N} (hx : PExec Msg.sf N prog tr s) :
    ∃ rs rd hcs, rs <+: Pipeline.sent prog ∧ Exec N tr s.net ∧ driven tr = rs.map Msg.sf ∧ Processor.run false fuel .init rs = some (rd, hcs) := by
  obtain ⟨done, hI⟩ := pinv hT hC hx
  have hp : Pipeline.sent prog = Pipeline.sent done ++ Pipeline.sent s.todo := by rw [← sent_append, ← hI.split]
  obtain ⟨r, hret⟩ := hret
  rw [hp] at hret
  obtain ⟨⟨rd, hcs⟩, hr⟩ := run_prefix false fuel _ _ .init r hret
  exact ⟨Pipeline.sent done, rd, hcs, ⟨_, hp.symm⟩, hI.net, hI.sentOk, hr⟩

/-- The file that the third stage writes only grows, and every moment can be continued to one where `Wait` returns. -/
theorem file_completes {K : Exporter.Codec Msg Exporter.Datum} (Cs : List (Comp Msg)) (cap : Nat) {eb start : Int} {os : Nat → Option Nat} (N : Net Msg)
    (hN : N = chain (Cs ++ [exporter K (Exporter.fileTransport os) eb Exporter.newFile start]) cap) (hT : Drain.Tree N) (hC : ∀ i, i < N.n → Drain.Contract (N.comp i))
    {tr : List (Drain.Obs Msg)} {s : Drain.St N} (h : Exec N tr s) :
    ∃ tr' s', Exec N tr' s' ∧ Waited s' ∧ driven tr' = driven tr ∧
      ∀ f : Exporter.OutFile, TransportAt s' Cs.length f → ∃ f0 : Exporter.OutFile, TransportAt s Cs.length f0 ∧ f0.contents <+: f.contents := by
  obtain ⟨tr', s', h1, h2, h3, h4⟩ := Drain.completes_all hT hC h
  have hcomp : N.comp Cs.length = exporter K (Exporter.fileTransport os) eb Exporter.newFile start := by
    subst hN
    rw [Drain.chain_comp _ _ _ (by simp), List.getElem_append_right (by simp)]
    simp
  exact ⟨tr', s', h1, h2, h3, fun f hf => transport_before (h4 _) hcomp Exporter.OutFile.contents (fun f ds => fileExport_grows _ ds f) hf⟩

/-- What a stage has come to is one thing. -/
theorem transport_unique {N : Net Msg} {s : Drain.St N} {j : Nat} {X D : Type} {a b : X} (ha : TransportAt s j a D) (hb : TransportAt s j b D) : a = b := by
  obtain ⟨o, o1, rfl⟩ := ha
  obtain ⟨p, p1, rfl⟩ := hb
  have : o = p := eq_of_heq (o1.symm.trans p1)
  rw [this]

/-- The log of a pipeline is at every moment the beginning of the log of a complete run on the same records. -/
theorem log_completes {K : Exporter.Codec Msg Exporter.Datum} (Cs : List (Comp Msg)) (cap : Nat) {eb start : Int} {os : Nat → Option Nat} (N : Net Msg)
    (hN : N = chain (Cs ++ [exporter K (Exporter.fileTransport os) eb Exporter.newFile start]) cap) (hT : Drain.Tree N) (hC : ∀ i, i < N.n → Drain.Contract (N.comp i))
    (log : Drain.St N → Bytes) (hlog : ∀ s, ∃ f : Exporter.OutFile, TransportAt s Cs.length f ∧ f.contents = log s) {Q : Bytes → Prop}
    {tr : List (Drain.Obs Msg)} {s : Drain.St N} (h : Exec N tr s) (hfull : ∀ tr' s', Exec N tr' s' → Waited s' → driven tr' = driven tr → Q (log s')) (b : Bytes) (hb : b <+: log s) :
    ∃ full, Q full ∧ b <+: full ∧ Exporter.linesOf [] b <+: Exporter.linesOf [] full := by
  obtain ⟨tr', s', h1, h2, h3, h4⟩ := file_completes Cs cap N hN hT hC h
  obtain ⟨f, f1, f2⟩ := hlog s'
  obtain ⟨f0, g1, g2⟩ := h4 f f1
  obtain ⟨f0', e1, e2⟩ := hlog s
  have e : f0' = f0 := transport_unique e1 g1
  subst e
  rw [e2, f2] at g2
  exact ⟨log s', hfull tr' s' h1 h2 h3, hb.trans g2, linesOf_prefix (hb.trans g2) []⟩

/-- **C126** With the duplicate filter, whatever the driver does: at every moment the log (`b`: what has reached the file) is the beginning of one complete for the events, of the records sent so far, that survive
the filter. -/
theorem dedup_at_every_moment (S : Setup P) (dss : P → List (List Decl)) (ok : S.JsonOk dss) (hdedup : S.dedup = true) (hclock : Instants S.clock) (prog : List (DAct Rec))
    (hret : ∃ r, Processor.run false S.fuel .init (Pipeline.sent prog) = some r) {tr : List (Drain.Obs Msg)} {s : PSt Rec S.net} (hx : PExec Msg.sf S.net prog tr s) (b : Bytes) (hb : b <+: S.log s.net) :
    ∃ rs full, rs <+: Pipeline.sent prog ∧ driven tr = rs.map Msg.sf ∧ (∃ kept, Survivors S.F S.ttl (fun i => S.clock i 0) (eventsAfter [] rs) kept ∧ CompleteFor S dss (LineFor S) kept full) ∧
      b <+: full ∧ Exporter.linesOf [] b <+: Exporter.linesOf [] full := by
  obtain ⟨hT, hC⟩ := net_ok S ok.workers ok.cap
  obtain ⟨rs, rd, hcs, r1, r2, r3, r4⟩ := sent_before hT hC hret hx
  obtain ⟨full, f1, f2⟩ := log_completes [sync (readerStep S.F S.fuel S.clock) S.reader0 1, engine S.cfg S.policies S.start S.pending] S.cap S.net rfl hT hC S.log (fun s => ⟨_, ⟨_, HEq.rfl, rfl⟩, rfl⟩)
    (Q := fun log => ∃ kept, Survivors S.F S.ttl (fun i => S.clock i 0) (eventsAfter [] rs) kept ∧ CompleteFor S dss (LineFor S) kept log) r2
    (fun tr' s' h1 h2 h3 => whole_program_dedup S dss ok hdedup hclock rs rd hcs r4 tr' s' h1 h2 (h3.trans r3)) b hb
  exact ⟨rs, full, r1, r3, f1, f2⟩

/-- **C126** With ECS documents, the same. -/
theorem ecs_at_every_moment (S : Setup P) (E : EcsSide S) (dss : P → List (List Decl)) (ok : S.Core dss) (hn : KindNames S.L) (hdedup : S.dedup = false) (prog : List (DAct Rec))
    (hret : ∃ r, Processor.run false S.fuel .init (Pipeline.sent prog) = some r) {tr : List (Drain.Obs Msg)} {s : PSt Rec E.fileNet} (hx : PExec Msg.sf E.fileNet prog tr s) (b : Bytes) (hb : b <+: E.log s.net) :
    ∃ rs full, rs <+: Pipeline.sent prog ∧ driven tr = rs.map Msg.sf ∧ CompleteFor S dss (EcsLine S E) (eventsAfter [] rs) full ∧ b <+: full ∧ Exporter.linesOf [] b <+: Exporter.linesOf [] full := by
  obtain ⟨hT, hC⟩ := netWith_ok S (Exporter.allOrNone E.toFile) (Exporter.fileTransport (fun _ => none)) Exporter.newFile ok.workers ok.cap
  obtain ⟨rs, rd, hcs, r1, r2, r3, r4⟩ := sent_before hT hC hret hx
  obtain ⟨full, f1, f2⟩ := log_completes [sync (readerStep S.F S.fuel S.clock) S.reader0 1, engine S.cfg S.policies S.start S.pending] S.cap E.fileNet rfl hT hC E.log (fun s => ⟨_, ⟨_, HEq.rfl, rfl⟩, rfl⟩) r2
    (fun tr' s' h1 h2 h3 => whole_program_ecs S E dss ok hn hdedup rs rd hcs r4 tr' s' h1 h2 (h3.trans r3)) b hb
  exact ⟨rs, full, r1, r3, f1, f2⟩

/-- **C126** With Sigma rules, the same. -/
theorem sigma_at_every_moment (S : Setup P) (Q : P → SigmaPolicy) (cfg : P → Sigma.ConfigFile) (ok : S.SigmaOk Q cfg) (hlib : Json.Spec.LibOk S.L) (hver : Json.Spec.VersionOk S.version)
    (hdedup : S.dedup = false) (prog : List (DAct Rec)) (hret : ∃ r, Processor.run false S.fuel .init (Pipeline.sent prog) = some r)
    {tr : List (Drain.Obs Msg)} {s : PSt Rec S.net} (hx : PExec Msg.sf S.net prog tr s) (b : Bytes) (hb : b <+: S.log s.net) :
    ∃ rs full, rs <+: Pipeline.sent prog ∧ driven tr = rs.map Msg.sf ∧ SigmaComplete S Q (SigmaLine S) (eventsAfter [] rs) full ∧ b <+: full ∧ Exporter.linesOf [] b <+: Exporter.linesOf [] full := by
  obtain ⟨hT, hC⟩ := net_ok S ok.workers ok.cap
  obtain ⟨rs, rd, hcs, r1, r2, r3, r4⟩ := sent_before hT hC hret hx
  obtain ⟨full, f1, f2⟩ := log_completes [sync (readerStep S.F S.fuel S.clock) S.reader0 1, engine S.cfg S.policies S.start S.pending] S.cap S.net rfl hT hC S.log (fun s => ⟨_, ⟨_, HEq.rfl, rfl⟩, rfl⟩) r2
    (fun tr' s' h1 h2 h3 => sigma_program S Q cfg ok hlib hver hdedup rs rd hcs r4 tr' s' h1 h2 (h3.trans r3)) b hb
  exact ⟨rs, full, r1, r3, f1, f2⟩

/-- **C126** Without policies, in JSON: at every moment the lines are the first of one line for each event of the records sent so far, in their order. -/
theorem bypass_at_every_moment (S : Setup P) (hlib : Json.Spec.LibOk S.L) (hver : Json.Spec.VersionOk S.version) (hcap : 0 < S.cap) (hdedup : S.dedup = false) (prog : List (DAct Rec))
    (hret : ∃ r, Processor.run false S.fuel .init (Pipeline.sent prog) = some r)
    {tr : List (Drain.Obs Msg)} {s : PSt Rec (S.bypassNet S.enc)} (hx : PExec Msg.sf (S.bypassNet S.enc) prog tr s) (b : Bytes) (hb : b <+: S.bypassLog S.enc s.net) :
    ∃ rs full, rs <+: Pipeline.sent prog ∧ driven tr = rs.map Msg.sf ∧ AllLogged (LineFor S []) (eventsAfter [] rs) full ∧ b <+: full ∧ Exporter.linesOf [] b <+: Exporter.linesOf [] full := by
  obtain ⟨hT, hC⟩ := bypassWith_ok S (Exporter.allOrNone S.enc) (Exporter.fileTransport (fun _ => none)) Exporter.newFile hcap
  obtain ⟨rs, rd, hcs, r1, r2, r3, r4⟩ := sent_before hT hC hret hx
  obtain ⟨full, f1, f2⟩ := log_completes [sync (readerStep S.F S.fuel S.clock) S.reader0 1, sync bypassStep () 1] S.cap (S.bypassNet S.enc) rfl hT hC (S.bypassLog S.enc) (fun s => ⟨_, ⟨_, HEq.rfl, rfl⟩, rfl⟩) r2
    (fun tr' s' h1 h2 h3 => bypass_program S hlib hver hcap hdedup rs rd hcs r4 tr' s' h1 h2 (h3.trans r3)) b hb
  exact ⟨rs, full, r1, r3, f1, f2⟩

/-- **C126** Without policies, with ECS documents: the same. -/
theorem bypass_ecs_at_every_moment (S : Setup P) (E : EcsSide S) (hn : KindNames S.L) (hcap : 0 < S.cap) (hdedup : S.dedup = false) (prog : List (DAct Rec))
    (hret : ∃ r, Processor.run false S.fuel .init (Pipeline.sent prog) = some r)
    {tr : List (Drain.Obs Msg)} {s : PSt Rec (S.bypassNet E.toFile)} (hx : PExec Msg.sf (S.bypassNet E.toFile) prog tr s) (b : Bytes) (hb : b <+: S.bypassLog E.toFile s.net) :
    ∃ rs full, rs <+: Pipeline.sent prog ∧ driven tr = rs.map Msg.sf ∧ AllLogged (EcsLine S E []) (eventsAfter [] rs) full ∧ b <+: full ∧ Exporter.linesOf [] b <+: Exporter.linesOf [] full := by
  obtain ⟨hT, hC⟩ := bypassWith_ok S (Exporter.allOrNone E.toFile) (Exporter.fileTransport (fun _ => none)) Exporter.newFile hcap
  obtain ⟨rs, rd, hcs, r1, r2, r3, r4⟩ := sent_before hT hC hret hx
  obtain ⟨full, f1, f2⟩ := log_completes [sync (readerStep S.F S.fuel S.clock) S.reader0 1, sync bypassStep () 1] S.cap (S.bypassNet E.toFile) rfl hT hC (S.bypassLog E.toFile) (fun s => ⟨_, ⟨_, HEq.rfl, rfl⟩, rfl⟩) r2
    (fun tr' s' h1 h2 h3 => bypass_program_ecs S E hn hcap hdedup rs rd hcs r4 tr' s' h1 h2 (h3.trans r3)) b hb
  exact ⟨rs, full, r1, r3, f1, f2⟩

/-! ### Concrete cases: a file driver that stops with an error after the first file -/

/-- The driver of the cases below. -/
def brokenOff (rs : List Rec) : List (DAct Rec) := fileDriver (fun _ => true) (some [.data (rs.map .record), .noOpen])

/-- Two policy engines, three exporters: at every moment, what the terminal exporter of the engine with four workers has printed is the beginning of complete messages, one a line. -/
example : ∃ code l, loadStages (halfWorld code).env { regs := bootRegs } treeConfs' = .done l ∧ ∀ tr, ∀ s : PSt Rec (netOf (halfWorld code).comp treeConfs' l chanSize),
    PExec Msg.sf _ (brokenOff Processor.saneStream) tr s →
    ∃ rs, rs <+: Processor.saneStream ∧ ∃ (div : List (Unit × List Event)) (x : XConfig) (ms : List Bytes), div.flatMap Prod.snd = eventsAfter [] rs ∧
      MessagesIn ((halfWorld code).setup (treeConfs'.getD 0 []) (treeConfs'.getD 2 []) x ()) (fun _ => [lsDecls]) ((halfWorld code).Line (treeConfs'.getD 0 []) (treeConfs'.getD 2 []) x ()) div ms ∧
      ∃ printed, TransportAt s.net 4 printed ∧ printed <+: ms.flatMap (fun l => l ++ [Exporter.newline]) := by
  obtain ⟨k, rules, filters, hcomp, _⟩ := policy_texts_to_alerts demoLib simple_rule [lsText] [lsDecls] (.cons ls_parses .nil) ls_acyclic
  have hW : (halfWorld (rules, filters)).NoPlugins := ⟨fun _ => rfl, fun _ _ => rfl⟩
  obtain ⟨l, hl⟩ := tree_loads (rules, filters)
  refine ⟨(rules, filters), l, hl, fun tr s hx => ?_⟩
  obtain ⟨rs, r1, -, hall⟩ := tree_at_every_moment (halfWorld (rules, filters)) hW (m := demoManifest) (env := []) (cs0 := treeConfs) rfl tree_layout hl (brokenOff Processor.saneStream)
    (by change OlderParents Processor.saneStream; exact Processor.sane_older) (by change 7 ≤ 10; decide) hx
  obtain ⟨s1, s2, s3⟩ := tree_settings
  have hlen : treeConfs'.length = 6 := by decide +kernel
  have at_ : ∀ (i : Nat), i < 6 → treeConfs'[i]? = some (treeConfs'.getD i []) := by
    intro i hi
    rw [List.getD_eq_getElem?_getD, List.getElem?_eq_getElem (by rw [hlen]; exact hi)]
    rfl
  have c2 : (engineConf (treeConfs'.getD 2 [])).policiesPath = "p".toList ∧ (engineConf (treeConfs'.getD 2 [])).concurrency = 4 := by decide +kernel
  have pr : ∀ (i : Nat), i < 6 → strAt (treeConfs'.getD i []) "processor".toList = (treeConfs'.map (fun c => strAt c "processor".toList)).getD i none := by decide +kernel
  obtain ⟨p, hp, hdss⟩ := hall _ (at_ 0 (by decide)) 2 _ (at_ 2 (by decide)) ((pr 2 (by decide)).trans (by rw [tree_procs]; rfl)) (by rw [c2.1]; decide)
  have hok : (halfWorld (rules, filters)).Ok demoManifest (treeConfs'.getD 0 []) (treeConfs'.getD 2 []) (fun _ => [lsDecls]) := by
    refine ⟨simple_rule, fun _ => .cons ls_parses .nil, fun _ => ls_acyclic, fun _ => ⟨k, hcomp⟩, ?_, by rw [c2.2]; decide, s2, Json.demo_ok, ?_⟩
    · intro a f hf
      rcases hf with hf | hf <;> cases hf
    · exact Json.demo_version
  obtain ⟨div, -, d2, d3⟩ := hdss _ hok demo_names
  have fb : Feeds (treeConfs'.getD 2 []) (treeConfs'.getD 4 []) := ⟨some "a".toList, by decide +kernel, by decide +kernel⟩
  obtain ⟨x, hxc, ms, b1, b2⟩ := d3 4 _ (at_ 4 (by decide)) ((pr 4 (by decide)).trans (by rw [tree_procs]; rfl)) fb
  refine ⟨rs, r1, div, x, ms, d2, b1, ?_⟩
  have ht : x.transport = .terminal := by
    have e : (createConfigX ⟨fun _ => none, fun _ => none⟩ (xconf (treeConfs'.getD 4 []))).map (fun x => x.transport) = some .terminal := by decide +kernel
    have hxc : createConfigX ⟨fun _ => none, fun _ => none⟩ (xconf (treeConfs'.getD 4 [])) = some x := hxc
    rw [hxc] at e
    exact Option.some.inj e
  unfold BegunOut at b2
  rw [ht] at b2
  exact b2

/-- The reader returns on any part of the stream, so the hypothesis about it is met. -/
theorem broken_off_read : ∃ r, Processor.run false 10 .init (Pipeline.sent (brokenOff demoStream)) = some r :=
  Option.isSome_iff_exists.mp (by decide +kernel)

/-- With ECS documents and without policies: at every moment. -/
example (n : Nat) (hn : 0 < n) : ∃ code,
    (∀ tr, ∀ s : PSt Rec (demoEcs n code).fileNet, PExec Msg.sf _ (brokenOff demoStream) tr s →
      ∃ rs full, rs <+: demoStream ∧ CompleteFor (demoSetup n code) (fun _ => [lsDecls]) (EcsLine (demoSetup n code) (demoEcs n code)) (eventsAfter [] rs) full ∧ (demoEcs n code).log s.net <+: full) ∧
    (∀ tr, ∀ s : PSt Rec ((demoSetup n code).bypassNet (demoSetup n code).enc), PExec Msg.sf _ (brokenOff demoStream) tr s →
      ∃ rs full, rs <+: demoStream ∧ AllLogged (LineFor (demoSetup n code) []) (eventsAfter [] rs) full ∧ (demoSetup n code).bypassLog (demoSetup n code).enc s.net <+: full) ∧
    (∀ tr, ∀ s : PSt Rec ((demoSetup n code).bypassNet (demoEcs n code).toFile), PExec Msg.sf _ (brokenOff demoStream) tr s →
      ∃ rs full, rs <+: demoStream ∧ AllLogged (EcsLine (demoSetup n code) (demoEcs n code) []) (eventsAfter [] rs) full ∧ (demoSetup n code).bypassLog (demoEcs n code).toFile s.net <+: full) := by
  obtain ⟨code, ok⟩ := demo_ok n hn
  refine ⟨code, fun tr s hx => ?_, fun tr s hx => ?_, fun tr s hx => ?_⟩
  · obtain ⟨rs, full, h1, -, h2, h3, -⟩ := ecs_at_every_moment (demoSetup n code) (demoEcs n code) _ ok.toCore demo_names rfl _ broken_off_read hx _ List.prefix_rfl
    exact ⟨rs, full, h1, h2, h3⟩
  · obtain ⟨rs, full, h1, -, h2, h3, -⟩ := bypass_at_every_moment (demoSetup n code) Json.demo_ok Json.demo_version (show 0 < 9 by decide) rfl _ broken_off_read hx _ List.prefix_rfl
    exact ⟨rs, full, h1, h2, h3⟩
  · obtain ⟨rs, full, h1, -, h2, h3, -⟩ := bypass_ecs_at_every_moment (demoSetup n code) (demoEcs n code) demo_names (show 0 < 9 by decide) rfl _ broken_off_read hx _ List.prefix_rfl
    exact ⟨rs, full, h1, h2, h3⟩

/-- With the duplicate filter, on a stream with repetitions, and with Sigma rules. -/
example (n : Nat) (hn : 0 < n) :
    (∃ code, ∀ tr, ∀ s : PSt Rec (dedupSetup n code).net, PExec Msg.sf _ (brokenOff dedupStream) tr s →
      ∃ rs full, rs <+: dedupStream ∧ (∃ kept, Survivors Flattener.demoFLib (dedupSetup n code).ttl (fun i => (dedupSetup n code).clock i 0) (eventsAfter [] rs) kept ∧
        CompleteFor (dedupSetup n code) (fun _ => [lsDecls]) (LineFor (dedupSetup n code)) kept full) ∧ (dedupSetup n code).log s.net <+: full) ∧
    (∃ rules, ∀ tr, ∀ s : PSt Rec (sigmaSetup n rules).net, PExec Msg.sf _ (brokenOff demoStream) tr s →
      ∃ rs full, rs <+: demoStream ∧ SigmaComplete (sigmaSetup n rules) (fun _ => lsPolicy) (SigmaLine (sigmaSetup n rules)) (eventsAfter [] rs) full ∧ (sigmaSetup n rules).log s.net <+: full) := by
  constructor
  · obtain ⟨code, ok⟩ := demo_ok n hn
    refine ⟨code, fun tr s hx => ?_⟩
    have h : ∃ r, Processor.run false 10 .init (Pipeline.sent (brokenOff dedupStream)) = some r := Option.isSome_iff_exists.mp (by decide +kernel)
    obtain ⟨rs, full, h1, -, h2, h3, -⟩ := dedup_at_every_moment (dedupSetup n code) (fun _ => [lsDecls])
      ⟨⟨ok.str, ok.parse, ok.acyclic, ok.compiled, ok.benign, ok.workers, (show 0 < 20 by decide)⟩, ok.lib, ok.version⟩ rfl
      ⟨fun _ _ => rfl, fun i => by show 6 * (i : Int) ≤ 6 * ((i + 1 : Nat) : Int); omega⟩ _ h hx _ List.prefix_rfl
    exact ⟨rs, full, h1, h2, h3⟩
  · obtain ⟨rules, ok⟩ := sigma_demo_ok n hn
    refine ⟨rules, fun tr s hx => ?_⟩
    obtain ⟨rs, full, h1, -, h2, h3, -⟩ := sigma_at_every_moment (sigmaSetup n rules) _ _ ok Json.demo_ok Json.demo_version rfl _ broken_off_read hx _ List.prefix_rfl
    exact ⟨rs, full, h1, h2, h3⟩

end Verif.Whole

namespace Verif.OtelRun
open Verif.Exporter (Bytes)
open Verif.Otel
open Verif.Pipeline
open Verif.Pipeline.Process
open Verif.Pipeline.Drain (Net sync exporter chain driven Exec Waited)

variable {P : Type}

/-- **C126** OpenTelemetry without policies, whatever the driver does: at every moment the messages handed to the producer are the first of the encodings of the records sent so far that can be encoded. -/
theorem bypass_messages_at_every_moment (S : Setup P) (hcap : 0 < S.cap) (prog : List (DAct ResourceLogs)) {tr : List (Drain.Obs ResourceLogs)}
    {s : PSt ResourceLogs (S.bypassWith (Exporter.kafka (fun _ => true)) ([], 0))} (hx : PExec id _ prog tr s) :
    ∃ rls, rls <+: Pipeline.sent prog ∧ driven tr = rls ∧ S.bypassMessages s.net <+: rls.filterMap S.encode := by
  obtain ⟨hT, hC⟩ := bypassWith_ok S (Exporter.kafka (fun _ => true)) ([], 0) hcap
  obtain ⟨done, hI⟩ := pinv hT hC hx
  have hp : Pipeline.sent prog = Pipeline.sent done ++ Pipeline.sent s.todo := by rw [← sent_append, ← hI.split]
  have hd : driven tr = Pipeline.sent done := by rw [hI.sentOk, List.map_id]
  have hgrow := Drain.growing_at (N := S.bypassWith (Exporter.kafka (fun _ => true)) ([], 0)) 1 (fun t => (show Exporter.State (List Bytes × Nat) ResourceLogs Exporter.Datum × Bool from t).1.tr.1)
    (fun s m t a hst => Drain.exporter_growing (Exporter.perRecord S.enc) (Exporter.kafka (fun _ => true)) S.buffer ([], 0) S.start (fun x => x.1)
      (fun x ds => kafkaExport_grows _ ds x) s m t a hst)
  obtain ⟨tr', s', h1, h2, h3, h4⟩ := Drain.completes_growing hT hC S.bypassMessages hgrow hI.net
  refine ⟨Pipeline.sent done, ⟨_, hp.symm⟩, hd, ?_⟩
  have := bypass_program_otel S hcap tr' s' h1 h2
  rw [h3, hd] at this
  rw [← this]
  exact h4

/-- A driver that sends two records and is killed. -/
example (n : Nat) (code : List (Policy.Rule ResourceLogs) × List (Policy.Filter ResourceLogs)) (tr : List (Drain.Obs ResourceLogs))
    (s : PSt ResourceLogs ((demoRun n code).bypassWith (Exporter.kafka (fun _ => true)) ([], 0))) (hx : PExec id _ [.send demoLogs, .send demoLogs] tr s) :
    (demoRun n code).bypassMessages s.net <+: [List.replicate 3 97, List.replicate 3 97] := by
  obtain ⟨rls, h1, -, h2⟩ := bypass_messages_at_every_moment (demoRun n code) (show 0 < 9 by decide) _ hx
  obtain ⟨t, ht⟩ := h1
  refine h2.trans ⟨t.filterMap (demoRun n code).encode, ?_⟩
  rw [← List.filterMap_append, ht]
  rfl

end Verif.OtelRun
