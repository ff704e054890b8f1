import Verif.Whole.Restart
/-
C132: documents in an Elastic index when the program is started again and again on the same files with other policies, other numbers of workers and other settings.
Sources: /repo/core/exporter/encoders/ecs.go:94-193, /repo/core/exporter/transports/elastic.go:81-139, /repo/core/exporter/exporter.go:104-160, /repo/driver/pipeline/pipeline.go:135-294,
/repo/core/policyengine/policyengine.go:101-234
-/
namespace Verif.Whole
open Verif.Decimal (Str)
open Verif.Exporter (Bytes)
open Verif.FlatRecord
open Verif.Policy
open Verif.Falco
open Verif.Processor (Rec HCall demoStream)
open Verif.Flattener (FLib Known Stores fields eventsAfter StoresEvent)
open Verif.Pipeline
open Verif.Pipeline.Process
open Verif.Pipeline.Drain (driven Exec Waited)

variable {P : Type}

/-! ### Specification -/

/-- One start of the program, writing ECS documents to Elastic: its settings, and what the policy sets say that may be in force in it (the one loaded, and those loaded later if the policies are monitored). -/
structure Launch where
  Pol : Type
  S : Setup Pol
  E : EcsSide S
  decls : Pol → List (List Decl)

/-- A start that reads the records `rs` as every other: the flattener `F` and the library `lib` are the same (they are parts of the program); the policies, actions, mode, numbers of workers, channel capacities, buffer
sizes and the settings of the encoder are its own. The duplicate filter is off, and the records are well-formed enough for the reader not to stop. -/
structure Launch.Reads (a : Launch) (F : FLib) (lib : Ecs.ELib) (rs : List Rec) : Prop where
  core : a.S.Core a.decls
  names : KindNames a.S.L
  dedup : a.S.dedup = false
  flat : a.S.F = F
  enc : a.E.lib = lib
  returns : ∃ r, Processor.run false a.S.fuel .init rs = some r

/-- A document of an event that policies in force in the start `a` want logged, with the rules they attach. -/
def Launch.Makes (a : Launch) (x : Event) (d : Bytes × Bytes) : Prop := ∃ p, Logged a.S (a.decls p) x ∧ DocFor a.S a.E (a.decls p) x d.1 d.2

/-- What an index may have come to by starts of the program, each with settings of its own, that were stopped somewhere (or not): as `AfterStops`. The starts are listed, the last one first. -/
inductive AfterStarts (F : FLib) (lib : Ecs.ELib) (rs : List Rec) (index : List (Bytes × Bytes)) : List Launch → List (Bytes × Bytes) → Prop
  | none : AfterStarts F lib rs index [] index
  | more {before : List Launch} {idx : List (Bytes × Bytes)} (a : Launch) (calls : Nat → Bool) (prog : List (DAct Rec)) (tr : List (Drain.Obs Msg)) (s : PSt Rec (a.E.elasticWith calls)) (stored : List (Bytes × Bytes)) :
      AfterStarts F lib rs index before idx → a.Reads F lib rs → Pipeline.sent prog <+: rs → PExec Msg.sf _ prog tr s → (∀ d ∈ stored, Exporter.BulkOp.add d.1 d.2 ∈ (a.E.bulkOf s.net).ops) →
      AfterStarts F lib rs index (a :: before) (stored.foldl Exporter.create idx)

/-! ### Proofs -/

/-- In an index whose documents have different identifiers, two documents with the same identifier are the same one. -/
theorem same_of_id {l : List (Bytes × Bytes)} (h : (l.map (·.1)).Nodup) {d e : Bytes × Bytes} (hd : d ∈ l) (he : e ∈ l) (hid : e.1 = d.1) : e = d := by
  induction l with
  | nil => cases hd
  | cons y ys ih =>
    rw [List.map_cons, List.nodup_cons] at h
    rcases List.mem_cons.1 hd with rfl | hd
    · rcases List.mem_cons.1 he with he | he
      · exact he
      · exact absurd (List.mem_map.2 ⟨_, he, hid⟩) h.1
    · rcases List.mem_cons.1 he with he | he
      · exact absurd (List.mem_map.2 ⟨_, hd, by rw [← he]; exact hid.symm⟩) h.1
      · exact ih h.2 hd he

/-- Every document sent is that of an event that policies in force want logged. -/
theorem sent_made {S : Setup P} {E : EcsSide S} {dss : P → List (List Decl)} {evs : List Event} {docs : List (Bytes × Bytes)} (h : SentFor S E dss evs docs) :
    ∀ d ∈ docs, ∃ x ∈ evs, ∃ p, Logged S (dss p) x ∧ DocFor S E (dss p) x d.1 d.2 := by
  classical
  obtain ⟨rest, ss, -, e1, e2, e3⟩ := h
  have left : ∀ {R : Event → Bytes × Bytes → Prop} {xs : List Event} {ds : List (Bytes × Bytes)}, List.Forall₂ R xs ds → ∀ d ∈ ds, ∃ x ∈ xs, R x d := by
    intro R xs ds h
    induction h with
    | nil => intro d hd; cases hd
    | cons h1 _ ih =>
      intro d hd
      rcases List.mem_cons.1 hd with rfl | hd
      · exact ⟨_, List.mem_cons_self, h1⟩
      · obtain ⟨x, i1, i2⟩ := ih d hd
        exact ⟨x, List.mem_cons_of_mem _ i1, i2⟩
  intro d hd
  rw [← e2] at hd
  obtain ⟨g, hg, hdg⟩ := List.mem_flatMap.1 hd
  obtain ⟨picked, p1, -, p3⟩ := e3 g hg
  obtain ⟨x, hx, hxd⟩ := left p3 d hdg
  have hx := List.mem_filter.1 (p1.mem_iff.1 hx)
  exact ⟨x, e1 ▸ List.mem_flatMap.2 ⟨g, hg, hx.1⟩, g.pol, of_decide_eq_true hx.2, hxd⟩

/-- What can be stored when a run is stopped, whatever the policies in force. -/
theorem requested_under (a : Launch) {F : FLib} {lib : Ecs.ELib} {rs : List Rec} (ha : a.Reads F lib rs) {calls : Nat → Bool} {prog : List (DAct Rec)} (hp : Pipeline.sent prog <+: rs)
    {tr : List (Drain.Obs Msg)} {s : PSt Rec (a.E.elasticWith calls)} (hx : PExec Msg.sf _ prog tr s) (d : Bytes × Bytes) (hd : Exporter.BulkOp.add d.1 d.2 ∈ (a.E.bulkOf s.net).ops) :
    ∃ x ∈ eventsAfter [] rs, a.Makes x d := by
  obtain ⟨hT, hC⟩ := netWith_ok a.S (Exporter.allOrNone a.E.toElastic) (Exporter.elastic calls) ⟨[], 0⟩ ha.core.workers ha.core.cap
  obtain ⟨r, hr⟩ := ha.returns
  obtain ⟨more, hm⟩ := hp
  rw [← hm] at hr
  obtain ⟨rs', rd, hcs, r1, r2, r3, r4⟩ := sent_before hT hC (run_prefix false a.S.fuel _ _ .init r hr) hx
  have hgrow := Drain.growing_at (N := a.E.elasticWith calls) 2 (fun t => (show Exporter.State Exporter.Bulk Msg Exporter.EDatum × Bool from t).1.tr.ops)
    (fun s m t b hst => Drain.exporter_growing (Exporter.allOrNone a.E.toElastic) (Exporter.elastic calls) a.S.buffer ⟨[], 0⟩ a.S.start Exporter.Bulk.ops
      (fun x ds => elasticExport_grows _ x ds) s m t b hst)
  obtain ⟨tr', s', h1, h2, h3, h4⟩ := Drain.completes_growing hT hC (fun s => (a.E.bulkOf s).ops) hgrow r2
  obtain ⟨k1, k2⟩ := reader_all a.S ha.dedup rs' rd hcs r4
  obtain ⟨docs, parts, q1, q2⟩ := elastic_lossy a.S a.E a.decls ha.core ha.names calls tr' s' h1 h2 _ _ (by rw [h3, r3]; exact k1) k2
  obtain ⟨x, x1, x2⟩ := sent_made q2 d (requested_docs q1 d (h4.subset hd))
  exact ⟨x, events_of_prefix (r1.trans ⟨more, hm⟩) x x1, x2⟩

/-! ## C132 -/

/-- **C132** The identifier of an event's document is the same whatever the settings, the policies in force and the rules they attach. -/
theorem doc_id_across {P' : Type} (S : Setup P) (S' : Setup P') (E : EcsSide S) (E' : EcsSide S') (hF : S'.F = S.F) (hlib : E'.lib = E.lib) (V V' : List (Str × FVal) → List RuleInfo) (x : Event)
    (id id' text text' : Bytes) (h : DocWith S E V x id text) (h' : DocWith S' E' V' x id' text') : id' = id := by
  obtain ⟨c, r, d, -, hk, hs, -, -, -, -, -, hd, rfl, -⟩ := h
  obtain ⟨c', r', d', -, hk', hs', -, -, -, -, -, hd', rfl, -⟩ := h'
  rw [hF] at hs'
  rw [hd'.id, hd.id, hlib, idBytes_stores E hk hk' hs hs']

/-- **C132** After any number of starts, each with its own policies and settings and stopped anywhere, an index whose documents have different identifiers still has; what it held at first is in it unchanged; and
whatever else is in it is a document of an event of the records that policies in force in one of the starts wanted logged, with the rules they attach. -/
theorem index_after_starts {F : FLib} {lib : Ecs.ELib} {rs : List Rec} {index : List (Bytes × Bytes)} {starts : List Launch} {idx : List (Bytes × Bytes)} (h : AfterStarts F lib rs index starts idx)
    (hindex : (index.map (·.1)).Nodup) :
    (idx.map (·.1)).Nodup ∧ (∀ d ∈ index, d ∈ idx) ∧ ∀ d ∈ idx, d ∈ index ∨ ∃ a ∈ starts, ∃ x ∈ eventsAfter [] rs, a.Makes x d := by
  induction h with
  | none => exact ⟨hindex, fun d hd => hd, fun d hd => .inl hd⟩
  | more a calls prog tr s stored _ ha hp hx hst ih =>
    obtain ⟨i1, i2, i3⟩ := ih
    obtain ⟨a1, a2, a3, -⟩ := Exporter.foldl_create stored _ i1
    refine ⟨a1, fun d hd => a2 d (i2 d hd), fun d hd => ?_⟩
    rcases a3 d hd with h | h
    · rcases i3 d h with h | ⟨b, hb, h⟩
      · exact .inl h
      · exact .inr ⟨b, List.mem_cons_of_mem _ hb, h⟩
    · obtain ⟨x, x1, x2⟩ := requested_under a ha hp hx d (hst d h)
      exact .inr ⟨a, List.mem_cons_self, x, x1, x2⟩

/-- **C132** No event has two documents in it, whatever the starts: two documents made for the same event are the same one. -/
theorem one_doc_each {F : FLib} {lib : Ecs.ELib} {rs : List Rec} {index : List (Bytes × Bytes)} {starts : List Launch} {idx : List (Bytes × Bytes)} (h : AfterStarts F lib rs index starts idx)
    (hindex : (index.map (·.1)).Nodup) {a b : Launch} (ha : a.Reads F lib rs) (hb : b.Reads F lib rs) {x : Event} {d e : Bytes × Bytes} (hd : d ∈ idx) (he : e ∈ idx) (hda : a.Makes x d) (heb : b.Makes x e) : e = d := by
  obtain ⟨h1, -, -⟩ := index_after_starts h hindex
  obtain ⟨p, -, hp⟩ := hda
  obtain ⟨q, -, hq⟩ := heb
  have hid := doc_id_across a.S b.S a.E b.E (by rw [ha.flat, hb.flat]) (by rw [ha.enc, hb.enc]) _ _ x d.1 e.1 d.2 e.2 hp hq
  exact same_of_id h1 hd he hid

/-- **C132** A complete run under one set of policies, after any starts with whatever policies and settings: the index holds the identifiers it held before and those of the events that the policies now in force want
logged, each once; a document that was there before stays as it was, also if the rules now in force would attach other rules to its event; and only events without a document get one. -/
theorem index_after_changes {F : FLib} {lib : Ecs.ELib} {rs : List Rec} {index : List (Bytes × Bytes)} {starts : List Launch} {idx : List (Bytes × Bytes)} (hstarts : AfterStarts F lib rs index starts idx)
    (hindex : (index.map (·.1)).Nodup) (a : Launch) (ha : a.Reads F lib rs) (d0 : List (List Decl)) (hd0 : ∀ p, a.decls p = d0)
    (tr : List (Drain.Obs Msg)) (s : Drain.St a.E.elasticNet) (h : Exec a.E.elasticNet tr s) (hw : Waited s) (hd : driven tr = rs.map Msg.sf) :
    ∃ bulks : List (List (Bytes × Bytes)), a.E.requests s = bulks.flatMap Exporter.bulk ∧ ∀ final, Exporter.Arrives idx bulks final →
      (final.map (·.1)).Nodup ∧ (∀ d ∈ idx, d ∈ final) ∧
      (∀ d ∈ final, d.1 ∈ idx.map (·.1) → d ∈ idx) ∧
      (∀ d ∈ final, d ∉ idx → ∃ x ∈ eventsAfter [] rs, Logged a.S d0 x ∧ DocFor a.S a.E d0 x d.1 d.2) ∧
      ∀ id, id ∈ final.map (·.1) ↔ id ∈ idx.map (·.1) ∨ ∃ x ∈ eventsAfter [] rs, Logged a.S d0 x ∧ ∃ text, DocFor a.S a.E d0 x id text := by
  obtain ⟨b1, b2, b3⟩ := index_after_starts hstarts hindex
  obtain ⟨⟨rd, hcs⟩, hr⟩ := ha.returns
  obtain ⟨bulks, r1, r2⟩ := whole_program_index a.S a.E a.decls ha.core ha.names ha.dedup d0 hd0 rs rd hcs hr tr s h hw hd idx b1
  refine ⟨bulks, r1, fun final hf => ?_⟩
  obtain ⟨a1, a2, a3, a4⟩ := r2 final hf
  refine ⟨a1, a2, ?_, fun d hd hn => (a3 d hd).resolve_left hn, fun id => ⟨fun hid => ?_, fun hid => ?_⟩⟩
  · intro d hd hid
    obtain ⟨e, he, hed⟩ := List.mem_map.1 hid
    have : d = e := same_of_id a1 (a2 e he) hd hed.symm
    rw [this]
    exact he
  · obtain ⟨d, hd, rfl⟩ := List.mem_map.1 hid
    rcases a3 d hd with h | ⟨x, x1, x2, x3⟩
    · exact .inl (List.mem_map.2 ⟨d, h, rfl⟩)
    · exact .inr ⟨x, x1, x2, d.2, x3⟩
  · rcases hid with hid | ⟨x, x1, x2, text, x3⟩
    · obtain ⟨d, hd, rfl⟩ := List.mem_map.1 hid
      exact List.mem_map.2 ⟨d, a2 d hd, rfl⟩
    · obtain ⟨id', text', y1, y2⟩ := a4 x x1 x2
      rw [doc_id_unique a.S a.E a.E rfl _ _ x id' id text' text y1 x3]
      exact y2

/-! ### A concrete case -/

/-- The first program: a policy file with the rule about `/bin/ls`. -/
def firstStart (n : Nat) (code : List (Rule Record) × List (Filter Record)) : Launch := ⟨Unit, demoSetup n code, demoEcs n code, fun _ => [lsDecls]⟩

/-- The second: no policy file, and everything is passed on (mode `enrich`). -/
def secondStart (n : Nat) (code : List (Rule Record) × List (Filter Record)) : Launch :=
  ⟨Unit, { demoSetup n code with texts := fun _ => [], enrich := true }, ⟨Ecs.demoConf, Ecs.demoELib, rfl⟩, fun _ => []⟩

theorem first_reads (n : Nat) (hn : 0 < n) : ∃ code, (firstStart n code).Reads (demoSetup n code).F Ecs.demoELib demoStream := by
  obtain ⟨code, ok⟩ := demo_ok n hn
  have hr : (Processor.run false 10 .init demoStream).isSome = true := by decide
  exact ⟨code, ok.toCore, demo_names, rfl, rfl, rfl, Option.isSome_iff_exists.mp hr⟩

theorem second_reads (n : Nat) (hn : 0 < n) : ∃ code, (secondStart n code).Reads (demoSetup n code).F Ecs.demoELib demoStream := by
  obtain ⟨k, rules, filters, hcomp, _⟩ := policy_texts_to_alerts demoLib simple_rule [] [] .nil (fun x hx => by cases hx)
  have hr : (Processor.run false 10 .init demoStream).isSome = true := by decide
  refine ⟨(rules, filters), ⟨simple_rule, fun _ => .nil, fun _ x hx => (by cases hx), fun _ => ⟨k, hcomp⟩, ?_, hn, (show 0 < 9 by decide)⟩, demo_names, rfl, rfl, rfl, Option.isSome_iff_exists.mp hr⟩
  intro a f hf
  rcases hf with hf | hf <;> cases hf

/-- The second wants every event of the file logged. -/
theorem second_logged (n : Nat) (code : List (Rule Record) × List (Filter Record)) (x : Event) (hx : x ∈ eventsAfter [] demoStream) : Logged (secondStart n code).S [] x := by
  have h : (Processor.run false 10 .init demoStream).isSome = true := by decide
  obtain ⟨⟨s, cs⟩, h⟩ := Option.isSome_iff_exists.mp h
  have hst := Flattener.calls_store (demoSetup n code).F 10 demoStream [] .init s [] cs rfl h
  have right : ∀ {R : Event → FlatRec → Prop} {xs : List Event} {ds : List FlatRec}, List.Forall₂ R xs ds → ∀ x ∈ xs, ∃ d, R x d := by
    intro R xs ds h
    induction h with
    | nil => intro d hd; cases hd
    | cons h1 _ ih =>
      intro d hd
      rcases List.mem_cons.1 hd with rfl | hd
      · exact ⟨_, h1⟩
      · exact ih d hd
  obtain ⟨fr, -, c, hk, -⟩ := right hst x hx
  refine ⟨c, hk, ?_, .inl rfl⟩
  rintro ⟨r, -, y, hy, -⟩
  cases hy

/-- The first program is stopped when the document of `/bin/ls` has been stored, and the second is started on the same file: every event of the file then has one document, that of `/bin/ls` is the one the first program
made, with its rule, although the second attaches none. -/
example (n m : Nat) (hn : 0 < n) (hm : 0 < m) : ∃ code code' d, AfterStarts (demoSetup n code).F Ecs.demoELib demoStream [] [firstStart n code] [d] ∧
    DocFor (demoSetup n code) (demoEcs n code) [lsDecls] (demoStream.take 7, .procEvt (Processor.demoPE 2)) d.1 d.2 ∧
    ∃ tr, ∃ s : Drain.St (secondStart m code').E.elasticNet, Exec (secondStart m code').E.elasticNet tr s ∧ Waited s ∧ driven tr = demoStream.map Msg.sf ∧
    ∃ bulks : List (List (Bytes × Bytes)), (secondStart m code').E.requests s = bulks.flatMap Exporter.bulk ∧ ∀ final, Exporter.Arrives [d] bulks final → (final.map (·.1)).Nodup ∧ d ∈ final ∧
      (∀ e ∈ final, e.1 = d.1 → e = d) ∧
      ∀ x ∈ eventsAfter [] demoStream, ∀ id text, DocFor (secondStart m code').S (secondStart m code').E [] x id text → id ∈ final.map (·.1) := by
  obtain ⟨code, ok⟩ := first_reads n hn
  obtain ⟨code', ok'⟩ := second_reads m hm
  obtain ⟨hT, hC⟩ := netWith_ok (demoSetup n code) (Exporter.allOrNone (demoEcs n code).toElastic) (Exporter.elastic (fun _ => true)) ⟨[], 0⟩ ok.core.workers ok.core.cap
  obtain ⟨hT', hC'⟩ := netWith_ok (secondStart m code').S (Exporter.allOrNone (secondStart m code').E.toElastic) (Exporter.elastic (fun _ => true)) ⟨[], 0⟩ ok'.core.workers ok'.core.cap
  have hopen : ∀ f ∈ [FileData.data (demoStream.map .record)], f ≠ .noOpen := by
    intro f hf
    rw [List.mem_singleton.1 hf]; intro h; cases h
  have hsent : Pipeline.sent (fileDriver (fun _ => true) (some [.data (demoStream.map .record)])) = demoStream := file_driver_all _ hopen
  obtain ⟨body, b1, b2, -⟩ := file_driver_delivers (fun _ => true) (fun _ h => h) _ hopen
  obtain ⟨tr1, s1, hx, he⟩ := complete_run hT hC ⟨b1, b2⟩ Msg.sf
  obtain ⟨-, hex, hw1, hdr⟩ := run_returned hT hC ⟨b1, b2⟩ hx he
  rw [hsent] at hdr
  obtain ⟨⟨rd, hcs⟩, hrun⟩ := ok.returns
  obtain ⟨bulks1, q1, -, q2⟩ := whole_program_elastic (demoSetup n code) (demoEcs n code) _ ok.core demo_names rfl demoStream rd hcs hrun tr1 s1.net hex hw1 hdr
  obtain ⟨d, d1, d2⟩ := (sent_each (d0 := [lsDecls]) (fun _ => rfl) q2).2 _ (List.mem_cons_of_mem _ List.mem_cons_self) (demo_logged _ rfl rfl)
  have hadd : Exporter.BulkOp.add d.1 d.2 ∈ ((demoEcs n code).bulkOf s1.net).ops := by
    change _ ∈ (demoEcs n code).requests s1.net
    rw [q1]
    obtain ⟨b, hb, hdb⟩ := List.mem_flatten.1 d1
    refine List.mem_flatMap.2 ⟨b, hb, ?_⟩
    unfold Exporter.bulk
    exact List.mem_append_left _ (List.mem_cons_of_mem _ (List.mem_map.2 ⟨d, hdb, rfl⟩))
  have hstop : AfterStarts (demoSetup n code).F Ecs.demoELib demoStream [] [firstStart n code] ([d].foldl Exporter.create []) := by
    refine .more (firstStart n code) (fun _ => true) _ tr1 s1 [d] .none ok ?_ hx ?_
    · rw [hsent]
    · intro y hy
      rw [List.mem_singleton.1 hy]
      exact hadd
  obtain ⟨tr, s, h1, h2, h3⟩ := Drain.complete_run_exists hT' hC' (demoStream.map Msg.sf) (show 9 ≤ 9 by decide)
  obtain ⟨bulks, r1, r2⟩ := index_after_changes hstop (by simp) (secondStart m code') ok' [] (fun _ => rfl) tr s h1 h2 h3
  refine ⟨code, code', d, hstop, d2, tr, s, h1, h2, h3, bulks, r1, fun final hf => ?_⟩
  obtain ⟨a1, a2, -, -, a5⟩ := r2 final hf
  have hd := a2 d List.mem_cons_self
  exact ⟨a1, hd, fun e he hid => same_of_id a1 hd he hid, fun x hx id text ht => (a5 id).2 (.inr ⟨x, hx, second_logged m code' x hx, text, ht⟩)⟩

end Verif.Whole
