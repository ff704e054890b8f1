import Verif.Whole.Moments
/-
C127: documents in an Elastic index when the process is stopped and started over on the same files.
Sources: /repo/core/exporter/encoders/ecs.go:94-193, /repo/core/exporter/transports/elastic.go:81-139, /repo/core/exporter/exporter.go:104-160, /repo/driver/pipeline/pipeline.go:135-294
-/
namespace Verif.Whole
open Verif.Decimal (Str)
open Verif.Exporter (Bytes)
open Verif.FlatRecord
open Verif.Policy
open Verif.Falco
open Verif.Processor (Rec HCall demoStream)
open Verif.Flattener (FLib Known Stores fields eventsAfter StoresEvent)
open Verif.Pipeline
open Verif.Pipeline.Process
open Verif.Pipeline.Drain (driven Exec Waited)

variable {P : Type}

/-! ### Specification -/

/-- What an index may have come to by runs of the program on the records `rs` that were stopped somewhere: in each run the driver, whatever it does, sends first records of `rs`; library calls fail as they may;
and of the documents requested up to the moment the process is stopped, some have been stored, in some order. -/
inductive AfterStops {S : Setup P} (E : EcsSide S) (rs : List Rec) (index : List (Bytes × Bytes)) : List (Bytes × Bytes) → Prop
  | start : AfterStops E rs index index
  | stopped {idx : List (Bytes × Bytes)} (calls : Nat → Bool) (prog : List (DAct Rec)) (tr : List (Drain.Obs Msg)) (s : PSt Rec (E.elasticWith calls)) (stored : List (Bytes × Bytes)) :
      AfterStops E rs index idx → Pipeline.sent prog <+: rs → PExec Msg.sf _ prog tr s → (∀ d ∈ stored, Exporter.BulkOp.add d.1 d.2 ∈ (E.bulkOf s.net).ops) →
      AfterStops E rs index (stored.foldl Exporter.create idx)

/-! ### Proofs -/

/-- The identifying attributes of an event do not depend on its ancestors. -/
theorem idBytes_stores {S : Setup P} (E : EcsSide S) {x : Event} {c c' : Processor.Ctx} {fr fr' : FlatRec} (hk : Known x.1 x.2 c) (hk' : Known x.1 x.2 c') (hs : Stores S.F c x.2 fr) (hs' : Stores S.F c' x.2 fr') :
    Ecs.Spec.idBytes E.lib fr = Ecs.Spec.idBytes E.lib fr' := by
  have e1 : c'.header = c.header := hk'.header.trans hk.header.symm
  have e2 : c'.proc = c.proc := hk'.proc.trans hk.proc.symm
  have e3 : c'.cont = c.cont := by rw [hk'.cont, hk.cont, e2]
  have e4 : c'.pod = c.pod := by rw [hk'.pod, hk.pod, e3]
  have e5 : c'.file = c.file := hk'.file.trans hk.file.symm
  have e6 : c'.newFile = c.newFile := hk'.newFile.trans hk.newFile.symm
  have e : c' = { c with ptree := c'.ptree } := by
    cases c; cases c'
    dsimp only at e1 e2 e3 e4 e5 e6
    subst e1 e2 e3 e4 e5 e6
    rfl
  have hi : ∀ a, fr'.getInt a .sysflow = fr.getInt a .sysflow := by
    intro a
    rw [hs'.int a, hs.int a, e]
    cases x.2 <;> rfl
  have ht : ∀ a, fr'.getStr a .sysflow = fr.getStr a .sysflow := by
    intro a
    rw [hs'.str a, hs.str a, e]
    cases x.2 <;> cases a <;> rfl
  have hA : Ecs.A fr' = Ecs.A fr := funext hi
  have hT : Ecs.T fr' = Ecs.T fr := funext fun a => by unfold Ecs.T; rw [ht a]
  unfold Ecs.Spec.idBytes Ecs.Spec.kind
  rw [hA, hT]

/-- The elements that are requested are documents of batches. -/
theorem requested_docs {ok : Nat → Bool} {eb : Int} {docs : List (Bytes × Bytes)} {ops : List Exporter.BulkOp} {n : Nat} {parts : List (Exporter.Bulked × List (Bytes × Bytes))}
    (h : Exporter.RequestsFor ok eb docs ops n parts) (d : Bytes × Bytes) (hd : Exporter.BulkOp.add d.1 d.2 ∈ ops) : d ∈ docs := by
  have adds : ∀ l : List (Bytes × Bytes), Exporter.BulkOp.add d.1 d.2 ∈ Exporter.adds l → d ∈ l := by
    intro l hl
    obtain ⟨y, hy, e⟩ := List.mem_map.1 hl
    injection e with e1 e2
    have : y = d := Prod.ext e1 e2
    rw [← this]
    exact hy
  rw [h.ops] at hd
  obtain ⟨q, hq, hd⟩ := List.mem_flatMap.1 hd
  rw [← h.batches]
  refine List.mem_flatMap.2 ⟨q, hq, ?_⟩
  obtain ⟨k, l⟩ := q
  cases k with
  | whole =>
    dsimp only [Exporter.Bulked.ops, Exporter.bulk] at hd
    rcases List.mem_append.1 hd with hd | hd
    · rcases List.mem_cons.1 hd with hd | hd
      · cases hd
      · exact adds _ hd
    · rw [List.mem_singleton] at hd
      cases hd
  | unclosed k =>
    dsimp only [Exporter.Bulked.ops] at hd
    rcases List.mem_cons.1 hd with hd | hd
    · cases hd
    · exact List.mem_of_mem_take (adds _ hd)
  | unopened => cases hd

/-- Under one set of policies: every document sent is that of a logged event, and every logged event has one. -/
theorem sent_each {S : Setup P} {E : EcsSide S} {dss : P → List (List Decl)} {d0 : List (List Decl)} (hd0 : ∀ p, dss p = d0) {evs : List Event} {docs : List (Bytes × Bytes)} (h : SentFor S E dss evs docs) :
    (∀ d ∈ docs, ∃ x ∈ evs, Logged S d0 x ∧ DocFor S E d0 x d.1 d.2) ∧ ∀ x ∈ evs, Logged S d0 x → ∃ d ∈ docs, DocFor S E d0 x d.1 d.2 := by
  classical
  obtain ⟨rest, ss, -, e1, e2, e3⟩ := h
  have left : ∀ {R : Event → Bytes × Bytes → Prop} {xs : List Event} {ds : List (Bytes × Bytes)}, List.Forall₂ R xs ds → ∀ d ∈ ds, ∃ x ∈ xs, R x d := by
    intro R xs ds h
    induction h with
    | nil => intro d hd; cases hd
    | cons h1 _ ih =>
      intro d hd
      rcases List.mem_cons.1 hd with rfl | hd
      · exact ⟨_, List.mem_cons_self, h1⟩
      · obtain ⟨x, i1, i2⟩ := ih d hd
        exact ⟨x, List.mem_cons_of_mem _ i1, i2⟩
  have right : ∀ {R : Event → Bytes × Bytes → Prop} {xs : List Event} {ds : List (Bytes × Bytes)}, List.Forall₂ R xs ds → ∀ x ∈ xs, ∃ d ∈ ds, R x d := by
    intro R xs ds h
    induction h with
    | nil => intro d hd; cases hd
    | cons h1 _ ih =>
      intro d hd
      rcases List.mem_cons.1 hd with rfl | hd
      · exact ⟨_, List.mem_cons_self, h1⟩
      · obtain ⟨x, i1, i2⟩ := ih d hd
        exact ⟨x, List.mem_cons_of_mem _ i1, i2⟩
  constructor
  · intro d hd
    rw [← e2] at hd
    obtain ⟨g, hg, hdg⟩ := List.mem_flatMap.1 hd
    obtain ⟨picked, p1, -, p3⟩ := e3 g hg
    obtain ⟨x, hx, hxd⟩ := left p3 d hdg
    have hx := List.mem_filter.1 (p1.mem_iff.1 hx)
    refine ⟨x, e1 ▸ List.mem_flatMap.2 ⟨g, hg, hx.1⟩, ?_, ?_⟩
    · rw [← hd0 g.pol]; exact of_decide_eq_true hx.2
    · rw [← hd0 g.pol]; exact hxd
  · intro x hx hl
    rw [← e1] at hx
    obtain ⟨g, hg, hxg⟩ := List.mem_flatMap.1 hx
    obtain ⟨picked, p1, -, p3⟩ := e3 g hg
    have hxp : x ∈ picked := p1.mem_iff.2 (List.mem_filter.2 ⟨hxg, decide_eq_true (show Logged S (dss g.pol) x by rw [hd0]; exact hl)⟩)
    obtain ⟨d, hd, hxd⟩ := right p3 x hxp
    refine ⟨d, e2 ▸ List.mem_flatMap.2 ⟨g, hg, hd⟩, ?_⟩
    rw [← hd0 g.pol]; exact hxd

/-- The events of the first records are among the events. -/
theorem events_of_prefix {rs rs' : List Rec} (h : rs <+: rs') : ∀ x ∈ eventsAfter [] rs, x ∈ eventsAfter [] rs' := by
  obtain ⟨more, rfl⟩ := h
  rintro ⟨pre, ev⟩ hx
  obtain ⟨h1, post, h2⟩ := ((Flattener.eventsAfter_spec rs).2 pre ev).1 hx
  exact ((Flattener.eventsAfter_spec _).2 pre ev).2 ⟨h1, post ++ more, by rw [h2]; simp⟩

/-- What can be stored when a run is stopped. -/
theorem requested_before (S : Setup P) (E : EcsSide S) (dss : P → List (List Decl)) (ok : S.Core dss) (hn : KindNames S.L) (hdedup : S.dedup = false) (d0 : List (List Decl)) (hd0 : ∀ p, dss p = d0)
    {rs : List Rec} (hret : ∃ r, Processor.run false S.fuel .init rs = some r) {calls : Nat → Bool} {prog : List (DAct Rec)} (hp : Pipeline.sent prog <+: rs)
    {tr : List (Drain.Obs Msg)} {s : PSt Rec (E.elasticWith calls)} (hx : PExec Msg.sf _ prog tr s) (d : Bytes × Bytes) (hd : Exporter.BulkOp.add d.1 d.2 ∈ (E.bulkOf s.net).ops) :
    ∃ x ∈ eventsAfter [] rs, Logged S d0 x ∧ DocFor S E d0 x d.1 d.2 := by
  obtain ⟨hT, hC⟩ := netWith_ok S (Exporter.allOrNone E.toElastic) (Exporter.elastic calls) ⟨[], 0⟩ ok.workers ok.cap
  obtain ⟨r, hr⟩ := hret
  obtain ⟨more, hm⟩ := hp
  rw [← hm] at hr
  obtain ⟨rs', rd, hcs, r1, r2, r3, r4⟩ := sent_before hT hC (run_prefix false S.fuel _ _ .init r hr) hx
  have hgrow := Drain.growing_at (N := E.elasticWith calls) 2 (fun t => (show Exporter.State Exporter.Bulk Msg Exporter.EDatum × Bool from t).1.tr.ops)
    (fun s m t a hst => Drain.exporter_growing (Exporter.allOrNone E.toElastic) (Exporter.elastic calls) S.buffer ⟨[], 0⟩ S.start Exporter.Bulk.ops
      (fun x ds => elasticExport_grows _ x ds) s m t a hst)
  obtain ⟨tr', s', h1, h2, h3, h4⟩ := Drain.completes_growing hT hC (fun s => (E.bulkOf s).ops) hgrow r2
  obtain ⟨k1, k2⟩ := reader_all S hdedup rs' rd hcs r4
  obtain ⟨docs, parts, q1, q2⟩ := elastic_lossy S E dss ok hn calls tr' s' h1 h2 _ _ (by rw [h3, r3]; exact k1) k2
  obtain ⟨x, x1, x2⟩ := (sent_each hd0 q2).1 d (requested_docs q1 d (h4.subset hd))
  exact ⟨x, events_of_prefix (r1.trans ⟨more, hm⟩) x x1, x2⟩

/-- What stopped runs have left in the index. -/
theorem after_stops (S : Setup P) (E : EcsSide S) (dss : P → List (List Decl)) (ok : S.Core dss) (hn : KindNames S.L) (hdedup : S.dedup = false) (d0 : List (List Decl)) (hd0 : ∀ p, dss p = d0)
    {rs : List Rec} (hret : ∃ r, Processor.run false S.fuel .init rs = some r) {index idx : List (Bytes × Bytes)} (h : AfterStops E rs index idx) (hindex : (index.map (·.1)).Nodup) :
    (idx.map (·.1)).Nodup ∧ (∀ d ∈ index, d ∈ idx) ∧ ∀ d ∈ idx, d ∈ index ∨ ∃ x ∈ eventsAfter [] rs, Logged S d0 x ∧ DocFor S E d0 x d.1 d.2 := by
  induction h with
  | start => exact ⟨hindex, fun d hd => hd, fun d hd => .inl hd⟩
  | stopped calls prog tr s stored _ hp hx hst ih =>
    obtain ⟨i1, i2, i3⟩ := ih
    obtain ⟨a1, a2, a3, -⟩ := Exporter.foldl_create stored _ i1
    refine ⟨a1, fun d hd => a2 d (i2 d hd), fun d hd => ?_⟩
    rcases a3 d hd with h | h
    · exact i3 d h
    · exact .inr (requested_before S E dss ok hn hdedup d0 hd0 hret hp hx d (hst d h))

/-! ## C127 -/

/-- **C127** The identifier of an event's document does not depend on the run, the policies in force, what rules they attach, or the encoder's settings. -/
theorem doc_id_unique (S : Setup P) (E E' : EcsSide S) (hlib : E'.lib = E.lib) (V V' : List (Str × FVal) → List RuleInfo) (x : Event) (id id' text text' : Bytes)
    (h : DocWith S E V x id text) (h' : DocWith S E' V' x id' text') : id' = id := by
  obtain ⟨c, r, d, -, hk, hs, -, -, -, -, -, hd, rfl, -⟩ := h
  obtain ⟨c', r', d', -, hk', hs', -, -, -, -, -, hd', rfl, -⟩ := h'
  rw [hd'.id, hd.id, hlib, idBytes_stores E hk hk' hs hs']

/-- **C127** Started over after any number of stops, and run to the end with all library calls succeeding: the index holds, besides what it held at first, exactly the identifiers of the events that the policies
want logged, each once, and only documents of these events. -/
theorem index_after_restart (S : Setup P) (E : EcsSide S) (dss : P → List (List Decl)) (ok : S.Core dss) (hn : KindNames S.L) (hdedup : S.dedup = false) (d0 : List (List Decl)) (hd0 : ∀ p, dss p = d0)
    (rs : List Rec) (hret : ∃ r, Processor.run false S.fuel .init rs = some r) (index idx : List (Bytes × Bytes)) (hindex : (index.map (·.1)).Nodup) (hstops : AfterStops E rs index idx)
    (tr : List (Drain.Obs Msg)) (s : Drain.St E.elasticNet) (h : Exec E.elasticNet tr s) (hw : Waited s) (hd : driven tr = rs.map Msg.sf) :
    ∃ bulks : List (List (Bytes × Bytes)), E.requests s = bulks.flatMap Exporter.bulk ∧ ∀ final, Exporter.Arrives idx bulks final →
      (final.map (·.1)).Nodup ∧ (∀ d ∈ idx, d ∈ final) ∧ (∀ d ∈ index, d ∈ final) ∧
      (∀ d ∈ final, d ∈ index ∨ ∃ x ∈ eventsAfter [] rs, Logged S d0 x ∧ DocFor S E d0 x d.1 d.2) ∧
      ∀ id, id ∈ final.map (·.1) ↔ id ∈ index.map (·.1) ∨ ∃ x ∈ eventsAfter [] rs, Logged S d0 x ∧ ∃ text, DocFor S E d0 x id text := by
  obtain ⟨b1, b2, b3⟩ := after_stops S E dss ok hn hdedup d0 hd0 hret hstops hindex
  obtain ⟨⟨rd, hcs⟩, hr⟩ := hret
  obtain ⟨bulks, r1, r2⟩ := whole_program_index S E dss ok hn hdedup d0 hd0 rs rd hcs hr tr s h hw hd idx b1
  refine ⟨bulks, r1, fun final hf => ?_⟩
  obtain ⟨a1, a2, a3, a4⟩ := r2 final hf
  have hdocs : ∀ d ∈ final, d ∈ index ∨ ∃ x ∈ eventsAfter [] rs, Logged S d0 x ∧ DocFor S E d0 x d.1 d.2 := by
    intro d hd
    rcases a3 d hd with h | h
    · exact b3 d h
    · exact .inr h
  refine ⟨a1, a2, fun d hd => a2 d (b2 d hd), hdocs, fun id => ⟨fun hid => ?_, fun hid => ?_⟩⟩
  · obtain ⟨d, hd, rfl⟩ := List.mem_map.1 hid
    rcases hdocs d hd with h | ⟨x, x1, x2, x3⟩
    · exact .inl (List.mem_map.2 ⟨d, h, rfl⟩)
    · exact .inr ⟨x, x1, x2, d.2, x3⟩
  · rcases hid with hid | ⟨x, x1, x2, text, x3⟩
    · obtain ⟨d, hd, rfl⟩ := List.mem_map.1 hid
      exact List.mem_map.2 ⟨d, a2 d (b2 d hd), rfl⟩
    · obtain ⟨id', text', y1, y2⟩ := a4 x x1 x2
      rw [doc_id_unique S E E rfl _ _ x id' id text' text y1 x3]
      exact y2

/-- **C127** So the identifiers in the index are those of a run that was never stopped. -/
theorem restart_same_ids (S : Setup P) (E : EcsSide S) (dss : P → List (List Decl)) (ok : S.Core dss) (hn : KindNames S.L) (hdedup : S.dedup = false) (d0 : List (List Decl)) (hd0 : ∀ p, dss p = d0)
    (rs : List Rec) (hret : ∃ r, Processor.run false S.fuel .init rs = some r) (index idx : List (Bytes × Bytes)) (hindex : (index.map (·.1)).Nodup) (hstops : AfterStops E rs index idx)
    (tr tr' : List (Drain.Obs Msg)) (s s' : Drain.St E.elasticNet) (h : Exec E.elasticNet tr s) (hw : Waited s) (hd : driven tr = rs.map Msg.sf)
    (h' : Exec E.elasticNet tr' s') (hw' : Waited s') (hd' : driven tr' = rs.map Msg.sf) :
    ∃ bulks bulks' : List (List (Bytes × Bytes)), E.requests s = bulks.flatMap Exporter.bulk ∧ E.requests s' = bulks'.flatMap Exporter.bulk ∧
      ∀ final final', Exporter.Arrives idx bulks final → Exporter.Arrives index bulks' final' → (final.map (·.1)).Perm (final'.map (·.1)) := by
  obtain ⟨bulks, r1, r2⟩ := index_after_restart S E dss ok hn hdedup d0 hd0 rs hret index idx hindex hstops tr s h hw hd
  obtain ⟨bulks', q1, q2⟩ := index_after_restart S E dss ok hn hdedup d0 hd0 rs hret index index hindex .start tr' s' h' hw' hd'
  refine ⟨bulks, bulks', r1, q1, fun final final' hf hf' => ?_⟩
  obtain ⟨a1, -, -, -, a2⟩ := r2 final hf
  obtain ⟨c1, -, -, -, c2⟩ := q2 final' hf'
  exact (List.perm_ext_iff_of_nodup a1 c1).2 fun id => (a2 id).trans (c2 id).symm

/-- **C127** And a second complete run on the same records leaves the index exactly as it is, whichever its schedule. -/
theorem rerun_unchanged (S : Setup P) (E : EcsSide S) (dss : P → List (List Decl)) (ok : S.Core dss) (hn : KindNames S.L) (hdedup : S.dedup = false) (d0 : List (List Decl)) (hd0 : ∀ p, dss p = d0)
    (rs : List Rec) (hret : ∃ r, Processor.run false S.fuel .init rs = some r) (index : List (Bytes × Bytes)) (hindex : (index.map (·.1)).Nodup)
    (tr tr' : List (Drain.Obs Msg)) (s s' : Drain.St E.elasticNet) (h : Exec E.elasticNet tr s) (hw : Waited s) (hd : driven tr = rs.map Msg.sf)
    (h' : Exec E.elasticNet tr' s') (hw' : Waited s') (hd' : driven tr' = rs.map Msg.sf) :
    ∃ bulks bulks' : List (List (Bytes × Bytes)), E.requests s = bulks.flatMap Exporter.bulk ∧ E.requests s' = bulks'.flatMap Exporter.bulk ∧
      ∀ final final', Exporter.Arrives index bulks final → Exporter.Arrives final bulks' final' → final' = final := by
  obtain ⟨⟨rd, hcs⟩, hr⟩ := hret
  obtain ⟨bulks, r1, r2⟩ := whole_program_index S E dss ok hn hdedup d0 hd0 rs rd hcs hr tr s h hw hd index hindex
  obtain ⟨bulks', q1, -, q2⟩ := whole_program_elastic S E dss ok hn hdedup rs rd hcs hr tr' s' h' hw' hd'
  refine ⟨bulks, bulks', r1, q1, fun final final' hf hf' => ?_⟩
  obtain ⟨a1, -, -, a4⟩ := r2 final hf
  obtain ⟨-, -, -, -, e⟩ := Exporter.elastic_index bulks' final final' hf' a1
  refine e fun d hd => ?_
  obtain ⟨x, x1, x2, x3⟩ := (sent_each hd0 q2).1 d hd
  obtain ⟨id', text', y1, y2⟩ := a4 x x1 x2
  rw [doc_id_unique S E E rfl _ _ x id' d.1 text' d.2 y1 x3]
  exact y2

/-! ### A concrete case -/

/-- A run over a file is stopped when one document has been stored, and the program is started over: the index then holds the identifiers of exactly the events of the file that are logged. -/
example (n : Nat) (hn : 0 < n) : ∃ code idx, AfterStops (demoEcs n code) demoStream [] idx ∧ idx.length = 1 ∧
    ∃ tr, ∃ s : Drain.St (demoEcs n code).elasticNet, Exec (demoEcs n code).elasticNet tr s ∧ Waited s ∧ driven tr = demoStream.map Msg.sf ∧
    ∃ bulks : List (List (Bytes × Bytes)), (demoEcs n code).requests s = bulks.flatMap Exporter.bulk ∧ ∀ final, Exporter.Arrives idx bulks final → (final.map (·.1)).Nodup ∧ (∀ d ∈ idx, d ∈ final) ∧
      ∀ id, id ∈ final.map (·.1) ↔ ∃ x ∈ eventsAfter [] demoStream, Logged (demoSetup n code) [lsDecls] x ∧ ∃ text, DocFor (demoSetup n code) (demoEcs n code) [lsDecls] x id text := by
  obtain ⟨code, ok⟩ := demo_ok n hn
  obtain ⟨hT, hC⟩ := netWith_ok (demoSetup n code) (Exporter.allOrNone (demoEcs n code).toElastic) (Exporter.elastic (fun _ => true)) ⟨[], 0⟩ ok.workers ok.cap
  have hopen : ∀ f ∈ [FileData.data (demoStream.map .record)], f ≠ .noOpen := by
    intro f hf
    rw [List.mem_singleton.1 hf]; intro h; cases h
  have hsent : Pipeline.sent (fileDriver (fun _ => true) (some [.data (demoStream.map .record)])) = demoStream := file_driver_all _ hopen
  obtain ⟨body, b1, b2, -⟩ := file_driver_delivers (fun _ => true) (fun _ h => h) _ hopen
  obtain ⟨tr1, s1, hx, he⟩ := complete_run hT hC ⟨b1, b2⟩ Msg.sf
  obtain ⟨-, hex, hw1, hdr⟩ := run_returned hT hC ⟨b1, b2⟩ hx he
  rw [hsent] at hdr
  have hr : (Processor.run false 10 .init demoStream).isSome = true := by decide
  have hret := Option.isSome_iff_exists.mp hr
  obtain ⟨⟨rd, hcs⟩, hrun⟩ := hret
  obtain ⟨bulks1, q1, -, q2⟩ := whole_program_elastic (demoSetup n code) (demoEcs n code) _ ok.toCore demo_names rfl demoStream rd hcs hrun tr1 s1.net hex hw1 hdr
  obtain ⟨d, d1, -⟩ := (sent_each (d0 := [lsDecls]) (fun _ => rfl) q2).2 _ (List.mem_cons_of_mem _ List.mem_cons_self) (demo_logged _ rfl rfl)
  have hadd : Exporter.BulkOp.add d.1 d.2 ∈ ((demoEcs n code).bulkOf s1.net).ops := by
    change _ ∈ (demoEcs n code).requests s1.net
    rw [q1]
    obtain ⟨b, hb, hdb⟩ := List.mem_flatten.1 d1
    refine List.mem_flatMap.2 ⟨b, hb, ?_⟩
    unfold Exporter.bulk
    exact List.mem_append_left _ (List.mem_cons_of_mem _ (List.mem_map.2 ⟨d, hdb, rfl⟩))
  have hstop : AfterStops (demoEcs n code) demoStream [] ([d].foldl Exporter.create []) := by
    refine .stopped (fun _ => true) _ tr1 s1 [d] .start ?_ hx ?_
    · rw [hsent]
    · intro y hy
      rw [List.mem_singleton.1 hy]
      exact hadd
  obtain ⟨tr, s, h1, h2, h3⟩ := Drain.complete_run_exists hT hC (demoStream.map Msg.sf) (show 9 ≤ 9 by decide)
  obtain ⟨bulks, r1, r2⟩ := index_after_restart (demoSetup n code) (demoEcs n code) _ ok.toCore demo_names rfl [lsDecls] (fun _ => rfl) demoStream ⟨_, hrun⟩ [] _ (by simp) hstop tr s h1 h2 h3
  refine ⟨code, _, hstop, rfl, tr, s, h1, h2, h3, bulks, r1, fun final hf => ?_⟩
  obtain ⟨a1, a2, -, -, a3⟩ := r2 final hf
  refine ⟨a1, a2, fun id => (a3 id).trans ?_⟩
  simp

end Verif.Whole
