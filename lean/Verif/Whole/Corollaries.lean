import Verif.Whole.Props
/-
C76: consequences for a fixed policy set; `Wait` does return; the log is determined by the stream.
-/
namespace Verif.Whole
open Verif.Decimal (Str)
open Verif.Exporter (Bytes)
open Verif.FlatRecord
open Verif.Policy
open Verif.Falco
open Verif.Processor (Rec HCall)
open Verif.Flattener (FLib Timed Known fields eventsAfter Stores StoresEvent)
open Verif.Pipeline
open Verif.Pipeline.Drain (Net Comp sync engine exporter chain emitted driven rootClosed Exec Step Waited Schedule EngineDelivers Segment)

variable {P : Type}

theorem forall₂_join {α β : Type} {r : α → β → Prop} {a1 a2 : List α} {b1 b2 : List β} (h1 : List.Forall₂ r a1 b1) (h2 : List.Forall₂ r a2 b2) :
    List.Forall₂ r (a1 ++ a2) (b1 ++ b2) := by
  induction h1 with
  | nil => exact h2
  | cons h _ ih => exact .cons h ih

theorem forall₂_mem_right {α β : Type} {r : α → β → Prop} {xs : List α} {ys : List β} (h : List.Forall₂ r xs ys) {y : β} (hy : y ∈ ys) : ∃ x, r x y := by
  induction h with
  | nil => cases hy
  | cons h1 _ ih =>
    rcases List.mem_cons.1 hy with rfl | hy
    · exact ⟨_, h1⟩
    · exact ih hy

theorem netWith_ok {X D : Type} (S : Setup P) (C : Exporter.Codec Msg D) (T : Exporter.Transport X D) (x0 : X) (hn : 0 < S.workers) (hcap : 0 < S.cap) :
    Drain.Tree (S.netWith C T x0) ∧ ∀ i, i < (S.netWith C T x0).n → Drain.Contract ((S.netWith C T x0).comp i) := by
  constructor
  · refine Drain.chain_tree _ S.cap hcap _ ?_ rfl
    intro C hC
    rcases List.mem_cons.1 hC with rfl | hC
    · rfl
    · rw [List.mem_singleton.1 hC]; rfl
  · refine Drain.chain_contract _ S.cap ?_
    intro C hC
    rcases List.mem_cons.1 hC with rfl | hC
    · exact Drain.sync_contract _ _ 1
    rcases List.mem_cons.1 hC with rfl | hC
    · exact Drain.engine_contract S.cfg hn _ _ _
    · rw [List.mem_singleton.1 hC]; exact Drain.exporter_contract _ _ _ _ _

theorem net_ok (S : Setup P) (hn : 0 < S.workers) (hcap : 0 < S.cap) : Drain.Tree S.net ∧ ∀ i, i < S.net.n → Drain.Contract (S.net.comp i) :=
  netWith_ok S _ _ _ hn hcap

open Classical in
/-- **C76** With one worker and policies that do not change (no reload, or reloads of the same rules) the lines of the log are, one for one
and in order, those of the events that the policies let pass. -/
theorem whole_program_fixed (S : Setup P) (dss : P → List (List Decl)) (ok : S.Ok dss) (d : List (List Decl)) (hd0 : ∀ p, dss p = d) (h1 : S.workers = 1)
    (rs : List Rec) (rd : Processor.State) (cs : List HCall) (hrun : Processor.run false S.fuel .init rs = some (rd, cs))
    (tr : List (Drain.Obs Msg)) (s : Drain.St S.net) (h : Exec S.net tr s) (hw : Waited s) (hd : driven tr = rs.map Msg.sf) :
    List.Forall₂ (LineFor S d) ((eventsAfter [] rs).filter (fun x => decide (Logged S d x))) (Exporter.linesOf [] (S.log s)) := by
  obtain ⟨ss, -, he, -, hl, hs⟩ := whole_program S dss ok rs rd cs hrun tr s h hw hd
  rw [← he, hl]
  clear he hl
  induction ss with
  | nil => exact .nil
  | cons g ss ih =>
    obtain ⟨picked, -, w2, w3⟩ := hs g (by simp)
    rw [List.flatMap_cons, List.flatMap_cons, List.filter_append]
    rw [w2 h1, hd0] at w3
    exact forall₂_join w3 (ih (fun x hx => hs x (by simp [hx])))

open Classical in
/-- **C76** In particular, an event is logged iff the policies let it pass, and the number of lines is the number of such events — for
any number of workers. -/
theorem whole_program_count (S : Setup P) (dss : P → List (List Decl)) (ok : S.Ok dss) (d : List (List Decl)) (hd0 : ∀ p, dss p = d)
    (rs : List Rec) (rd : Processor.State) (cs : List HCall) (hrun : Processor.run false S.fuel .init rs = some (rd, cs))
    (tr : List (Drain.Obs Msg)) (s : Drain.St S.net) (h : Exec S.net tr s) (hw : Waited s) (hd : driven tr = rs.map Msg.sf) :
    ∃ picked, List.Perm picked ((eventsAfter [] rs).filter (fun x => decide (Logged S d x))) ∧
      List.Forall₂ (LineFor S d) picked (Exporter.linesOf [] (S.log s)) := by
  obtain ⟨ss, -, he, -, hl, hs⟩ := whole_program S dss ok rs rd cs hrun tr s h hw hd
  rw [← he, hl]
  clear he hl
  induction ss with
  | nil => exact ⟨[], .refl _, .nil⟩
  | cons g ss ih =>
    obtain ⟨p1, w1, -, w3⟩ := hs g (by simp)
    obtain ⟨p2, v1, v2⟩ := ih (fun x hx => hs x (by simp [hx]))
    rw [hd0] at w1 w3
    rw [List.flatMap_cons, List.flatMap_cons, List.filter_append]
    exact ⟨p1 ++ p2, w1.append v1, forall₂_join w3 v2⟩

/-- **C76** `Wait` does return: once the driver has closed the root channel, under every schedule that does not ignore the program forever while it can
move (whatever the timer and the policy monitor do in between); and the driver has then sent what it had sent. For streams that the reader
can process: a cyclic process tree makes it hang. -/
theorem whole_program_waits (S : Setup P) (dss : P → List (List Decl)) (ok : S.Ok dss) (rs : List Rec) (rd : Processor.State) (cs : List HCall)
    (_hrun : Processor.run false S.fuel .init rs = some (rd, cs)) {run : Nat → Drain.St S.net} {own : Nat → Bool} (hS : Schedule S.net run own)
    (tr : List (Drain.Obs Msg)) (h : Exec S.net tr (run 0)) (hroot : rootClosed tr = true) (hd : driven tr = rs.map Msg.sf)
    (hfair : ∀ k, (∃ l o s', Step S.net (run k) l o s' ∧ l.own = true) → ∃ j, k ≤ j ∧ own j = true) :
    ∃ k, Waited (run k) ∧ ∃ tr', Exec S.net tr' (run k) ∧ driven tr' = rs.map Msg.sf := by
  obtain ⟨hT, hC⟩ := net_ok S ok.workers ok.cap
  obtain ⟨k, hw, _⟩ := Drain.wait_returns hT hC hS h hroot hfair
  obtain ⟨tr', h', _, hd'⟩ := Drain.schedule_driven hT hC hS h hroot k
  exact ⟨k, hw, tr', h', hd'.trans hd⟩

/-! ### Determinism -/

/-- The lines of the log are the encodings of what the policy engine forwarded. -/
theorem log_shape (S : Setup P) (dss : P → List (List Decl)) (ok : S.Ok dss) (rs : List Rec) (rd : Processor.State) (cs : List HCall)
    (hrun : Processor.run false S.fuel .init rs = some (rd, cs))
    (tr : List (Drain.Obs Msg)) (s : Drain.St S.net) (h : Exec S.net tr s) (hw : Waited s) (hd : driven tr = rs.map Msg.sf) :
    ∃ segs fw, EngineDelivers S.cfg S.policies ((cs.filterMap (Flattener.recOf S.F)).map Msg.flat) fw segs ∧
      S.log s = Exporter.logOf (fw.filterMap S.enc) ∧ Exporter.linesOf [] (S.log s) = (fw.filterMap S.enc).map Exporter.Datum.text := by
  obtain ⟨segs, es, hdel, hclosed, hfin⟩ := three_stages _ _ S.cfg ok.workers rfl S.policies S.start S.pending _ _ _ _ _ S.cap ok.cap tr s h hw
  rw [hd] at hdel
  have hem : emitted (readerStep S.F S.fuel S.clock) S.reader0 (rs.map Msg.sf) = (cs.filterMap (Flattener.recOf S.F)).map Msg.flat :=
    reader_emits S.F S.fuel S.clock rs .init rd cs _ 0 (by simp [Flattener.init, ok.dedup]) hrun
  rw [hem] at hdel
  have hstore := Flattener.calls_store S.F S.fuel rs [] .init rd [] cs rfl hrun
  have hnone : ∀ m ∈ Exporter.received es, S.enc m ≠ none := by
    intro m hm
    rw [← hdel.output] at hm
    obtain ⟨g, hg, hm⟩ := List.mem_flatMap.1 hm
    obtain ⟨y, hy, hp⟩ := List.mem_filterMap.1 ((hdel.each g hg).mem_iff.1 hm)
    have hy' : y ∈ (cs.filterMap (Flattener.recOf S.F)).map Msg.flat := by rw [← hdel.input]; exact List.mem_flatMap.2 ⟨g, hg, hy⟩
    obtain ⟨fr, hfr, rfl⟩ := List.mem_map.1 hy'
    obtain ⟨x, hx⟩ := forall₂_mem_right hstore hfr
    obtain ⟨e1, e2⟩ := engine_step S dss ok.toCore g.pol x fr hx
    have hp : S.proc g.pol (.flat fr) = some m := hp
    by_cases hl : Logged S (dss g.pol) x
    · obtain ⟨m', q1, q2⟩ := e2 hl
      rw [hp] at q1
      cases q1
      obtain ⟨line, l1, _⟩ := alert_line S ok.lib ok.version _ x hx.1 m q2
      rw [l1]
      intro h
      cases h
    · rw [e1 hl] at hp
      cases hp
  have hlog : S.log s = Exporter.logOf ((Exporter.received es).filterMap S.enc) := by
    unfold Setup.log
    rw [hfin, run_allOrNone S.enc _ _ es _ (fun r hr => (by cases hr)) hnone]
    exact Exporter.file_log S.enc (fun _ => none) (fun _ => rfl) _ _ es hclosed
  refine ⟨segs, _, hdel, hlog, ?_⟩
  have hrec : ∃ (recs : List Record) (texts : List Bytes), recs.map (Json.encode S.env) = texts.map some ∧
      (Exporter.received es).filterMap S.enc = texts.map Exporter.Datum.bytes := by
    generalize Exporter.received es = ms at hnone
    induction ms with
    | nil => exact ⟨[], [], rfl, rfl⟩
    | cons m ms ih =>
      obtain ⟨recs, texts, i1, i2⟩ := ih (fun x hx => hnone x (by simp [hx]))
      have hm := hnone m (by simp)
      cases m with
      | sf _ => exact absurd rfl hm
      | flat _ => exact absurd rfl hm
      | alert r =>
        have hm : (Json.encode S.env r).map Exporter.Datum.bytes ≠ none := hm
        cases he : Json.encode S.env r with
        | none => rw [he] at hm; exact absurd rfl hm
        | some line =>
          refine ⟨r :: recs, line :: texts, by simp [he, i1], ?_⟩
          rw [List.filterMap_cons, show S.enc (.alert r) = some (.bytes line) by show (Json.encode S.env r).map _ = _; rw [he]; rfl]
          simp [i2]
  obtain ⟨recs, texts, i1, i2⟩ := hrec
  have := Json.json_log_lines S.env ok.lib (fun c hc => numChar_noCtl c (ok.version.1 c hc)) recs texts i1
  rw [hlog, i2, List.map_map, Exporter.logOf, List.flatMap_map]
  refine this.trans ?_
  rw [show Exporter.Datum.text ∘ Exporter.Datum.bytes = id from rfl, List.map_id]

/-- **C76** Nothing of the scheduling, the timer or the monitor is visible in the log: with a fixed policy set two complete executions on the same
stream leave the same lines, up to their order; and the same bytes if there is one worker. -/
theorem log_deterministic (S : Setup P) (dss : P → List (List Decl)) (ok : S.Ok dss) (hcode : ∀ p q, S.code p = S.code q)
    (rs : List Rec) (rd : Processor.State) (cs : List HCall) (hrun : Processor.run false S.fuel .init rs = some (rd, cs))
    (tr tr' : List (Drain.Obs Msg)) (s s' : Drain.St S.net) (h : Exec S.net tr s) (hw : Waited s) (hd : driven tr = rs.map Msg.sf)
    (h' : Exec S.net tr' s') (hw' : Waited s') (hd' : driven tr' = rs.map Msg.sf) :
    List.Perm (Exporter.linesOf [] (S.log s)) (Exporter.linesOf [] (S.log s')) ∧ (S.workers = 1 → S.log s = S.log s') := by
  have hproc : ∀ p, S.proc p = S.proc S.policies := by
    intro p
    funext m
    cases m <;> first | rfl | (unfold Setup.proc; rw [hcode p S.policies])
  have key : ∀ (segs : List (Segment P Msg)) (ins fw : List Msg), EngineDelivers S.cfg S.policies ins fw segs →
      fw.Perm (ins.filterMap (S.proc S.policies)) ∧ (S.workers = 1 → fw = ins.filterMap (S.proc S.policies)) := by
    intro segs ins fw hdel
    rw [← hdel.output, ← hdel.input]
    have he := hdel.each
    have ho := hdel.order
    clear hdel
    induction segs with
    | nil => exact ⟨.refl _, fun _ => rfl⟩
    | cons g gs ih =>
      obtain ⟨i1, i2⟩ := ih (fun x hx => he x (by simp [hx])) (fun h1 x hx => ho h1 x (by simp [hx]))
      have e := he g (by simp)
      rw [show S.cfg.proc g.pol = S.proc S.policies from hproc g.pol] at e
      rw [List.flatMap_cons, List.flatMap_cons, List.filterMap_append]
      refine ⟨e.append i1, fun h1 => ?_⟩
      rw [i2 h1, ho h1 g (by simp), show S.cfg.proc g.pol = S.proc S.policies from hproc g.pol]
  obtain ⟨_, fw, hdel, hl, hn⟩ := log_shape S dss ok rs rd cs hrun tr s h hw hd
  obtain ⟨_, fw', hdel', hl', hn'⟩ := log_shape S dss ok rs rd cs hrun tr' s' h' hw' hd'
  obtain ⟨k1, k2⟩ := key _ _ _ hdel
  obtain ⟨k1', k2'⟩ := key _ _ _ hdel'
  refine ⟨?_, fun h1 => ?_⟩
  · rw [hn, hn']
    exact ((k1.trans k1'.symm).filterMap _).map _
  · rw [hl, hl', k2 h1, k2' h1]

end Verif.Whole
