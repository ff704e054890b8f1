import Verif.Whole.OtelRow
import Verif.Whole.OtelRuns
import Verif.Whole.Crash
/-
C114: policy engines in a row at every moment of a run: what the producer has been given and what the file holds if the process is stopped there.
Sources: /repo/driver/pipeline/pipeline.go:135-294, /repo/core/exporter/transports/file.go:60-84, /repo/core/exporter/transports/kafka.go, /repo/driver/otel/filedriver.go
-/
namespace Verif.OtelRun
open Verif.Decimal (Str)
open Verif.Exporter (Bytes)
open Verif.Policy
open Verif.Otel
open Verif.Falco (Decl sites asFilter)
open Verif.Pipeline
open Verif.Pipeline.Process
open Verif.Pipeline.Drain (Net Comp engine exporter chain driven Exec Waited)

variable {P : Type}

/-! ### Proofs -/

/-- What has come out of an exporter, wherever in a pipeline it stands, only grows. -/
theorem grows_of_eq {X α : Type} {C : Comp ResourceLogs} {S : Setup P} {T : Exporter.Transport X Exporter.Datum} {x0 : X} (hC : C = exporter (Exporter.perRecord S.enc) T S.buffer x0 S.start) (g : X → List α)
    (hg : ∀ x ds, g x <+: g (T.send x ds).1) :
    ∃ f : C.S → List α, (∀ s m t a, C.step s m = some (t, a) → f s <+: f t) ∧
      ∀ (s : C.S), ∃ o : Exporter.State X ResourceLogs Exporter.Datum × Bool, HEq s o ∧ f s = g o.1.tr := by
  subst hC
  exact ⟨fun s => g (show Exporter.State X ResourceLogs Exporter.Datum × Bool from s).1.tr, fun s m t a h => Drain.exporter_growing _ T S.buffer x0 S.start g hg s m t a h, fun s => ⟨s, HEq.rfl, rfl⟩⟩

/-- The same for the row: at every moment there is what it has come to, and a complete run of the same records that has come to at least that. -/
theorem row_completes {X α : Type} (E : List (Setup P)) (S : Setup P) (T : Exporter.Transport X Exporter.Datum) (x0 : X) (g : X → List α) (hg : ∀ x ds, g x <+: g (T.send x ds).1)
    (hn : ∀ e ∈ E, 0 < e.workers) (hcap : 0 < S.cap) {tr : List (Drain.Obs ResourceLogs)} {s : Drain.St (series E S T x0)} (h : Exec (series E S T x0) tr s) :
    ∃ x, Holding s E.length x ∧ ∃ tr' s', Exec (series E S T x0) tr' s' ∧ Waited s' ∧ driven tr' = driven tr ∧ ∀ x', Holding s' E.length x' → g x <+: g x' := by
  obtain ⟨hT, hC⟩ := series_ok E S T x0 hn hcap
  have hlast : (series E S T x0).comp E.length = exporter (Exporter.perRecord S.enc) T S.buffer x0 S.start := by
    unfold series
    rw [Drain.chain_comp _ _ _ (by simp), List.getElem_append_right (by simp)]
    simp
  obtain ⟨f, f1, f2⟩ := grows_of_eq hlast g hg
  obtain ⟨tr', s', h1, h2, h3, h4⟩ := Drain.completes_growing hT hC (fun s => f (s.st E.length)) (Drain.growing_at (N := series E S T x0) E.length f f1) h
  obtain ⟨o, o1, o2⟩ := f2 (s.st E.length)
  refine ⟨o.1.tr, ⟨o, o1, rfl⟩, tr', s', h1, h2, h3, ?_⟩
  rintro x' ⟨o', p1, rfl⟩
  obtain ⟨o'', q1, q2⟩ := f2 (s'.st E.length)
  have : o'' = o' := eq_of_heq (q1.symm.trans p1)
  subst this
  rw [← o2, ← q2]
  exact h4

/-- What a row has come to is one thing. -/
theorem holding_unique {N : Net ResourceLogs} {s : Drain.St N} {j : Nat} {X : Type} {a b : X} (ha : Holding s j a) (hb : Holding s j b) : a = b := by
  obtain ⟨o, o1, rfl⟩ := ha
  obtain ⟨p, p1, rfl⟩ := hb
  have : o = p := eq_of_heq (o1.symm.trans p1)
  rw [this]

/-- The records a driver has sent are the first of those it is to send. -/
theorem driven_first {N : Net ResourceLogs} (hT : Drain.Tree N) (hC : ∀ i, i < N.n → Drain.Contract (N.comp i)) {prog : List (DAct ResourceLogs)} {tr : List (Drain.Obs ResourceLogs)} {s : PSt ResourceLogs N}
    (h : PExec id N prog tr s) : driven tr <+: sent prog := by
  obtain ⟨done, hI⟩ := pinv hT hC h
  rw [hI.sentOk, List.map_id, hI.split, sent_append]
  exact List.prefix_append _ _

/-! ## C114 -/

/-- **C114** At every moment of every run of a row, messages to Kafka: those handed to the producer are the first of a sequence complete for the records delivered so far. -/
theorem row_messages_at_every_moment (E : List (Setup P)) (S : Setup P) (dss : Setup P → P → List (List Decl)) (ok : ∀ e ∈ E, e.Ok (dss e)) (hf : ∀ e ∈ E, ∀ p, Setup.FiltersTagless (dss e) p)
    (hcap : 0 < S.cap) (tr : List (Drain.Obs ResourceLogs)) (s : Drain.St (series E S (Exporter.kafka (fun _ => true)) ([], 0))) (h : Exec (series E S (Exporter.kafka (fun _ => true)) ([], 0)) tr s)
    (hg : ∀ rl ∈ driven tr, Given rl) :
    ∃ (messages : List Bytes) (n : Nat), Holding s E.length (messages, n) ∧ ∃ (fin : List Way) (all : List Bytes), PassedAll dss E ((driven tr).map (fun rl => (rl, []))) fin ∧ MessagesOf S fin all ∧ messages <+: all := by
  obtain ⟨x, hx, tr', s', h1, h2, h3, h4⟩ := row_completes E S (Exporter.kafka (fun _ => true)) ([], 0) (fun x => x.1) (fun x ds => kafkaExport_grows _ ds x) (fun e he => (ok e he).workers) hcap h
  obtain ⟨fin, all, n, q1, q2, q3⟩ := engines_in_a_row_kafka E S dss ok hf hcap tr' s' h1 h2 (by rw [h3]; exact hg)
  rw [h3] at q1
  exact ⟨x.1, x.2, hx, fin, all, q1, q2, h4 _ q3⟩

/-- **C114** The same for a file: whatever is there if the process is stopped at that moment — any first part of what has been written — is the first part of a text complete for the records delivered
so far: its lines are the first of those messages, the last perhaps cut short. -/
theorem row_file_at_every_moment (E : List (Setup P)) (S : Setup P) (dss : Setup P → P → List (List Decl)) (ok : ∀ e ∈ E, e.Ok (dss e)) (hf : ∀ e ∈ E, ∀ p, Setup.FiltersTagless (dss e) p)
    (hcap : 0 < S.cap) (hline : ∀ rl b, S.encode rl = some b → Exporter.newline ∉ b) (tr : List (Drain.Obs ResourceLogs)) (s : Drain.St (series E S (Exporter.fileTransport (fun _ => none)) Exporter.newFile))
    (h : Exec (series E S (Exporter.fileTransport (fun _ => none)) Exporter.newFile) tr s) (hg : ∀ rl ∈ driven tr, Given rl) :
    ∃ f : Exporter.OutFile, Holding s E.length f ∧ ∃ (fin : List Way) (all : List Bytes), PassedAll dss E ((driven tr).map (fun rl => (rl, []))) fin ∧ MessagesOf S fin all ∧
      ∀ b, b <+: f.contents → b <+: all.flatMap (fun l => l ++ [Exporter.newline]) ∧ Exporter.linesOf [] b <+: all := by
  obtain ⟨f, hx, tr', s', h1, h2, h3, h4⟩ := row_completes E S (Exporter.fileTransport (fun _ => none)) Exporter.newFile (fun f => f.contents) (fun f ds => Whole.fileExport_grows _ ds f)
    (fun e he => (ok e he).workers) hcap h
  obtain ⟨fin, f', q1, q2, q3, q4⟩ := engines_in_a_row_file E S dss ok hf hcap hline tr' s' h1 h2 (by rw [h3]; exact hg)
  rw [h3] at q1
  refine ⟨f, hx, fin, _, q1, q2, fun b hb => ?_⟩
  have hbf := hb.trans (h4 _ q4)
  rw [← q3]
  exact ⟨hbf, Whole.linesOf_prefix hbf []⟩

/-- **C114** The process with the row and its driver, whatever the driver does (also if it stops with an error, leaves the channel open or is stopped): the file holds, at every moment, the beginning of a text
complete for some of the records the driver is to deliver, from the first one on. -/
theorem row_file_at_every_moment_of_process (E : List (Setup P)) (S : Setup P) (dss : Setup P → P → List (List Decl)) (ok : ∀ e ∈ E, e.Ok (dss e)) (hf : ∀ e ∈ E, ∀ p, Setup.FiltersTagless (dss e) p)
    (hcap : 0 < S.cap) (hline : ∀ rl b, S.encode rl = some b → Exporter.newline ∉ b) (prog : List (DAct ResourceLogs)) (hg : ∀ rl ∈ sent prog, Given rl)
    {tr : List (Drain.Obs ResourceLogs)} {s : PSt ResourceLogs (series E S (Exporter.fileTransport (fun _ => none)) Exporter.newFile)}
    (h : PExec id (series E S (Exporter.fileTransport (fun _ => none)) Exporter.newFile) prog tr s) :
    ∃ f : Exporter.OutFile, Holding s.net E.length f ∧ ∃ (rls : List ResourceLogs) (fin : List Way) (all : List Bytes), rls <+: sent prog ∧ PassedAll dss E (rls.map (fun rl => (rl, []))) fin ∧ MessagesOf S fin all ∧
      ∀ b, b <+: f.contents → b <+: all.flatMap (fun l => l ++ [Exporter.newline]) ∧ Exporter.linesOf [] b <+: all := by
  obtain ⟨hT, hC⟩ := series_ok E S (Exporter.fileTransport (fun _ => none)) Exporter.newFile (fun e he => (ok e he).workers) hcap
  have hp := driven_first hT hC h
  obtain ⟨done, hI⟩ := pinv hT hC h
  obtain ⟨f, h1, fin, all, h2, h3, h4⟩ := row_file_at_every_moment E S dss ok hf hcap hline tr s.net hI.net (fun rl hrl => hg rl (hp.subset hrl))
  exact ⟨f, h1, driven tr, fin, all, hp, h2, h3, h4⟩

/-! ### Example -/

/-- The two engines of the example in Whole/OtelRow.lean, run on a file with two copies of a record: whenever the process is stopped, the lines there are the first of the messages for some of the copies, each
with the rule noted twice; and the run can go on to its end. -/
example : ∃ code x,
    (∀ tr, ∀ s : PSt ResourceLogs (series ((otelWorld code).row [rowAt 0, rowAt 1] x (fun _ => ())) ((otelWorld code).setup (rowAt 2) x ()) (Exporter.fileTransport (fun _ => none)) Exporter.newFile),
      PExec id _ (oneFile (fun j _ => j) demoLogs (fun _ => true) [demoLogs, demoLogs]) tr s →
      ∃ f : Exporter.OutFile, Holding s.net 2 f ∧ ∃ n all, n ≤ 2 ∧ Exporter.linesOf [] f.contents <+: all ∧
        MessagesOf ((otelWorld code).setup (rowAt 2) x ()) (List.replicate n (demoLogs, [Falco.infoOf hostRule, Falco.infoOf hostRule])) all) ∧
    ∃ tr, ∃ s : PSt ResourceLogs (series ((otelWorld code).row [rowAt 0, rowAt 1] x (fun _ => ())) ((otelWorld code).setup (rowAt 2) x ()) (Exporter.fileTransport (fun _ => none)) Exporter.newFile),
      PExec id _ (oneFile (fun j _ => j) demoLogs (fun _ => true) [demoLogs, demoLogs]) tr s ∧ s.status = some false := by
  classical
  obtain ⟨code, ok⟩ := demoRun_ok 1 (by decide)
  obtain ⟨x, hr, ht, henc⟩ := row_ready code
  have hok : ∀ e ∈ [rowAt 0, rowAt 1], (otelWorld code).Ok e (fun _ => [[.rule hostRule]]) := fun e he =>
    ⟨ok.str, ok.texts, ok.acyclic, ok.foreign, ok.code, ok.actions, ok.order, (hr.engines e he).2.2⟩
  have hff : ∀ p : Unit, Setup.FiltersForeign (fun _ => [[.rule hostRule]]) p := fun p y hy => by
    rw [show (sites [[Decl.rule hostRule]]).filterMap asFilter = [] from rfl] at hy
    cases hy
  have hline : ∀ rl t, (otelWorld code).encode x rl = some t → Exporter.newline ∉ t := by
    intro rl t h
    unfold World.encode at h
    rw [henc] at h
    exact demo_line 1 code rl t h
  have hk := row_ok (otelWorld code) (x := x) (pol := fun _ => ()) hok
  obtain ⟨body, ho, hb, -⟩ := one_file (fun (j _ : ResourceLogs) => j) demoLogs (fun _ => true) [demoLogs, demoLogs]
  refine ⟨code, x, ?_, ?_⟩
  · intro tr s h
    have hs : sent (oneFile (fun (j _ : ResourceLogs) => j) demoLogs (fun _ => true) [demoLogs, demoLogs]) <+: [demoLogs, demoLogs] := hb
    obtain ⟨f, f1, rls, fin, all, p1, p2, p3, p4⟩ := row_file_at_every_moment_of_process ((otelWorld code).row [rowAt 0, rowAt 1] x (fun _ => ())) ((otelWorld code).setup (rowAt 2) x ())
      (fun _ _ => [[.rule hostRule]]) hk (fun _ _ p y hy k hk => (hff p y hy k hk).2) (show 0 < 100000 by decide) hline _ (by
        intro rl hrl
        have : rl = demoLogs := by simpa using hs.subset hrl
        subst this; exact ⟨demo_whole, demo_fresh⟩) h
    obtain ⟨hp, -⟩ := engines_in_a_row_fixed (fun _ _ => [[.rule hostRule]]) (fun _ => [[.rule hostRule]]) _ (fun _ _ _ => rfl) (fun _ _ => hff) _ _ p2
    have hn : ∃ n, n ≤ 2 ∧ rls = List.replicate n demoLogs := by
      have e := (List.prefix_iff_eq_take.1 (p1.trans hs))
      have hl := (p1.trans hs).length_le
      refine ⟨rls.length, hl, ?_⟩
      rw [List.eq_replicate_iff]
      exact ⟨rfl, fun y hy => by simpa using (p1.trans hs).subset hy⟩
    obtain ⟨n, hn, rfl⟩ := hn
    have hwant : ∀ e ∈ (otelWorld code).row [rowAt 0, rowAt 1] x (fun _ => ()), Wanted e [[.rule hostRule]] demoLogs ∧ applicable e.L demoLogs [[.rule hostRule]] = [Falco.infoOf hostRule] := by
      intro e he
      obtain ⟨w1, w2⟩ := demo_wanted 1 code
      obtain ⟨c, -, rfl⟩ := List.mem_map.1 he
      exact ⟨⟨w1.1, .inr (by rw [show ((otelWorld code).setup c x ()).L = Otel.demoLib from rfl, w2]; simp)⟩, w2⟩
    have e2 : ((otelWorld code).row [rowAt 0, rowAt 1] x (fun _ => ())).flatMap (fun e => applicable e.L demoLogs [[.rule hostRule]]) = [Falco.infoOf hostRule, Falco.infoOf hostRule] := by
      unfold World.row at hwant ⊢
      rw [List.map_cons, List.map_cons, List.map_nil] at hwant ⊢
      rw [List.flatMap_cons, List.flatMap_cons, List.flatMap_nil, (hwant _ List.mem_cons_self).2, (hwant _ (List.mem_cons_of_mem _ List.mem_cons_self)).2]
      rfl
    have hfin : fin = List.replicate n (demoLogs, [Falco.infoOf hostRule, Falco.infoOf hostRule]) := by
      rw [← List.perm_replicate]
      refine hp.trans (.of_eq ?_)
      have h0 : (∀ e ∈ (otelWorld code).row [rowAt 0, rowAt 1] x (fun _ => ()), Wanted e [[.rule hostRule]] demoLogs) := fun e he => (hwant e he).1
      rw [List.filter_eq_self.2 (fun rl hrl => by rw [(List.mem_replicate.1 hrl).2]; exact decide_eq_true h0), List.map_replicate, e2]
    rw [hfin] at p3
    exact ⟨f, f1, n, all, hn, (p4 _ List.prefix_rfl).2, p3⟩
  · obtain ⟨hT, hC⟩ := series_ok ((otelWorld code).row [rowAt 0, rowAt 1] x (fun _ => ())) ((otelWorld code).setup (rowAt 2) x ()) (Exporter.fileTransport (fun _ => none)) Exporter.newFile
      (fun s hs => (hk s hs).workers) (show 0 < 100000 by decide)
    exact complete_run hT hC ho id

end Verif.OtelRun
