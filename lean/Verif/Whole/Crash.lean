import Verif.Whole.FileRun
/-
C79: the log at every moment of a run: if the process is killed, crashes or exits with an error, the log file holds the beginning of a log that is
complete for the records sent so far.
-/
namespace Verif.Whole
open Verif.Decimal (Str)
open Verif.Exporter (Bytes)
open Verif.FlatRecord
open Verif.Policy
open Verif.Falco
open Verif.Processor (Rec HCall demoStream demoPE)
open Verif.Flattener (FLib Known fields eventsAfter StoresEvent)
open Verif.Pipeline
open Verif.Pipeline.Process
open Verif.Pipeline.Drain (driven rootClosed Exec Waited Step Schedule Net)

variable {P : Type}

/-! ### The log only grows -/

theorem fileExport_grows (os : Nat → Option Nat) (ds : List Exporter.Datum) : ∀ f : Exporter.OutFile, f.contents <+: (Exporter.fileExport os f ds).1.contents := by
  have w : ∀ (f : Exporter.OutFile) (b : Bytes), f.contents <+: (f.write os b).1.contents := by
    intro f b
    unfold Exporter.OutFile.write
    split
    · exact ⟨b, rfl⟩
    · exact ⟨_, rfl⟩
  induction ds with
  | nil => intro f; exact ⟨[], List.append_nil _⟩
  | cons d ds ih =>
    intro f
    cases d with
    | odd p =>
      unfold Exporter.fileExport
      dsimp only
      split
      · exact (w f _).trans (ih _)
      · exact w f _
    | bytes b =>
      unfold Exporter.fileExport
      dsimp only
      split
      · exact ((w f _).trans (w _ _)).trans (ih _)
      · exact w f _
    | obj j =>
      unfold Exporter.fileExport
      dsimp only
      split
      · exact ((w f _).trans (w _ _)).trans (ih _)
      · exact w f _

theorem process_grows {R : Type} (C : Exporter.Codec R Exporter.Datum) (os : Nat → Option Nat) (s : Exporter.State Exporter.OutFile R Exporter.Datum) :
    s.tr.contents <+: (Exporter.process C (Exporter.fileTransport os) s).tr.contents := by
  unfold Exporter.process
  split
  · exact List.prefix_rfl
  · split
    · exact fileExport_grows os _ _
    · exact List.prefix_rfl

theorem exporter_grows {R : Type} (C : Exporter.Codec R Exporter.Datum) (os : Nat → Option Nat) (eb : Int)
    (s : Exporter.State Exporter.OutFile R Exporter.Datum) (e : Exporter.Ev R) :
    s.tr.contents <+: (Exporter.step C (Exporter.fileTransport os) eb s e).tr.contents := by
  unfold Exporter.step
  split
  · cases e with
    | recv r after =>
      dsimp only
      split
      · exact process_grows C os { s with counter := s.counter + 1, recs := s.recs ++ [r] }
      · exact List.prefix_rfl
    | close =>
      dsimp only
      split
      · exact process_grows C os s
      · exact List.prefix_rfl
    | tick now after =>
      dsimp only
      split
      · exact process_grows C os s
      · exact List.prefix_rfl
  · exact List.prefix_rfl

theorem expStep_grows {R : Type} (C : Exporter.Codec R Exporter.Datum) (os : Nat → Option Nat) (eb : Int)
    (s t : Exporter.State Exporter.OutFile R Exporter.Datum × Bool) (l : Drain.ExpL R) (a : Drain.Act R)
    (h : Drain.expStep C (Exporter.fileTransport os) eb s l = some (t, a)) : s.1.tr.contents <+: t.1.tr.contents := by
  cases l <;> unfold Drain.expStep at h <;> dsimp only at h <;> split at h <;> cases h <;>
    first | exact exporter_grows C os eb _ _ | exact List.prefix_rfl

/-- A step never takes anything from the log. -/
theorem log_grows (S : Setup P) {s s' : Drain.St S.net} {l : Drain.Label S.net} {o : Drain.Obs Msg} (h : Step S.net s l o s') : S.log s <+: S.log s' := by
  have key : ∀ (i : Nat) (m : (S.net.comp i).L) (t : (S.net.comp i).S) (a : Drain.Act Msg) (buf : Nat → List Msg) (closed : Nat → Bool) (p : Bool),
      (S.net.comp i).step (s.st i) m = some (t, a) → S.log s <+: S.log ⟨Function.update s.st i t, buf, closed, p⟩ := by
    intro i m t a buf closed p hst
    by_cases hi : i = 2
    · subst hi
      unfold Setup.log
      dsimp only
      rw [Function.update_self]
      exact expStep_grows _ _ _ _ _ _ _ hst
    · unfold Setup.log
      dsimp only
      rw [Function.update_of_ne (fun h => hi h.symm)]
  cases h with
  | drive => exact List.prefix_rfl
  | closeRoot => exact List.prefix_rfl
  | tau i m t hp hi hst => exact key i m t _ _ _ _ hst
  | take i m t r q hp hi hst => exact key i m t _ _ _ _ hst
  | eof i m t hp hi hst => exact key i m t _ _ _ _ hst
  | send i m t k r hp hi hst => exact key i m t _ _ _ _ hst
  | sendPanic => exact List.prefix_rfl
  | close i m t c hp hi hst => exact key i m t _ _ _ _ hst
  | closePanic => exact List.prefix_rfl

theorem schedule_grows (S : Setup P) {run : Nat → Drain.St S.net} {own : Nat → Bool} (hS : Schedule S.net run own) (k : Nat) : S.log (run 0) <+: S.log (run k) := by
  induction k with
  | zero => exact List.prefix_rfl
  | succ k ih =>
    refine ih.trans ?_
    cases ho : own k with
    | true => obtain ⟨l, o, hs, _⟩ := hS.yes k ho; exact log_grows S hs
    | false =>
      rcases hS.no k ho with e | ⟨l, o, hs, _⟩
      · rw [e]
      · exact log_grows S hs

/-- The lines of the beginning of a text are the first lines of the text. -/
theorem linesOf_prefix {a b : Bytes} (h : a <+: b) : ∀ cur, Exporter.linesOf cur a <+: Exporter.linesOf cur b := by
  obtain ⟨c, rfl⟩ := h
  induction a with
  | nil => intro cur; exact List.nil_prefix
  | cons x a ih =>
    intro cur
    rw [List.cons_append]
    unfold Exporter.linesOf
    split
    · exact List.cons_prefix_cons.2 ⟨rfl, ih []⟩
    · exact ih _

/-- Every moment of a run can be continued, without another record, to one where `Wait` returns. -/
theorem completes (S : Setup P) (dss : P → List (List Decl)) (ok : S.Ok dss) {tr : List (Drain.Obs Msg)} {s : Drain.St S.net} (h : Exec S.net tr s) :
    ∃ tr' s', Exec S.net tr' s' ∧ Waited s' ∧ driven tr' = driven tr ∧ S.log s <+: S.log s' := by
  obtain ⟨hT, hC⟩ := net_ok S ok.workers ok.cap
  have closed : ∀ {tr : List (Drain.Obs Msg)} {s : Drain.St S.net}, Exec S.net tr s → rootClosed tr = true →
      ∃ tr' s', Exec S.net tr' s' ∧ Waited s' ∧ driven tr' = driven tr ∧ S.log s <+: S.log s' := by
    intro tr s h hr
    obtain ⟨hS, hf⟩ := Drain.fair_schedule_exists S.net s
    obtain ⟨k, hw, _⟩ := Drain.wait_returns hT hC hS (tr := tr) h hr hf
    obtain ⟨tr', h', _, hd⟩ := Drain.schedule_driven hT hC hS (tr := tr) h hr k
    exact ⟨tr', _, h', hw, hd, schedule_grows S hS k⟩
  cases hr : rootClosed tr with
  | true => exact closed h hr
  | false =>
    have hI := Drain.inv_exec hT hC h
    have hst : Step S.net s .closeRoot .rootClosed _ := .closeRoot s hI.ok (by rw [hI.closed0]; exact hr)
    obtain ⟨tr', s', h1, h2, h3, h4⟩ := closed (.snoc h hst) (by rw [Drain.rootClosed_append]; simp [rootClosed])
    refine ⟨tr', s', h1, h2, ?_, (log_grows S hst).trans h4⟩
    rw [h3, Drain.driven_append]
    simp [driven]

/-! ### C79 -/

/-- **C79** At every moment of every run on the records `rs` sent so far, also in the middle of writing to the file (`b`: what has reached the
file), the log is the beginning of a log complete for `rs`; its complete lines are the first lines of that. -/
theorem log_at_every_moment (S : Setup P) (dss : P → List (List Decl)) (ok : S.Ok dss) (rs : List Rec) (hret : ∃ r, Processor.run false S.fuel .init rs = some r)
    {tr : List (Drain.Obs Msg)} {s : Drain.St S.net} (h : Exec S.net tr s) (hd : driven tr = rs.map Msg.sf) (b : Bytes) (hb : b <+: S.log s) :
    ∃ full, LogComplete S dss rs full ∧ b <+: full ∧ Exporter.linesOf [] b <+: Exporter.linesOf [] full := by
  obtain ⟨tr', s', h1, h2, h3, h4⟩ := completes S dss ok h
  obtain ⟨⟨rd, cs⟩, hr⟩ := hret
  exact ⟨S.log s', whole_program S dss ok rs rd cs hr tr' s' h1 h2 (h3.trans hd), hb.trans h4, linesOf_prefix (hb.trans h4) []⟩

/-- **C79** The same for the process with its driver, whatever the driver does (also if it stops with an error and leaves the channel open). -/
theorem log_at_every_moment_of_process (S : Setup P) (dss : P → List (List Decl)) (ok : S.Ok dss) (prog : List (DAct Rec))
    (hret : ∃ r, Processor.run false S.fuel .init (sent prog) = some r)
    {tr : List (Drain.Obs Msg)} {s : PSt Rec S.net} (h : PExec Msg.sf S.net prog tr s) (b : Bytes) (hb : b <+: S.log s.net) :
    ∃ rs full, rs <+: sent prog ∧ driven tr = rs.map Msg.sf ∧ LogComplete S dss rs full ∧ b <+: full ∧ Exporter.linesOf [] b <+: Exporter.linesOf [] full := by
  obtain ⟨hT, hC⟩ := net_ok S ok.workers ok.cap
  obtain ⟨done, hI⟩ := pinv hT hC h
  have hp : sent prog = sent done ++ sent s.todo := by rw [← sent_append, ← hI.split]
  obtain ⟨r, hret⟩ := hret
  rw [hp] at hret
  obtain ⟨full, g1, g2, g3⟩ := log_at_every_moment S dss ok (sent done) (run_prefix false S.fuel _ _ .init r hret) hI.net hI.sentOk b hb
  exact ⟨_, full, ⟨_, hp.symm⟩, hI.sentOk, g1, g2, g3⟩

/-- The complete lines of a complete log: each is the line of one event of the stream; no two lines are for the same event. -/
theorem complete_log_lines (S : Setup P) (dss : P → List (List Decl)) (rs : List Rec) (full : Bytes) (h : LogComplete S dss rs full) :
    ∃ picked : List (Event × P), List.Forall₂ (fun x line => Logged S (dss x.2) x.1 ∧ LineFor S (dss x.2) x.1 line) picked (Exporter.linesOf [] full) ∧
      ∃ rest, List.Perm (picked.map (·.1) ++ rest) (eventsAfter [] rs) := by
  obtain ⟨ss, h0, he, h00, hl, hs⟩ := h
  clear h0 h00
  rw [hl, ← he]
  clear he hl
  induction ss with
  | nil => exact ⟨[], .nil, [], .refl _⟩
  | cons g ss ih =>
    obtain ⟨picked, p1, rest, p2⟩ := ih (fun g' hg' => hs g' (List.mem_cons_of_mem _ hg'))
    obtain ⟨pk, q1, q0, q2⟩ := hs g List.mem_cons_self
    clear q0
    have hlog : ∀ x ∈ pk, Logged S (dss g.pol) x := by
      intro x hx
      have := (q1.mem_iff.1 hx)
      simpa using (List.mem_filter.1 this).2
    refine ⟨pk.map (fun x => (x, g.pol)) ++ picked, ?_, ?_⟩
    · rw [List.flatMap_cons]
      refine forall₂_join ?_ p1
      clear q1
      generalize g.lines = ls at q2
      induction q2 with
      | nil => exact .nil
      | cons h1 _ ih2 => exact .cons ⟨hlog _ List.mem_cons_self, h1⟩ (ih2 (fun x hx => hlog x (List.mem_cons_of_mem _ hx)))
    · classical
      refine ⟨(g.events.filter (fun x => !decide (Logged S (dss g.pol) x))) ++ rest, ?_⟩
      rw [List.flatMap_cons, List.map_append, List.map_map]
      have hid : List.map ((fun x : Event × P => x.1) ∘ fun x => (x, g.pol)) pk = pk := by
        rw [show ((fun x : Event × P => x.1) ∘ fun x => (x, g.pol)) = id from rfl, List.map_id]
      rw [hid]
      have h1 : List.Perm (g.events.filter (fun x => decide (Logged S (dss g.pol) x)) ++ g.events.filter (fun x => !decide (Logged S (dss g.pol) x))) g.events :=
        List.filter_append_perm _ _
      have h2 : List.Perm ((pk ++ g.events.filter (fun x => !decide (Logged S (dss g.pol) x))) ++ (picked.map (·.1) ++ rest))
          (g.events ++ ss.flatMap Stretch.events) := by
        refine List.Perm.append ?_ p2
        refine List.Perm.trans ?_ h1
        refine List.Perm.append_right _ ?_
        convert q1
      refine List.Perm.trans ?_ h2
      rw [List.append_assoc, List.append_assoc]
      refine List.Perm.append_left _ ?_
      rw [← List.append_assoc, ← List.append_assoc]
      exact List.Perm.append_right _ List.perm_append_comm

/-- **C79** So what is in the file at any moment: its complete lines are each the line of one event sent so far that the policy set then in force wants logged, no two lines for the same
event. -/
theorem lines_at_every_moment (S : Setup P) (dss : P → List (List Decl)) (ok : S.Ok dss) (rs : List Rec) (hret : ∃ r, Processor.run false S.fuel .init rs = some r)
    {tr : List (Drain.Obs Msg)} {s : Drain.St S.net} (h : Exec S.net tr s) (hd : driven tr = rs.map Msg.sf) (b : Bytes) (hb : b <+: S.log s) :
    ∃ picked : List (Event × P), List.Forall₂ (fun x line => Logged S (dss x.2) x.1 ∧ LineFor S (dss x.2) x.1 line) picked (Exporter.linesOf [] b) ∧
      ∃ rest, List.Perm (picked.map (·.1) ++ rest) (eventsAfter [] rs) := by
  obtain ⟨full, g1, _, g3⟩ := log_at_every_moment S dss ok rs hret h hd b hb
  obtain ⟨picked, p1, rest, p2⟩ := complete_log_lines S dss rs full g1
  obtain ⟨more, hm⟩ := g3
  rw [← hm] at p1
  obtain ⟨a1, a2, rfl, f1, _⟩ := forall₂_append p1
  refine ⟨a1, f1, a2.map (·.1) ++ rest, ?_⟩
  rw [List.map_append, List.append_assoc] at p2
  exact p2

/-- A file driver that stops with an error after the first file: the log may be cut, but what is there is right. -/
example (n : Nat) (hn : 0 < n) : ∃ code, ∀ tr, ∀ s : PSt Rec (demoSetup n code).net,
    PExec Msg.sf (demoSetup n code).net (fileDriver (fun _ => true) (some [.data (demoStream.map .record), .noOpen])) tr s → ∀ b, b <+: (demoSetup n code).log s.net →
    ∃ rs full, rs <+: demoStream ∧ LogComplete (demoSetup n code) (fun _ => [lsDecls]) rs full ∧ b <+: full := by
  obtain ⟨code, ok⟩ := demo_ok n hn
  refine ⟨code, fun tr s h b hb => ?_⟩
  have hr : (Processor.run false 10 .init demoStream).isSome = true := by decide
  have hr' : ∃ r, Processor.run false (demoSetup n code).fuel .init (sent (fileDriver (fun _ => true) (some [.data (demoStream.map .record), .noOpen]))) = some r :=
    Option.isSome_iff_exists.mp hr
  obtain ⟨rs, full, h1, _, h2, h3, _⟩ := log_at_every_moment_of_process (demoSetup n code) _ ok _ hr' h b hb
  exact ⟨rs, full, h1, h2, h3⟩

end Verif.Whole
