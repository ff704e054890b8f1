import Verif.Whole.Example
import Verif.Pipeline.Process
/-
C78: the whole program run on SysFlow files or on a socket: it returns, and when it has returned without a stop request the log is
complete.
-/
namespace Verif.Whole
open Verif.Decimal (Str)
open Verif.Exporter (Bytes)
open Verif.FlatRecord
open Verif.Policy
open Verif.Falco
open Verif.Processor (Rec HCall demoStream demoPE)
open Verif.Flattener (FLib Known fields eventsAfter StoresEvent)
open Verif.Pipeline
open Verif.Pipeline.Process
open Verif.Pipeline.Drain (driven Exec Waited)

variable {P : Type}

/-! ### Specification -/

open Classical in
/-- The log is complete for the records `rs`: it is made of lines; the events of the stream fall into consecutive stretches, one for each
policy set in force, from the first one on; the lines of a stretch are one for each of its events that its policies want logged. -/
def LogComplete (S : Setup P) (dss : P → List (List Decl)) (rs : List Rec) (log : Bytes) : Prop :=
  ∃ ss : List (Stretch P), (∃ rest, ss.map Stretch.pol = S.policies :: rest) ∧
    ss.flatMap Stretch.events = eventsAfter [] rs ∧
    log = (ss.flatMap Stretch.lines).flatMap (fun l => l ++ [Exporter.newline]) ∧
    Exporter.linesOf [] log = ss.flatMap Stretch.lines ∧
    ∀ g ∈ ss, ∃ picked, List.Perm picked (g.events.filter (fun x => decide (Logged S (dss g.pol) x))) ∧
      (S.workers = 1 → picked = g.events.filter (fun x => decide (Logged S (dss g.pol) x))) ∧
      List.Forall₂ (LineFor S (dss g.pol)) picked g.lines

/-- The records in files that can be opened, in the order of the files, of each those before the first that cannot be read. -/
def recordsIn (fs : List (FileData Rec)) : List Rec := fs.flatMap (fun f => recordsOf (itemsOf f))

theorem run_prefix (b : Bool) (fuel : Nat) (xs ys : List Rec) : ∀ (s : Processor.State) (r : Processor.State × List HCall),
    Processor.run b fuel s (xs ++ ys) = some r → ∃ r', Processor.run b fuel s xs = some r' := by
  induction xs with
  | nil => intro s r _; exact ⟨_, rfl⟩
  | cons x xs ih =>
    intro s r h
    rw [List.cons_append, Processor.run] at h
    rw [Processor.run]
    split at h
    · cases h
    · rename_i s' cs hst
      cases hr : Processor.run b fuel s' (xs ++ ys) with
      | none => rw [hr] at h; cases h
      | some r' =>
        obtain ⟨r'', h''⟩ := ih s' r' hr
        exact ⟨_, by rw [h'']⟩

/-- An orderly driver. -/
theorem orderly_run (S : Setup P) (dss : P → List (List Decl)) (ok : S.Ok dss) {prog body : List (DAct Rec)} (ho : Orderly prog body)
    (h : ∃ r, Processor.run false S.fuel .init (sent prog) = some r) {tr : List (Drain.Obs Msg)} {s : PSt Rec S.net}
    (hx : PExec Msg.sf S.net prog tr s) {e : Bool} (he : s.status = some e) : e = false ∧ LogComplete S dss (sent prog) (S.log s.net) := by
  obtain ⟨hT, hC⟩ := net_ok S ok.workers ok.cap
  obtain ⟨h1, h2, h3, h4⟩ := run_returned hT hC ho hx he
  obtain ⟨⟨rd, cs⟩, hr⟩ := h
  exact ⟨h1, whole_program S dss ok _ rd cs hr tr s.net h2 h3 h4⟩

/-- **C78** The program on a list of SysFlow files that can all be opened, under every schedule: once `Run` has returned, it has returned no
error, and the log is complete for a prefix of the records of the files — for all of them if no stop was requested. -/
theorem file_run (S : Setup P) (dss : P → List (List Decl)) (ok : S.Ok dss) (run : Nat → Bool) (hrun : StaysStopped run) (fs : List (FileData Rec))
    (hopen : ∀ f ∈ fs, f ≠ .noOpen) (hret : ∃ r, Processor.run false S.fuel .init (recordsIn fs) = some r)
    {tr : List (Drain.Obs Msg)} {s : PSt Rec S.net} (hx : PExec Msg.sf S.net (fileDriver run (some fs)) tr s) {e : Bool} (he : s.status = some e) :
    e = false ∧ ∃ rs, rs <+: recordsIn fs ∧ ((∀ k, run k = true) → rs = recordsIn fs) ∧ LogComplete S dss rs (S.log s.net) := by
  obtain ⟨body, h1, h2, h3, _, _⟩ := file_driver_delivers run hrun fs hopen
  have ho : Orderly (fileDriver run (some fs)) body := ⟨h1, h2⟩
  have hs := sent_body ho
  obtain ⟨ys, hys⟩ := h3
  obtain ⟨r, hret⟩ := hret
  have hp : ∃ r', Processor.run false S.fuel .init (sent (fileDriver run (some fs))) = some r' := by
    rw [hs]
    refine run_prefix false S.fuel _ ys .init r ?_
    rw [hys]; exact hret
  obtain ⟨g1, g2⟩ := orderly_run S dss ok ho hp hx he
  refine ⟨g1, _, ?_, ?_, g2⟩
  · rw [hs]; exact ⟨ys, hys⟩
  · intro hall
    have : run = fun _ => true := funext hall
    subst this
    exact file_driver_all fs hopen

/-- **C78** It does return, unless the program is ignored forever while it can make a step. -/
theorem file_run_returns (S : Setup P) (dss : P → List (List Decl)) (ok : S.Ok dss) (run : Nat → Bool) (hrun : StaysStopped run) (fs : List (FileData Rec))
    (hopen : ∀ f ∈ fs, f ≠ .noOpen) {sch : Nat → PSt Rec S.net} {own : Nat → Bool} (hS : PSchedule Msg.sf S.net sch own)
    (h0 : sch 0 = PSt.start S.net (fileDriver run (some fs)))
    (hfair : ∀ k, (∃ os s', PStep Msg.sf S.net (sch k) true os s') → ∃ j, k ≤ j ∧ own j = true) : ∃ k, (sch k).status = some false := by
  obtain ⟨body, h1, h2, _, _, _⟩ := file_driver_delivers run hrun fs hopen
  obtain ⟨hT, hC⟩ := net_ok S ok.workers ok.cap
  exact run_returns hT hC ⟨h1, h2⟩ hS h0 hfair

/-- **C78** The same for the socket driver and the connections it accepts (from its `k`-th look at the stop flag on). -/
theorem stream_run (S : Setup P) (dss : P → List (List Decl)) (ok : S.Ok dss) (run : Nat → Bool) (hrun : StaysStopped run) (k : Nat)
    (conns : List (List (Pipeline.Msg Rec))) (hret : ∃ r, Processor.run false S.fuel .init (conns.flatMap connRecords) = some r)
    {tr : List (Drain.Obs Msg)} {s : PSt Rec S.net} (hx : PExec Msg.sf S.net (streamLoop run k conns) tr s) {e : Bool} (he : s.status = some e) :
    e = false ∧ ∃ rs, rs <+: conns.flatMap connRecords ∧ LogComplete S dss rs (S.log s.net) := by
  obtain ⟨body, h1, h2, h3, _, _⟩ := stream_driver_delivers run hrun k conns
  have ho : Orderly (streamLoop run k conns) body := ⟨h1, h2⟩
  have hs := sent_body ho
  obtain ⟨ys, hys⟩ := h3
  obtain ⟨r, hret⟩ := hret
  have hp : ∃ r', Processor.run false S.fuel .init (sent (streamLoop run k conns)) = some r' := by
    rw [hs]
    refine run_prefix false S.fuel _ ys .init r ?_
    rw [hys]; exact hret
  obtain ⟨g1, g2⟩ := orderly_run S dss ok ho hp hx he
  exact ⟨g1, _, by rw [hs]; exact ⟨ys, hys⟩, g2⟩

/-- The demo stream in two files, the second of which ends in garbage. -/
def demoFiles : List (FileData Rec) := [.data ((demoStream.take 3).map .record), .data ((demoStream.drop 3).map .record ++ [.bad])]

theorem demoFiles_records : recordsIn demoFiles = demoStream := rfl

open Classical in
/-- The program runs on these files to the end, with any number of workers, and the log is complete for the stream; the event of `demo_logged` is one of those
to be logged. -/
example (n : Nat) (hn : 0 < n) : ∃ code tr, ∃ s : PSt Rec (demoSetup n code).net, PExec Msg.sf (demoSetup n code).net (fileDriver (fun _ => true) (some demoFiles)) tr s ∧
    s.status = some false ∧ LogComplete (demoSetup n code) (fun _ => [lsDecls]) demoStream ((demoSetup n code).log s.net) ∧
    (demoStream.take 7, Rec.procEvt (demoPE 2)) ∈ (eventsAfter [] demoStream).filter (fun x => decide (Logged (demoSetup n code) [lsDecls] x)) := by
  obtain ⟨code, ok⟩ := demo_ok n hn
  obtain ⟨hT, hC⟩ := net_ok (demoSetup n code) ok.workers ok.cap
  have hopen : ∀ f ∈ demoFiles, f ≠ .noOpen := by
    intro f hf
    rcases List.mem_cons.1 hf with rfl | hf
    · intro h; cases h
    · rw [List.mem_singleton.1 hf]; intro h; cases h
  have hst : StaysStopped (fun _ => true) := fun _ h => h
  obtain ⟨body, h1, h2, _⟩ := file_driver_delivers (fun _ => true) hst demoFiles hopen
  obtain ⟨tr, s, hx, he⟩ := complete_run hT hC ⟨h1, h2⟩ Msg.sf
  have h : (Processor.run false 10 .init demoStream).isSome = true := by decide
  obtain ⟨-, rs, -, hall, hlog⟩ := file_run (demoSetup n code) _ ok (fun _ => true) hst demoFiles hopen
    (by rw [demoFiles_records]; exact Option.isSome_iff_exists.mp h) hx he
  have hrs : rs = demoStream := (hall (fun _ => rfl)).trans demoFiles_records
  subst hrs
  refine ⟨code, tr, s, hx, he, hlog, ?_⟩
  rw [List.mem_filter]
  exact ⟨List.mem_cons_of_mem _ List.mem_cons_self, by simpa using demo_logged _ rfl rfl⟩

end Verif.Whole
