import Verif.Whole.FileRun
import Verif.Pipeline.TraceDir
/-
C118, continued: the whole program of C78 on a directory of rotated trace files.
-/
namespace Verif.Whole
open Verif.Decimal (Str)
open Verif.Exporter (Bytes)
open Verif.FlatRecord
open Verif.Policy
open Verif.Falco
open Verif.Processor (Rec HCall demoStream demoPE)
open Verif.Flattener (FLib Known fields eventsAfter StoresEvent)
open Verif.Pipeline
open Verif.Pipeline.Process
open Verif.Pipeline.Drain (driven Exec Waited)

variable {P : Type}

/-- **C118** The program in the configuration of C76 on a directory of trace files whose names are a common base followed by their times, with the same number of digits: whenever it returns, it
returns without an error, and its log is complete for a prefix of the records of the files in the order of time, of each file those before the first that cannot be read; for all of
them if nobody asks it to stop. -/
theorem trace_directory_run (S : Setup P) (dss : P → List (List Decl)) (ok : S.Ok dss) (run : Nat → Bool) (hrun : StaysStopped run) (base : Str) (k : Nat)
    (ts : List (Nat × List (Item Rec))) (hne : ts ≠ []) (hk : ∀ t ∈ ts, 10 ^ k ≤ t.1 ∧ t.1 < 10 ^ (k + 1)) (ho : ts.Pairwise (fun a b => a.1 < b.1))
    (es : List (Str × List (Item Rec))) (hp : (ts.map (fun t => (base ++ Decimal.formatNat t.1, t.2))).Perm es)
    (hret : ∃ r, Processor.run false S.fuel .init (ts.flatMap (fun t => recordsOf t.2)) = some r) {prog : List (DAct Rec)} (hprog : fileDriverAt run (dirOf es) = some prog)
    {tr : List (Drain.Obs Msg)} {s : PSt Rec S.net} (hx : PExec Msg.sf S.net prog tr s) {e : Bool} (he : s.status = some e) :
    e = false ∧ ∃ rs, rs <+: ts.flatMap (fun t => recordsOf t.2) ∧ ((∀ i, run i = true) → rs = ts.flatMap (fun t => recordsOf t.2)) ∧ LogComplete S dss rs (S.log s.net) := by
  rw [rotated_dir_run run base k ts hne hk ho es hp] at hprog
  cases hprog
  have hrec : recordsIn (ts.map (fun t => FileData.data t.2)) = ts.flatMap (fun t => recordsOf t.2) := by
    unfold recordsIn
    rw [List.flatMap_map]
    rfl
  have := file_run S dss ok run hrun (ts.map (fun t => .data t.2)) (by intro f hf; obtain ⟨e, _, rfl⟩ := List.mem_map.1 hf; intro h; cases h) (by rw [hrec]; exact hret) hx he
  rw [hrec] at this
  exact this

/-- The demo stream in two rotated files, the newer of which comes first in the directory and ends in garbage; the program runs on them to the end, with any number of workers. -/
example (n : Nat) (hn : 0 < n) : ∃ code prog tr, ∃ s : PSt Rec (demoSetup n code).net,
    fileDriverAt (fun _ => true) (dirOf [("trace.1700000060".toList, (demoStream.drop 3).map .record ++ [.bad]), ("trace.1700000000".toList, (demoStream.take 3).map .record)]) = some prog ∧
    PExec Msg.sf (demoSetup n code).net prog tr s ∧ s.status = some false ∧ LogComplete (demoSetup n code) (fun _ => [lsDecls]) demoStream ((demoSetup n code).log s.net) := by
  obtain ⟨code, ok⟩ := demo_ok n hn
  obtain ⟨hT, hC⟩ := net_ok (demoSetup n code) ok.workers ok.cap
  have hst : StaysStopped (fun _ => true) := fun _ h => h
  let ts : List (Nat × List (Item Rec)) := [(1700000000, (demoStream.take 3).map .record), (1700000060, (demoStream.drop 3).map .record ++ [.bad])]
  have hk : ∀ t ∈ ts, 10 ^ 9 ≤ t.1 ∧ t.1 < 10 ^ (9 + 1) := by
    intro t ht
    rcases List.mem_cons.1 ht with rfl | ht
    · exact ⟨by decide, by decide⟩
    · rw [List.mem_singleton.1 ht]; exact ⟨by decide, by decide⟩
  have ho : ts.Pairwise (fun a b => a.1 < b.1) := by
    refine .cons (fun b hb => ?_) (.cons (fun b hb => (by cases hb)) .nil)
    rw [List.mem_singleton.1 hb]; decide
  have hp : (ts.map (fun t => ("trace.".toList ++ Decimal.formatNat t.1, t.2))).Perm
      [("trace.1700000060".toList, (demoStream.drop 3).map .record ++ [.bad]), ("trace.1700000000".toList, (demoStream.take 3).map .record)] := by
    have e1 : "trace.".toList ++ Decimal.formatNat 1700000000 = "trace.1700000000".toList := by decide +kernel
    have e2 : "trace.".toList ++ Decimal.formatNat 1700000060 = "trace.1700000060".toList := by decide +kernel
    show List.Perm [("trace.".toList ++ Decimal.formatNat 1700000000, _), ("trace.".toList ++ Decimal.formatNat 1700000060, _)] _
    rw [e1, e2]
    exact List.Perm.swap _ _ []
  have hprog := rotated_dir_run (fun _ => true) "trace.".toList 9 ts (by simp [ts]) hk ho _ hp
  obtain ⟨body, h1, h2, _⟩ := file_driver_delivers (fun _ => true) hst (ts.map (fun t => FileData.data t.2))
    (by intro f hf; obtain ⟨e, _, rfl⟩ := List.mem_map.1 hf; intro h; cases h)
  obtain ⟨tr, s, hx, he⟩ := complete_run hT hC ⟨h1, h2⟩ Msg.sf
  have h : (Processor.run false 10 .init demoStream).isSome = true := by decide
  have hf : ts.flatMap (fun t => recordsOf t.2) = demoStream := rfl
  obtain ⟨-, rs, -, hall, hlog⟩ := trace_directory_run (demoSetup n code) _ ok (fun _ => true) hst "trace.".toList 9 ts (by simp [ts]) hk ho _ hp
    (by rw [hf]; exact Option.isSome_iff_exists.mp h) hprog hx he
  obtain rfl := (hall (fun _ => rfl)).trans hf
  exact ⟨code, _, tr, s, hprog, hx, he, hlog⟩

end Verif.Whole
