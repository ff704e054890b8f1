import Verif.Whole.FileRun
import Verif.Processor.Returns
/-
C90: the whole program on streams in which parents are older than their children. (`S.fuel` bounds the depth of the ancestry walk in the model, tables.go:141-150; that it is at least the
number of records is no restriction of the program: by `Processor.run_same` the value makes no difference to the result.)
Sources: /repo/core/cache/tables.go:129-150, /repo/driver/pipeline/pipeline.go, /repo/driver/sysflow/filedriver.go
-/
namespace Verif.Whole
open Verif.Decimal (Str)
open Verif.SysFlow
open Verif.Processor (Rec OlderParents reader_returns older_parents_not_stuck saneStream)
open Verif.Pipeline
open Verif.Pipeline.Drain
open Verif.Pipeline.Process
open Verif.Falco (Decl)

variable {P : Type}

/-- **C90** Run on a list of SysFlow files in which parents are older than their children, without a stop request, the program returns without error having logged exactly what the policies
say about all records — nothing needs to be assumed about the reader's recursion. -/
theorem sane_file_run (S : Setup P) (dss : P → List (List Decl)) (ok : S.Ok dss) (fs : List (FileData Rec))
    (hopen : ∀ f ∈ fs, f ≠ .noOpen) (hold : OlderParents (recordsIn fs)) (hfuel : (recordsIn fs).length ≤ S.fuel)
    {tr : List (Drain.Obs Msg)} {s : PSt Rec S.net} (hx : PExec Msg.sf S.net (fileDriver (fun _ => true) (some fs)) tr s) {e : Bool} (he : s.status = some e) :
    e = false ∧ LogComplete S dss (recordsIn fs) (S.log s.net) := by
  obtain ⟨r, hr⟩ := reader_returns _ (older_parents_not_stuck _ hold) S.fuel hfuel
  obtain ⟨h1, rs, -, h2, h3⟩ := file_run S dss ok (fun _ => true) (fun _ h => by cases h) fs hopen ⟨r, hr⟩ hx he
  rw [h2 fun _ => rfl] at h3
  exact ⟨h1, h3⟩

/-- The hypotheses are met by a stream of seven records in one file, any number of workers, and a run to the end. -/
example (n : Nat) (hn : 0 < n) : ∃ code tr, ∃ s : PSt Rec (demoSetup n code).net, PExec Msg.sf (demoSetup n code).net (fileDriver (fun _ => true) (some [.data (saneStream.map .record)])) tr s ∧
    s.status = some false ∧ LogComplete (demoSetup n code) (fun _ => [lsDecls]) saneStream ((demoSetup n code).log s.net) := by
  obtain ⟨code, ok⟩ := demo_ok n hn
  obtain ⟨hT, hC⟩ := net_ok (demoSetup n code) ok.workers ok.cap
  have hopen : ∀ f ∈ [FileData.data (saneStream.map .record)], f ≠ .noOpen := by
    intro f hf
    rw [List.mem_singleton.1 hf]; intro h; cases h
  obtain ⟨body, h1, h2, _⟩ := file_driver_delivers (fun _ => true) (fun _ h => h) _ hopen
  obtain ⟨tr, s, hx, he⟩ := complete_run hT hC ⟨h1, h2⟩ Msg.sf
  have hold : OlderParents (recordsIn [FileData.data (saneStream.map .record)]) := by
    change OlderParents saneStream
    exact Processor.sane_older
  have := sane_file_run (demoSetup n code) _ ok _ hopen hold (by change 7 ≤ 10; decide) hx he
  exact ⟨code, tr, s, hx, he, this.2⟩

end Verif.Whole
