import Verif.Whole.Example
import Verif.Whole.Typing
import Verif.Whole.Corollaries
import Verif.Whole.Bypass
/-
C76, C86, C96: theorems about the whole program applied to the sample program and the sample configuration.
Sources: those of Verif/Whole/Program.lean and Verif/Whole/Typing.lean
-/
namespace Verif.Whole
open Verif.Decimal (Str)
open Verif.FlatRecord
open Verif.Processor (Rec HCall demoStream demoPE)
open Verif.Flattener (fields eventsAfter)
open Verif.Pipeline
open Verif.Pipeline.Drain (driven Exec Waited)

/-- C76: the sample program with one worker: all its runs over the sample stream end with one and the same log. -/
example : ∃ code, (∃ tr s, Exec (demoSetup 1 code).net tr s ∧ Waited s ∧ driven tr = demoStream.map Msg.sf) ∧
    ∀ tr tr' s s', Exec (demoSetup 1 code).net tr s → Waited s → driven tr = demoStream.map Msg.sf → Exec (demoSetup 1 code).net tr' s' → Waited s' → driven tr' = demoStream.map Msg.sf →
      (demoSetup 1 code).log s = (demoSetup 1 code).log s' := by
  obtain ⟨code, ok⟩ := demo_ok 1 (by decide)
  obtain ⟨hT, hC⟩ := net_ok (demoSetup 1 code) ok.workers ok.cap
  have h : (Processor.run false 10 .init demoStream).isSome = true := by decide
  obtain ⟨⟨rd, cs⟩, h⟩ := Option.isSome_iff_exists.mp h
  refine ⟨code, Drain.complete_run_exists hT hC (demoStream.map Msg.sf) (show 9 ≤ 9 by decide), ?_⟩
  intro tr tr' s s' h1 h2 h3 h4 h5 h6
  exact (log_deterministic (demoSetup 1 code) _ ok (fun _ _ => rfl) demoStream rd cs h tr tr' s s' h1 h2 h3 h4 h5 h6).2 rfl

/-- The sample configuration is loaded. -/
theorem demo_loaded : ∃ l, loadStages (demoWorld ([], [])).env { regs := bootRegs } demoConfs = .done l ∧ l.stages.length = 3 := by
  have h : (match loadStages (demoWorld ([], [])).env { regs := bootRegs } demoConfs with | .done l => some l.stages.length | _ => none) = some 3 := by decide +kernel
  revert h
  generalize loadStages (demoWorld ([], [])).env { regs := bootRegs } demoConfs = o
  intro h
  match o, h with
  | .done l, h => exact ⟨l, rfl, Option.some.inj h⟩

theorem demo_plain : (demoWorld ([], [])).NoPlugins := ⟨fun _ => rfl, fun _ _ => rfl⟩

/-- C96: all its stages start: the exporter reads a channel of events. -/
example : ∃ l st, loadStages (demoWorld ([], [])).env { regs := bootRegs } demoConfs = .done l ∧ l.stages[2]? = some st ∧ startOf st.proc st.ins = .runs ∧ outsCrash st.proc st.outs = false := by
  obtain ⟨l, h, hn⟩ := demo_loaded
  have hst : l.stages[2]? = some l.stages[2] := List.getElem?_eq_getElem (by omega)
  refine ⟨l, l.stages[2], h, hst, ?_, ?_⟩
  · exact (stage_starts_iff _ demo_plain h (show demoConfs[2]? = some _ from rfl) hst (p := "exporter".toList) (by decide +kernel)).1.2 ⟨some "evt".toList, by decide +kernel, by decide +kernel⟩
  · cases hc : outsCrash l.stages[2].proc l.stages[2].outs with
    | false => rfl
    | true =>
      obtain ⟨t, ht, -⟩ := (outputs_crash_iff _ demo_plain h (show demoConfs[2]? = some _ from rfl) hst (p := "exporter".toList) (by decide +kernel)).1 hc
      rw [show writes "exporter".toList = none by decide +kernel] at ht
      cases ht

/-- C96: a driver that names a channel nobody else names feeds nobody; one whose `out` has three words is told of an error; the first one without an entry feeds the reader. -/
example : ∃ l, loadStages (demoWorld ([], [])).env { regs := bootRegs } demoConfs = .done l ∧
    (∃ d, (driverChannel l (some [(kOut, .str "sysflows sysflowchan".toList)])).2 = .ok d ∧ readerOf l d = none) ∧
    driverChannel l (some [(kOut, .str "a b c".toList)]) = (l, .err) ∧
    ∃ st d, l.stages[0]? = some st ∧ st.ins.head? = some d ∧ (driverChannel l none).2 = .ok d := by
  obtain ⟨l, h, -⟩ := demo_loaded
  refine ⟨l, h, ?_, ?_, ?_⟩
  · obtain ⟨d, h1, h2, -⟩ := driver_feeds_nobody _ h demo_plain (dc := [(kOut, .str "sysflows sysflowchan".toList)]) (s := "sysflows sysflowchan".toList) (n := "sysflows".toList)
      (by decide +kernel) (by decide +kernel) (by decide +kernel)
    exact ⟨d, h1, h2⟩
  · exact ((driver_reports _ h demo_plain (dc := [(kOut, .str "a b c".toList)])).2 "a b c".toList (by decide +kernel)).1 (by decide +kernel)
  · obtain ⟨st, d, h1, h2, h3, -⟩ := driver_feeds_root _ demo_plain (show loadStages (demoWorld ([], [])).env { regs := bootRegs } (demoConfs.head (by decide) :: demoConfs.tail) = .done l from h)
      (n := some "sysflow".toList) (ns := []) (by decide +kernel)
    rw [if_pos (by decide +kernel)] at h3
    exact ⟨st, d, h1, h2, h3⟩

end Verif.Whole
