import Verif.Pipeline.Reload
import Verif.Monitor.JointExamples
/-! C103: a run of a pipeline beside the policy monitor, with a change of policies. -/
namespace Verif.Pipeline.Reload
open Verif.Pipeline.Drain
open Verif.Monitor Verif.Engine

/-- Policy engine (first policies 1) and exporter. -/
def demoNet : Net Nat := chain ([engine Joint.demoCfg 1 0 []] ++ [exporter (Exporter.perRecord (fun r => some (Exporter.Datum.bytes [r.toUInt8]))) (Exporter.fileTransport (fun _ => none)) 5 Exporter.newFile 0]) 1

/-- Its policy engine. -/
def demoIn : EngineIn demoNet Joint.demoCfg 1 0 where
  i := 0
  st s := s
  lab l := l
  push p := .push p
  init := rfl
  step _ _ _ _ h := h
  pushes _ := rfl
  owns l h := by
    change Drain.isPush l = false at h
    cases l <;> first | rfl | cases h
  stage := (show 0 < 2 by decide)
  accepts s p h := by
    refine ⟨{ (show Swap.St Nat Nat from s) with pending := (show Swap.St Nat Nat from s).pending ++ [p] }, ?_, rfl⟩
    change Drain.engineStep Joint.demoCfg s (.push p) = _
    unfold Drain.engineStep Swap.step
    dsimp only
    rw [if_pos h]
    rfl

/-- States of its policy engine. -/
def demoState (ph : Swap.Phase Nat Nat) (pend : List Nat) (ex : Int) (closed : Bool) : (demoNet.comp 0).S :=
  (⟨1, { Pool.init Nat 1 with closed := closed }, ph, pend, ex⟩ : Swap.St Nat Nat)

theorem demoNet_ok : Tree demoNet ∧ ∀ i, i < demoNet.n → Contract (demoNet.comp i) := by
  constructor
  · refine chain_tree _ 1 (by decide) _ ?_ rfl
    intro C hC
    rw [List.mem_singleton.1 hC]; rfl
  · refine chain_contract _ 1 ?_
    intro C hC
    rcases List.mem_cons.1 hC with rfl | hC
    · exact engine_contract Joint.demoCfg (by decide) 1 0 []
    · rw [List.mem_singleton.1 hC]; exact exporter_contract _ _ 5 _ 0

/-- The directory changes from 1 to 2, the monitor compiles it; the driver sends a record and closes the channel; the engine checks at time 31 and adopts the new policies; the run ends. -/
example : ∃ tr mo y, Exec demoIn id Live.demoCompile (Live.one 1) tr mo y ∧ Waited y.1 ∧ driven tr = [7] ∧ y.2.dir = Live.one 2 ∧ Live.pushed mo = [2] ∧ y.2.chan = [] ∧
    ∃ tr1, Swap.Exec Joint.demoCfg 1 0 [] tr1 (show Swap.St Nat Nat from y.1.st 0) ∧ Swap.inputs tr1 = takes (acts 0 tr) ∧ Swap.adoptions tr1 = [2] := by
  have hls : ∀ l ∈ Live.before ++ Live.roundLabels, Joint.shared l = false := by
    intro l hl
    rcases List.mem_append.1 hl with hl | hl
    · simp [Live.before] at hl
      rcases hl with rfl | rfl | rfl <;> rfl
    · rcases List.mem_append.1 hl with hl | hl
      · rw [List.mem_singleton.1 hl]; rfl
      · rcases List.mem_append.1 hl with hl | hl
        · rw [List.eq_of_mem_replicate hl]; rfl
        · simp at hl
          rcases hl with rfl | rfl | rfl | rfl | rfl <;> rfl
  have e0 : Exec demoIn id Live.demoCompile (Live.one 1) [] [] (St.start demoNet, Live.init (Live.one 1)) := .nil
  obtain ⟨t1, s1, e1, n1, b1, c1, d1, -, q1⟩ := lift_run e0 rfl hls (Live.run_append Live.before_run Live.round_run)
  have hq1 : s1.st 0 = ({ Swap.init Joint.demoCfg 1 0 [] with pending := [2] } : Swap.St Nat Nat) := q1
  have e2 := lift e1 (.drive s1 7 n1 (by rw [c1]; rfl) (by rw [b1]; decide)) (fun k hk => by cases hk)
  obtain ⟨ms2, m2, e2, g2, p2⟩ := e2
  have e3 := lift e2 (.closeRoot _ n1 (by dsimp only; rw [c1]; rfl)) (fun k hk => by cases hk)
  obtain ⟨ms3, m3, e3, g3, p3⟩ := e3
  have hin : (demoNet.comp 0).step (s1.st 0) (Swap.Label.input 7) = some (demoState (.check 7) [2] 30 false, .take 7) := by rw [hq1]; rfl
  have e4 := lift e3 (.take (N := demoNet) _ 0 (Swap.Label.input 7) (demoState (.check 7) [2] 30 false) 7 [] n1 (show 0 < 2 by decide) hin
    (by dsimp only; rw [b1]; rfl)) (fun k hk => by cases hk; rfl)
  obtain ⟨ms4, m4, e4, g4, p4⟩ := e4
  have e5 := lift e4 (.tau (N := demoNet) _ 0 (Swap.Label.clock 31)
    (demoState (.stopping 7 2) [] 61 true) n1 (show 0 < 2 by decide)
    (by
      change (demoNet.comp 0).step (Function.update s1.st 0 (demoState (.check 7) [2] 30 false) 0) _ = _
      rw [Function.update_self]; rfl)) (fun k hk => by cases hk; rfl)
  obtain ⟨ms5, m5, e5, g5, p5⟩ := e5
  obtain ⟨hT, hC⟩ := demoNet_ok
  have hroot : rootClosed ((((([] ++ t1) ++ [Obs.driven 7]) ++ [Obs.rootClosed]) ++ [Obs.stage 0 (.take 7)]) ++ [Obs.stage 0 .tau]) = true := by
    simp only [rootClosed_append, root_root, Bool.or_true, Bool.true_or]
  obtain ⟨tr, ms6, y, e6, w6, d6, g6, p6⟩ := can_finish hT hC e5 hroot
  have hdir : y.2.dir = Live.one 2 := by rw [g6, g5, g4, g3, g2]; rfl
  have hpush : Live.pushed ([] ++ (Live.beforeObs ++ Live.roundObs)) = [2] := by
    have : Live.pushed Live.tenSeconds = [] := by
      unfold Live.pushed
      rw [List.filterMap_eq_nil_iff]
      intro o ho
      rw [Live.mem_many ho]
    rw [List.nil_append, Live.pushed_append]
    unfold Live.roundObs
    rw [Live.pushed_append, Live.pushed_append, this]
    rfl
  have hp5 : Live.pushed ([] ++ (Live.beforeObs ++ Live.roundObs) ++ ms2 ++ ms3 ++ ms4 ++ ms5) = [2] := by
    rw [Live.pushed_append, Live.pushed_append, Live.pushed_append, Live.pushed_append, p2, p3, p4, p5, hpush]
    rfl
  have hmo : Live.pushed ([] ++ (Live.beforeObs ++ Live.roundObs) ++ ms2 ++ ms3 ++ ms4 ++ ms5 ++ ms6) = [2] := by
    rw [Live.pushed_append, hp5, p6]
    rfl
  obtain ⟨k1, k2, tr1, k3, k4, -, k5⟩ := run_engine e6
  have hch : y.2.chan = [] := by
    obtain ⟨l1, l2, -⟩ := run_engine e5
    have hm5 : m5.chan = [] := by
      rw [show m5.chan = _ from l2]
      have : ∀ (f : (i : Nat) → (demoNet.comp i).S), (show Swap.St Nat Nat from Function.update f 0 (demoState (.stopping 7 2) [] 61 true) 0).pending = [] := by
        intro f
        rw [Function.update_self]; rfl
      exact this (Function.update s1.st 0 (demoState (.check 7) [2] 30 false))
    have a5 := (Live.in_order l1).1
    rw [show (_, m5).2.chan = _ from hm5, List.append_nil, hp5] at a5
    have a6 := (Live.in_order k1).1
    rw [hmo] at a6
    unfold Live.adopted at a5 a6
    rw [List.filterMap_append, a5, List.append_assoc] at a6
    have := List.append_cancel_left (a6.trans (List.append_nil [2]).symm)
    exact (List.append_eq_nil_iff.1 this).2
  refine ⟨tr, _, y, e6, w6, ?_, hdir, hmo, hch, tr1, k3, k4, ?_⟩
  · rw [d6]
    simp only [driven_append, d1, driven_driven, driven_root, driven_stage]
    rfl
  · have hdone : Swap.taken (show Swap.St Nat Nat from y.1.st 0).phase = [] := by
      have hw1 : Drain.phaseReturned (show Swap.St Nat Nat from y.1.st 0).phase = true := w6 0 (show 0 < 2 by decide)
      revert hw1
      generalize (show Swap.St Nat Nat from y.1.st 0).phase = ph
      cases ph <;> intro h <;> first | rfl | cases h
    rw [hmo, ← k2, hch, List.append_nil] at k5
    rw [show Swap.taken (demoIn.st (y.1.st demoIn.i)).phase = [] from hdone, List.append_nil] at k5
    exact k5

end Verif.Pipeline.Reload
