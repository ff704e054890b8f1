import Verif.Monitor.Joint
import Verif.Monitor.LiveExamples
/-! C100: a run of the policy monitor and the policy engine together. -/
namespace Verif.Monitor.Joint
open Verif.Monitor Verif.Engine

/-- One worker, one output, checks every 30. -/
def demoCfg : Swap.Cfg Nat Nat where
  proc := fun p r => some (r * 10 ^ p)
  nOut := 1
  n := 1
  monitor := true
  interval := 30

abbrev demoJ := step (B := Nat) (C := Nat) (P := Nat) (R := Nat) id Live.demoCompile demoCfg

/-- The monitor may run while the engine waits. -/
theorem mon_runs {m m' : Live.LSt Nat Nat Nat} {ls : List (Live.Label Nat)} {os : List (Live.Obs Nat Nat)} (hls : ∀ l ∈ ls, shared l = false) (h : Machine.run Live.demoStep m ls = some (m', os))
    (e : Swap.St Nat Nat) (he : e.pending = m.chan) :
    ∃ os', Machine.run demoJ ⟨m, e⟩ (ls.map .mon) = some (⟨m', { e with pending := m'.chan }⟩, os') ∧ monOf os' = os := by
  induction ls generalizing m e os with
  | nil => cases h; exact ⟨[], by rw [← he]; rfl, rfl⟩
  | cons l ls ih =>
    unfold Machine.run at h
    split at h
    · cases h
    · rename_i m1 os1 hs1
      split at h
      · cases h
      · rename_i m2 os2 hr
        cases h
        have hl := hls l List.mem_cons_self
        obtain ⟨c1, c2⟩ := live_pushed hl hs1
        obtain ⟨os3, h3, h4⟩ := ih (fun l h => hls l (List.mem_cons_of_mem _ h)) hr { e with pending := m1.chan } rfl
        have key : ∃ o, demoJ ⟨m, e⟩ (.mon l) = some (⟨m1, { e with pending := m1.chan }⟩, o) ∧ monOf o = os1 := by
          change ∃ o, step id Live.demoCompile demoCfg ⟨m, e⟩ (.mon l) = _ ∧ _
          unfold step
          dsimp only
          rw [hl, if_neg (by simp), show Live.step id Live.demoCompile m l = some (m1, os1) from hs1]
          dsimp only
          rcases c2 with c2 | ⟨hlt, p, c2⟩
          · rw [c2, List.append_nil] at c1
            rw [c2, c1, ← he]
            exact ⟨_, rfl, monOf_mon _⟩
          · have hp : Swap.step demoCfg e (.push p) = some ({ e with pending := e.pending ++ [p] }, [.queued p]) := by
              unfold Swap.step
              dsimp only
              rw [if_pos (by rw [he]; exact hlt)]
            rw [c2]
            dsimp only
            rw [hp]
            refine ⟨_, by rw [c1, c2, ← he], ?_⟩
            rw [monOf_append, monOf_mon, monOf_eng, List.append_nil]
        obtain ⟨o, k1, k2⟩ := key
        refine ⟨o ++ os3, ?_, by rw [monOf_append, k2, h4]⟩
        rw [List.map_cons]
        unfold Machine.run
        rw [k1]
        dsimp only
        rw [h3]

/-- The directory changes from 1 to 2, the monitor compiles it; then the engine, started with policies 1, checks at time 31 with record 7 in hand, its old worker ends, the new policies are adopted and take the
record: `directory_in_force` applies. -/
example : ∃ (tr : List (Obs Nat Nat Nat)) (s : JSt Nat Nat Nat Nat), Exec id Live.demoCompile demoCfg (Live.one 1) 1 0 tr s ∧ Live.Settled id Live.demoCompile s.mon ∧ s.mon.dir = Live.one 2 ∧
    s.eng.pending = [2] ∧ s.eng.pol = 1 ∧
    (∃ got room, Live.lastAttempt (monOf tr) = some (got, Live.demoCompile got, room) ∧ Live.ReadFrom (Live.one 2) got) ∧
    ∃ s', Machine.run demoJ s [.eng (.input 7), .eng (.clock 31), .eng (.worker (.exit 0)), .eng .stopReturn, .eng .submit] = some (s',
      [.eng (.input 7), .mon (.taken 2), .eng (.checked 31), .eng (.pool 1 .closing), .eng (.adopted 2)] ++ [.eng (.pool 2 (.accepted 7))]) := by
  have hr := Live.run_append Live.before_run Live.round_run
  have hls : ∀ l ∈ Live.before ++ Live.roundLabels, shared l = false := by
    intro l hl
    rcases List.mem_append.1 hl with hl | hl
    · simp [Live.before] at hl
      rcases hl with rfl | rfl | rfl <;> rfl
    · rcases List.mem_append.1 hl with hl | hl
      · rw [List.mem_singleton.1 hl]; rfl
      · rcases List.mem_append.1 hl with hl | hl
        · rw [List.eq_of_mem_replicate hl]; rfl
        · simp at hl
          rcases hl with rfl | rfl | rfl | rfl | rfl <;> rfl
  obtain ⟨os, h1, h2⟩ := mon_runs hls hr (Swap.init demoCfg 1 0 []) rfl
  have hx : Exec id Live.demoCompile demoCfg (Live.one 1) 1 0 os _ := Machine.exec_of_run h1
  have hrun : Live.Running (Live.quietState 2 [] .idle [("p.yaml".toList, 2)] [2]) := ⟨(fun h => by cases h), (fun h => by cases h)⟩
  have hset : Live.Settled id Live.demoCompile (Live.quietState 2 [] .idle [("p.yaml".toList, 2)] [2]) := (Live.settled_iff hrun).2 ⟨rfl, rfl⟩
  have hreg : Live.Regular Live.demoAge (monOf os) := by
    rw [h2]
    intro d d' es hm
    rcases List.mem_append.1 hm with hm | hm
    · exact Live.before_regular d d' es hm
    · rcases List.mem_append.1 hm with hm | hm
      · cases List.mem_singleton.1 hm
      · rcases List.mem_append.1 hm with hm | hm
        · cases Live.mem_many hm
        · simp at hm
  have ht : Live.Told (monOf os) := by
    rw [h2]
    exact ⟨Live.wrote, List.mem_append_right _ (List.mem_append_left _ (List.mem_singleton.2 rfl)), Live.p_yaml, .inr (.inl rfl)⟩
  obtain ⟨-, got, room, hla, hrf, -⟩ := directory_in_force hx (Live.one_plain 1) hreg Live.demoAge_inj (fun b b' h => h) hrun hset (Live.one_usable 2) ht
  refine ⟨os, _, hx, hset, rfl, rfl, rfl, ⟨got, room, hla, hrf⟩, _, rfl⟩

end Verif.Monitor.Joint
