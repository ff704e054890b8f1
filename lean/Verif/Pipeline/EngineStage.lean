import Verif.Pipeline.Stages
/-
C53: the policy engine meets the stage contract.
-/
namespace Verif.Pipeline.Drain
open Verif.Engine

variable {P R : Type}

theorem pool_sent {proc : R → Option R} {nOut n : Nat} {s s' : Pool.St R} {l : Pool.Label R} {os : List (Pool.Obs R)}
    (hs : Pool.step proc nOut n s l = some (s', os)) (hl : l.isWorker = true) :
    os = [] ∨ (∃ r, os = [.evaluated r]) ∨ ∃ (k : Nat) (r : R) (i : Nat), os = [.sent k r] ∧ s.workers[i]? = some (Pool.W.sending r k) := by
  cases l with
  | submit r => cases hl
  | close => cases hl
  | recv i =>
    simp only [Pool.step] at hs; split at hs
    · cases hs; exact .inl rfl
    · cases hs
  | eval i =>
    simp only [Pool.step] at hs; split at hs
    · split at hs
      · split at hs <;> (cases hs; exact .inr (.inl ⟨_, rfl⟩))
      · cases hs; exact .inr (.inl ⟨_, rfl⟩)
    · cases hs
  | send i =>
    simp only [Pool.step] at hs; split at hs
    · rename_i r k hw
      split at hs <;> (cases hs; exact .inr (.inr ⟨k, r, i, rfl, hw⟩))
    · cases hs
  | exit i =>
    simp only [Pool.step] at hs; split at hs
    · split at hs
      · cases hs; exact .inl rfl
      · cases hs
    · cases hs

/-- What a step of the engine can be. -/
inductive StepKind (cfg : Swap.Cfg P R) (s : Swap.St P R) : Swap.Label P R → Swap.St P R → List (Swap.Obs P R) → Prop where
  | input (r : R) : s.phase = .recv → StepKind cfg s (.input r) { s with phase := .check r } [.input r]
  | close : s.phase = .recv → StepKind cfg s .close { s with phase := .eof } []
  | swap (t : Int) (r : R) (p : P) (ps : List P) : s.phase = .check r → StepKind cfg s (.clock t) { s with phase := .stopping r p, pending := ps, expiration := t + cfg.interval, pool := { s.pool with closed := true } }
      [.checked t, .pool s.pol .closing]
  | noswap (t : Int) (r : R) (e : Int) (os : List (Swap.Obs P R)) : s.phase = .check r → (os = [] ∨ os = [.checked t]) →
      StepKind cfg s (.clock t) { s with phase := .submit r, expiration := e } os
  | stopReturn (r : R) (p : P) : s.phase = .stopping r p →
      StepKind cfg s .stopReturn { s with pol := p, pool := Pool.init R cfg.n, phase := .submit r } [.adopted p]
  | submit (r : R) (pool' : Pool.St R) : s.phase = .submit r →
      Pool.step (cfg.proc s.pol) cfg.nOut cfg.n s.pool (.submit r) = some (pool', [.accepted r]) →
      StepKind cfg s .submit { s with pool := pool', phase := .recv } [.pool s.pol (.accepted r)]
  | worker (l : Pool.Label R) (pool' : Pool.St R) (os : List (Pool.Obs R)) : l.isWorker = true →
      Pool.step (cfg.proc s.pol) cfg.nOut cfg.n s.pool l = some (pool', os) →
      StepKind cfg s (.worker l) { s with pool := pool' } (os.map (.pool s.pol))
  | push (p : P) : StepKind cfg s (.push p) { s with pending := s.pending ++ [p] } [.queued p]
  | cleanup : s.phase = .eof → StepKind cfg s .cleanup { s with phase := .cleanup, pool := { s.pool with closed := true } } [.pool s.pol .closing]
  | cleanupReturn : s.phase = .cleanup → StepKind cfg s .cleanupReturn { s with phase := .finished } [.finished]

theorem step_kind (cfg : Swap.Cfg P R) (s s' : Swap.St P R) (l : Swap.Label P R) (os : List (Swap.Obs P R))
    (h : Swap.step cfg s l = some (s', os)) : StepKind cfg s l s' os := by
  cases l with
  | input r =>
    simp only [Swap.step] at h; split at h
    · cases h; exact .input r ‹_›
    · cases h
  | close =>
    simp only [Swap.step] at h; split at h
    · cases h; exact .close ‹_›
    · cases h
  | clock t =>
    simp only [Swap.step] at h; split at h
    · rename_i r hp
      split at h
      · split at h
        · split at h
          · rename_i p ps hpend
            cases h
            exact .swap t r p ps hp
          · cases h; exact .noswap t r _ _ hp (.inr rfl)
        · cases h; exact .noswap t r s.expiration _ hp (.inl rfl)
      · cases h; exact .noswap t r s.expiration _ hp (.inl rfl)
    · cases h
  | stopReturn =>
    simp only [Swap.step] at h; split at h
    · split at h
      · cases h; exact .stopReturn _ _ ‹_›
      · cases h
    · cases h
  | submit =>
    simp only [Swap.step] at h; split at h
    · rename_i r hp
      split at h
      · rename_i pool' os' hps
        cases h
        have : os' = [.accepted r] := by
          simp only [Pool.step] at hps; split at hps
          · cases hps; rfl
          · cases hps
        subst this
        exact .submit r pool' hp hps
      · cases h
    · cases h
  | worker l =>
    simp only [Swap.step] at h; split at h
    · cases h
    · cases h
    · rename_i h1 h2
      split at h
      · rename_i pool' os' hps
        cases h
        refine .worker l pool' os' ?_ hps
        cases l <;> first | rfl | (exact absurd rfl (h1 _)) | (exact absurd rfl h2)
      · cases h
  | push p =>
    simp only [Swap.step] at h; split at h
    · cases h; exact .push p
    · cases h
  | cleanup =>
    simp only [Swap.step] at h; split at h
    · cases h; exact .cleanup ‹_›
    · cases h
  | cleanupReturn =>
    simp only [Swap.step] at h; split at h
    · split at h
      · cases h; exact .cleanupReturn ‹_›
      · cases h
    · cases h

theorem engineStep_some {cfg : Swap.Cfg P R} {s s' : Swap.St P R} {l : Swap.Label P R} {a : Act R}
    (h : engineStep cfg s l = some (s', a)) : ∃ os, Swap.step cfg s l = some (s', os) ∧ a = engineAct l os := by
  unfold engineStep at h
  split at h
  · rename_i s1 os he
    cases h; exact ⟨os, he, rfl⟩
  · cases h

/-- The act of a worker step. -/
theorem worker_act (p : P) (l : Pool.Label R) (os : List (Pool.Obs R))
    (h : os = [] ∨ (∃ r, os = [.evaluated r]) ∨ ∃ k r, os = [.sent k r]) :
    (engineAct (.worker l) (os.map (.pool p)) = .tau ∧ ∀ k, Pool.sends k os = []) ∨
    ∃ k r, os = [.sent k r] ∧ engineAct (.worker l) (os.map (.pool p)) = .send k r := by
  rcases h with rfl | ⟨r, rfl⟩ | ⟨k, r, rfl⟩
  · exact .inl ⟨rfl, fun _ => rfl⟩
  · exact .inl ⟨rfl, fun _ => rfl⟩
  · exact .inr ⟨k, r, rfl, rfl⟩

theorem delivered_append (k : Nat) (a b : List (Swap.Obs P R)) : Swap.delivered k (a ++ b) = Swap.delivered k a ++ Swap.delivered k b := by
  simp [Swap.delivered, Swap.poolEvents]

theorem inputs_append (a b : List (Swap.Obs P R)) : Swap.inputs (a ++ b) = Swap.inputs a ++ Swap.inputs b := by
  simp [Swap.inputs]

theorem inputs_pool (p : P) (os : List (Pool.Obs R)) : Swap.inputs (os.map (.pool p)) = [] := by
  simp [Swap.inputs]

theorem delivered_pool (k : Nat) (p : P) (os : List (Pool.Obs R)) : Swap.delivered k (os.map (.pool p)) = Pool.sends k os := by
  rw [Swap.delivered, (Swap.pool_map_proj p os).2.2.2.2, List.map_map]
  simp [Function.comp_def]

/-- A step of the engine stage takes and sends what the step of its machine does. -/
theorem engine_obs {cfg : Swap.Cfg P R} {s s' : Swap.St P R} {l : Swap.Label P R} {os : List (Swap.Obs P R)} (hst : Swap.step cfg s l = some (s', os)) :
    Swap.inputs os = takes [engineAct l os] ∧ ∀ k, Swap.delivered k os = sends k [engineAct l os] := by
  refine ⟨?_, fun k => ?_⟩
  · have hk := step_kind cfg s s' l os hst
    cases hk with
    | noswap t r e os hp ho => rcases ho with rfl | rfl <;> rfl
    | worker l pool' os hw hps =>
      rw [inputs_pool]
      rcases worker_act s.pol l os (by
        rcases pool_sent hps hw with h | h | ⟨k, r, i, h, _⟩
        · exact .inl h
        · exact .inr (.inl h)
        · exact .inr (.inr ⟨k, r, h⟩)) with ⟨e, _⟩ | ⟨k, r, _, e⟩ <;> rw [e] <;> rfl
    | _ => rfl
  · have hk := step_kind cfg s s' l os hst
    cases hk with
    | noswap t r e os hp ho => rcases ho with rfl | rfl <;> rfl
    | worker l pool' os hw hps =>
      rw [delivered_pool]
      rcases worker_act s.pol l os (by
        rcases pool_sent hps hw with h | h | ⟨k, r, i, h, _⟩
        · exact .inl h
        · exact .inr (.inl h)
        · exact .inr (.inr ⟨k, r, h⟩)) with ⟨e, e'⟩ | ⟨j, r, rfl, e⟩
      · rw [e, e' k]; rfl
      · rw [e]
        by_cases hjk : j = k <;> simp [sends, hjk]
    | _ => rfl

/-- A run of the engine stage is an execution of the engine's machine with the same inputs and deliveries. -/
theorem engine_run (cfg : Swap.Cfg P R) (p0 : P) (start : Int) (pending : List P) {tr : List (Act R)} {s : Swap.St P R}
    (h : (engine cfg p0 start pending).Run tr s) :
    ∃ tr', Swap.Exec cfg p0 start pending tr' s ∧ Swap.inputs tr' = takes tr ∧ ∀ k, Swap.delivered k tr' = sends k tr := by
  refine run_induct (C := engine cfg p0 start pending)
    (fun tr s => ∃ tr', Swap.Exec cfg p0 start pending tr' s ∧ Swap.inputs tr' = takes tr ∧ ∀ k, Swap.delivered k tr' = sends k tr) ?_ ?_ h
  · exact ⟨[], .nil, rfl, fun _ => rfl⟩
  · intro tr s l s' a ih hs
    obtain ⟨tr', hx, hi, hd⟩ := ih
    obtain ⟨os, hst, rfl⟩ := engineStep_some hs
    obtain ⟨h1, h2⟩ := engine_obs hst
    exact ⟨tr' ++ os, .snoc hx hst, by rw [inputs_append, takes_append, hi, h1], fun k => by rw [delivered_append, sends_append, hd k, h2 k]⟩

/-- Rank of a phase: how far the engine's goroutine is from waiting for input or being finished. -/
def phaseRank : Swap.Phase P R → Nat
  | .recv => 0
  | .check _ => 3
  | .stopping _ _ => 2
  | .submit _ => 1
  | .eof => 2
  | .cleanup => 1
  | .finished => 0

/-- Remaining work of the engine by itself. -/
def engineWork (cfg : Swap.Cfg P R) (s : Swap.St P R) : Nat :=
  Pool.work cfg.nOut s.pool + (cfg.n + cfg.nOut + 3) * phaseRank s.phase

theorem work_init (nOut n : Nat) : Pool.work nOut (Pool.init R n) = n := by
  simp [Pool.work, Pool.init, Pool.measureW]

theorem work_closed (nOut : Nat) (s : Pool.St R) (b : Bool) : Pool.work nOut { s with closed := b } = Pool.work nOut s := rfl

/-- With at least one worker, the policy engine meets the stage contract. -/
theorem engine_contract (cfg : Swap.Cfg P R) (hn : 0 < cfg.n) (p0 : P) (start : Int) (pending : List P) :
    Contract (engine cfg p0 start pending) where
  init := ⟨rfl, rfl⟩
  effect tr s l s' a h hs := by
    obtain ⟨os, hst, rfl⟩ := engineStep_some hs
    have hk := step_kind cfg s s' l os hst
    show phaseReturned s'.phase = (phaseReturned s.phase || _) ∧ phaseCleaned s'.phase = (phaseCleaned s.phase || _)
    cases hk with
    | worker l pool' os hw hps =>
      rcases worker_act s.pol l os (by
        rcases pool_sent hps hw with h | h | ⟨k, r, i, h, _⟩
        · exact .inl h
        · exact .inr (.inl h)
        · exact .inr (.inr ⟨k, r, h⟩)) with ⟨e, _⟩ | ⟨k, r, _, e⟩ <;> rw [e] <;> simp [Act.isEof, Act.isClose]
    | noswap t r e os hp ho =>
      rw [hp]
      simp [engineAct, Act.isEof, Act.isClose, phaseReturned, phaseCleaned]
    | _ => simp_all [engineAct, Act.isEof, Act.isClose, phaseReturned, phaseCleaned]
  input tr s l s' a h hs ha := by
    obtain ⟨os, hst, rfl⟩ := engineStep_some hs
    have hk := step_kind cfg s s' l os hst
    show phaseReturned s.phase = false
    cases hk with
    | worker l pool' os hw hps =>
      exfalso
      rcases worker_act s.pol l os (by
        rcases pool_sent hps hw with h | h | ⟨k, r, i, h, _⟩
        · exact .inl h
        · exact .inr (.inl h)
        · exact .inr (.inr ⟨k, r, h⟩)) with ⟨e, _⟩ | ⟨k, r, _, e⟩ <;> rw [e] at ha <;> cases ha
    | input r hp => rw [hp]; rfl
    | close hp => rw [hp]; rfl
    | _ => cases ha
  output tr s l s' k r h hs := by
    obtain ⟨os, hst, ha⟩ := engineStep_some hs
    obtain ⟨tr', hx, _, _⟩ := engine_run cfg p0 start pending h
    have hI := Swap.inv_exec hx
    have hk := step_kind cfg s s' l os hst
    show phaseCleaned s.phase = false ∧ k < cfg.nOut
    cases hk with
    | worker l pool' os hw hps =>
      rcases pool_sent hps hw with rfl | ⟨x, rfl⟩ | ⟨j, x, i, rfl, hi⟩
      · cases ha
      · cases ha
      · cases ha
        obtain ⟨old, cur, hpx, _⟩ := hI.main
        refine ⟨?_, (Pool.inv_exec hpx).idx r k (List.mem_of_getElem? hi)⟩
        cases hph : s.phase with
        | finished => exact (Swap.worker_stopped (hI.fin (by rw [hph]; trivial)) hps).elim
        | _ => rfl
    | noswap t r e os hp ho => cases ha
    | _ => cases ha
  closing tr s l s' h hs := by
    obtain ⟨os, hst, ha⟩ := engineStep_some hs
    have hk := step_kind cfg s s' l os hst
    show phaseReturned s.phase = true ∧ phaseCleaned s.phase = false
    cases hk with
    | worker l pool' os hw hps =>
      rcases pool_sent hps hw with rfl | ⟨x, rfl⟩ | ⟨j, x, i, rfl, hi⟩ <;> cases ha
    | cleanupReturn hp => rw [hp]; exact ⟨rfl, rfl⟩
    | _ => cases ha
  live tr s h hc := by
    obtain ⟨tr', hx, _, _⟩ := engine_run cfg p0 start pending h
    have hc' : phaseCleaned s.phase = false := hc
    by_cases hrecv : s.phase = .recv
    · refine .inr ⟨?_, fun r => ⟨.input r, { s with phase := .check r }, rfl, ?_⟩, .close, { s with phase := .eof }, rfl, ?_⟩
      · show phaseReturned s.phase = false
        rw [hrecv]; rfl
      · show engineStep cfg s (.input r) = _
        simp only [engineStep, Swap.step, hrecv, engineAct]; rfl
      · show engineStep cfg s .close = _
        simp only [engineStep, Swap.step, hrecv, engineAct]; rfl
    · left
      obtain ⟨l, s', os, hst, hpush⟩ := Swap.swap_no_deadlock cfg p0 start pending tr' s hx hn hrecv (by intro hf; rw [hf] at hc'; cases hc')
      refine ⟨l, s', engineAct l os, ?_, ?_, ?_⟩
      · show isPush l = false
        cases l <;> first | rfl | (exact absurd rfl (hpush _))
      · show engineStep cfg s l = _
        simp only [engineStep, hst]; rfl
      · have hk := step_kind cfg s s' l os hst
        cases hk with
        | worker l pool' os hw hps =>
          rcases pool_sent hps hw with rfl | ⟨x, rfl⟩ | ⟨j, x, i, rfl, hi⟩ <;> rfl
        | input r hp => exact absurd hp hrecv
        | close hp => exact absurd hp hrecv
        | _ => rfl
  finite := by
    refine ⟨engineWork cfg, fun tr s l s' a h hs => ?_⟩
    obtain ⟨os, hst, rfl⟩ := engineStep_some hs
    obtain ⟨tr', hx, _, _⟩ := engine_run cfg p0 start pending h
    have hI := Swap.inv_exec hx
    have hk := step_kind cfg s s' l os hst
    show (isPush l = true → engineWork cfg s' = engineWork cfg s ∧ _) ∧ (isPush l = false → _ → engineWork cfg s' < engineWork cfg s)
    cases hk with
    | push p => exact ⟨fun _ => ⟨rfl, rfl⟩, fun h => (by cases h)⟩
    | input r hp => exact ⟨fun h => (by cases h), fun _ h => (by cases h)⟩
    | close hp => exact ⟨fun h => (by cases h), fun _ h => (by cases h)⟩
    | worker l pool' os hw hps =>
      refine ⟨fun h => (by cases h), fun _ _ => ?_⟩
      obtain ⟨old, cur, hpx, _⟩ := hI.main
      have := Pool.work_decreases (Pool.inv_exec hpx) hw hps
      simp only [engineWork]
      omega
    | swap t r p ps hp =>
      refine ⟨fun h => (by cases h), fun _ _ => ?_⟩
      simp only [engineWork, hp, phaseRank, work_closed]
      omega
    | noswap t r e os hp ho =>
      refine ⟨fun h => (by cases h), fun _ _ => ?_⟩
      simp only [engineWork, hp, phaseRank]
      omega
    | stopReturn r p hp =>
      refine ⟨fun h => (by cases h), fun _ _ => ?_⟩
      simp only [engineWork, hp, phaseRank, work_init]
      omega
    | submit r pool' hp hps =>
      refine ⟨fun h => (by cases h), fun _ _ => ?_⟩
      have : Pool.work cfg.nOut pool' = Pool.work cfg.nOut s.pool + (cfg.nOut + 2) := by
        simp only [Pool.step] at hps
        split at hps
        · cases hps
          simp only [Pool.work, List.length_append, List.length_cons, List.length_nil, Nat.mul_add]
          omega
        · cases hps
      simp only [engineWork, hp, phaseRank, this]
      omega
    | cleanup hp =>
      refine ⟨fun h => (by cases h), fun _ _ => ?_⟩
      simp only [engineWork, hp, phaseRank, work_closed]
      omega
    | cleanupReturn hp =>
      refine ⟨fun h => (by cases h), fun _ _ => ?_⟩
      simp only [engineWork, hp, phaseRank]
      omega

end Verif.Pipeline.Drain
