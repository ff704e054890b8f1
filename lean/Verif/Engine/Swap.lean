import Verif.Engine.PoolSpec
/-
Model of the policy engine plugin's main loop with run-time policy replacement, running on top of
the worker-pool machine.
Sources: /repo/core/policyengine/policyengine.go:119-169 (Process), 221-234 (Cleanup);
/repo/core/policyengine/monitor/localpolicymonitor.go:201-231 (interpreter channel).
-/
namespace Verif.Engine.Swap
open Verif.Engine

/-- Where the `Process` goroutine is: waiting for input (policyengine.go:136); holding a record
before the policy check (:141); inside `s.pi.StopWorkers()` with the interpreter taken from the
monitor's channel (:149); about to hand the record to the worker pool (:163); input closed, not yet
in Cleanup; in Cleanup's `StopWorkers` (:224); finished. -/
inductive Phase (P R : Type u) where
  | recv
  | check (r : R)
  | stopping (r : R) (p : P)
  | submit (r : R)
  | eof
  | cleanup
  | finished

/-- State of the plugin: current policy set and its worker pool, phase, interpreters queued in the
monitor's channel (oldest first), expiration time of the current interval. -/
structure St (P R : Type u) where
  pol : P
  pool : Pool.St R
  phase : Phase P R
  pending : List P
  expiration : Int

/-- Observations: a record was taken from the input; a policy check happened at time `t`; a
policy set was adopted; the monitor queued a new policy set; the pool running policy set `p` did something; shutdown completed. -/
inductive Obs (P R : Type u) where
  | input (r : R)
  | checked (t : Int)
  | adopted (p : P)
  | pool (p : P) (o : Pool.Obs R)
  | queued (p : P)
  | finished

/-- Scheduler / environment choices. `clock t` is the reading of `time.Now()` at :142; `push p` is
the monitor queueing a freshly compiled interpreter. -/
inductive Label (P R : Type u) where
  | input (r : R)
  | close
  | clock (t : Int)
  | stopReturn
  | submit
  | worker (l : Pool.Label R)
  | push (p : P)
  | cleanup
  | cleanupReturn

/-- Configuration: what a policy set makes of a record, number of output channels, concurrency,
whether a monitor is configured, monitor interval. -/
structure Cfg (P R : Type u) where
  proc : P → R → Option R
  nOut : Nat
  n : Nat
  monitor : Bool
  interval : Int

/-- `Process` starting with policy set `p` at time `start` (policyengine.go:131-132), after Init has
started the workers (:99, :109). -/
def init {P R : Type u} (cfg : Cfg P R) (p : P) (start : Int) (pending : List P) : St P R :=
  { pol := p, pool := Pool.init R cfg.n, phase := .recv, pending := pending, expiration := start + cfg.interval }

/-- One atomic step. -/
def step {P R : Type u} (cfg : Cfg P R) (s : St P R) : Label P R → Option (St P R × List (Obs P R))
  -- policyengine.go:136
  | .input r =>
    match s.phase with
    | .recv => some ({ s with phase := .check r }, [.input r])
    | _ => none
  -- :164-166
  | .close =>
    match s.phase with
    | .recv => some ({ s with phase := .eof }, [])
    | _ => none
  -- :141-156
  | .clock t =>
    match s.phase with
    | .check r =>
      if cfg.monitor then
        if s.expiration < t then
          match s.pending with
          | p :: ps =>
            -- StopWorkers closes the old pool's channel (interpreter.go:110)
            some ({ s with phase := .stopping r p, pending := ps, expiration := t + cfg.interval,
                           pool := { s.pool with closed := true } }, [.checked t, .pool s.pol .closing])
          | [] => some ({ s with phase := .submit r, expiration := t + cfg.interval }, [.checked t])
        else some ({ s with phase := .submit r }, [])
      else some ({ s with phase := .submit r }, [])
    | _ => none
  -- :149-151: wg.Wait returned; start the new pool, switch
  | .stopReturn =>
    match s.phase with
    | .stopping r p =>
      if s.pool.closed = true ∧ s.pool.workers.all Pool.W.isDone = true then
        some ({ s with pol := p, pool := Pool.init R cfg.n, phase := .submit r }, [.adopted p])
      else none
    | _ => none
  -- :163
  | .submit =>
    match s.phase with
    | .submit r =>
      match Pool.step (cfg.proc s.pol) cfg.nOut cfg.n s.pool (.submit r) with
      | some (pool', os) => some ({ s with pool := pool', phase := .recv }, os.map (.pool s.pol))
      | none => none
    | _ => none
  -- worker goroutines run at any time
  | .worker l =>
    match l with
    | .submit _ => none
    | .close => none
    | l =>
      match Pool.step (cfg.proc s.pol) cfg.nOut cfg.n s.pool l with
      | some (pool', os) => some ({ s with pool := pool' }, os.map (.pool s.pol))
      | none => none
  -- localpolicymonitor.go:222-228 (room for ten; a full channel discards, which is no step here)
  | .push p => if s.pending.length < 10 then some ({ s with pending := s.pending ++ [p] }, [.queued p]) else none
  -- :223-225
  | .cleanup =>
    match s.phase with
    | .eof => some ({ s with phase := .cleanup, pool := { s.pool with closed := true } }, [.pool s.pol .closing])
    | _ => none
  | .cleanupReturn =>
    match s.phase with
    | .cleanup =>
      if s.pool.workers.all Pool.W.isDone = true then
        some ({ s with phase := .finished }, [.finished])
      else none
    | _ => none

/-- Executions of the plugin. -/
abbrev Exec {P R : Type u} (cfg : Cfg P R) (p : P) (start : Int) (pending : List P) :=
  Machine.Exec (step cfg) (init cfg p start pending)

end Verif.Engine.Swap
