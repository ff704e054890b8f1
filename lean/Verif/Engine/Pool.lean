import Verif.Base.Machine
/-
Model of the interpreter's worker pool as a labelled state machine.
Sources: /repo/core/policyengine/engine/interpreter.go:96-184,
/repo/core/policyengine/policyengine.go:206-211 (the `out` callback).
-/
namespace Verif.Engine.Pool

/-- Program counter of one `worker` goroutine (engine/interpreter.go:145-184): blocked on or about
to receive; holding a received record; in `out` (policyengine.go:207-211) about to send record `r`
on output channel `k`; terminated (`wg.Done` executed). -/
inductive W (R : Type u) where
  | idle
  | busy (r : R)
  | sending (r : R) (k : Nat)
  | done
deriving DecidableEq, Repr

/-- Whether a worker has executed `wg.Done` (engine/interpreter.go:183). -/
def W.isDone {R : Type u} : W R → Bool
  | .done => true
  | _ => false

/-- Pool state: buffered records of `workerCh` oldest first, whether it is closed, the workers. -/
structure St (R : Type u) where
  queue : List R
  closed : Bool
  workers : List (W R)
deriving DecidableEq, Repr

/-- Observable events: `ProcessAsync` accepted a record, a worker evaluated the policies on a
record, a worker delivered a record to output channel `k`, `StopWorkers` closed the channel. -/
inductive Obs (R : Type u) where
  | accepted (r : R)
  | evaluated (r : R)
  | sent (k : Nat) (r : R)
  | closing
deriving DecidableEq, Repr

/-- Scheduler choices: the producer submits or closes; worker `i` receives, evaluates, performs its
next send, or exits. -/
inductive Label (R : Type u) where
  | submit (r : R)
  | close
  | recv (i : Nat)
  | eval (i : Nat)
  | send (i : Nat)
  | exit (i : Nat)
deriving DecidableEq, Repr

/-- `StartWorkers` (engine/interpreter.go:97-105) with concurrency `n`. -/
def init (R : Type u) (n : Nat) : St R := { queue := [], closed := false, workers := List.replicate n .idle }

/-- One atomic step. `cap` is the channel capacity (= concurrency, interpreter.go:99), `nOut` the
number of output channels, `proc` what the worker body (`Interp.work`) passes downstream for a record.
A send on a full channel is not enabled; a receive from a closed channel still delivers buffered
records (Go channel semantics). Sends to the output channels are modelled as always possible (a
downstream that never receives blocks the real program). -/
def step {R : Type u} (proc : R → Option R) (nOut cap : Nat) (s : St R) : Label R → Option (St R × List (Obs R))
  -- interpreter.go:136-137
  | .submit r =>
    if s.closed = false ∧ s.queue.length < cap then some ({ s with queue := s.queue ++ [r] }, [.accepted r]) else none
  -- interpreter.go:110
  | .close => if s.closed = false then some ({ s with closed := true }, [.closing]) else none
  -- interpreter.go:148
  | .recv i =>
    match s.workers[i]?, s.queue with
    | some .idle, r :: q => some ({ s with queue := q, workers := s.workers.set i (.busy r) }, [])
    | _, _ => none
  -- interpreter.go:159-181
  | .eval i =>
    match s.workers[i]? with
    | some (.busy r) =>
      match proc r with
      | some r' =>
        if 0 < nOut then some ({ s with workers := s.workers.set i (.sending r' 0) }, [.evaluated r])
        else some ({ s with workers := s.workers.set i .idle }, [.evaluated r])
      | none => some ({ s with workers := s.workers.set i .idle }, [.evaluated r])
    | _ => none
  -- policyengine.go:208-210
  | .send i =>
    match s.workers[i]? with
    | some (.sending r k) =>
      if k + 1 < nOut then some ({ s with workers := s.workers.set i (.sending r (k + 1)) }, [.sent k r])
      else some ({ s with workers := s.workers.set i .idle }, [.sent k r])
    | _ => none
  -- interpreter.go:149-152, 183
  | .exit i =>
    match s.workers[i]?, s.queue with
    | some .idle, [] => if s.closed = true then some ({ s with workers := s.workers.set i .done }, []) else none
    | _, _ => none

/-- `StopWorkers` returns (engine/interpreter.go:110-111): channel closed, every worker done. -/
def Stopped {R : Type u} (s : St R) : Prop := s.closed = true ∧ ∀ w ∈ s.workers, w = .done

/-- Executions of the pool with `n` workers. -/
abbrev Exec {R : Type u} (proc : R → Option R) (nOut n : Nat) := Machine.Exec (step proc nOut n) (init R n)

end Verif.Engine.Pool
