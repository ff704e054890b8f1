import Mathlib.Logic.Function.Basic
import Verif.Engine.Swap
import Verif.Exporter.Model
/-
Model of a running pipeline: stages connected by buffered channels, each stage a goroutine executing
`Process` and then `Cleanup`, under every schedule.
Sources: /repo/driver/pipeline/pipeline.go:199-200, 286-294 (one goroutine per stage, Wait, process);
/repo/core/processor/processor.go:90-150, /repo/core/flattener/flattener.go:88-106;
/repo/core/policyengine/policyengine.go:119-234; /repo/core/exporter/exporter.go:113-186.
-/
namespace Verif.Pipeline.Drain

/-- What a stage does in one step as seen by the rest of the pipeline: something internal; receive a record from its
input channel (`<-in` with `ok`); notice that the input channel is closed and drained and return from `Process`
(`wg.Done`); send a record on its `k`-th output channel; close its output channels in `Cleanup`. -/
inductive Act (R : Type) where
  | tau
  | take (r : R)
  | eof
  | send (k : Nat) (r : R)
  | close

/-- Acts that depend on the input channel. -/
def Act.isInput {R : Type} : Act R → Bool
  | .take _ => true
  | .eof => true
  | _ => false

/-- Return from `Process`. -/
def Act.isEof {R : Type} : Act R → Bool
  | .eof => true
  | _ => false

/-- End of `Cleanup`. -/
def Act.isClose {R : Type} : Act R → Bool
  | .close => true
  | _ => false

/-- A stage: a state machine of the plugin's goroutines. `env` marks steps caused by a timer or by the policy monitor
rather than by the program's own progress. -/
structure Comp (R : Type) where
  S : Type
  L : Type
  init : S
  step : S → L → Option (S × Act R)
  nOut : Nat
  env : L → Bool
  returned : S → Bool
  cleaned : S → Bool

/-- Runs of a stage by itself, with the acts performed. -/
inductive Comp.Run {R : Type} (C : Comp R) : List (Act R) → C.S → Prop where
  | nil : C.Run [] C.init
  | snoc {tr s l s' a} : C.Run tr s → C.step s l = some (s', a) → C.Run (tr ++ [a]) s'

/-- A loaded pipeline: `n` stages; stage `i` reads channel `i`; output `k` of stage `i` is channel `tgt i k`; channel 0 is the
root channel, written by the driver; all channels have the same capacity (pipeline.go:135 ff., ChanSize in
config.go:56). -/
structure Net (R : Type) where
  n : Nat
  comp : Nat → Comp R
  tgt : Nat → Nat → Nat
  cap : Nat

/-- State of the running pipeline: the stages, the records buffered in each channel (oldest first), which channels are
closed, whether the program has crashed. -/
structure St {R : Type} (N : Net R) where
  st : (i : Nat) → (N.comp i).S
  buf : Nat → List R
  closed : Nat → Bool
  panicked : Bool

/-- All stages started, all channels empty (pipeline.go:199-200). -/
def St.start {R : Type} (N : Net R) : St N := ⟨fun i => (N.comp i).init, fun _ => [], fun _ => false, false⟩

/-- Scheduler choices: the driver sends a record or closes the root channel; stage `i` makes step `l`. -/
inductive Label {R : Type} (N : Net R) where
  | drive (r : R)
  | closeRoot
  | stage (i : Nat) (l : (N.comp i).L)

/-- Observations. -/
inductive Obs (R : Type) where
  | driven (r : R)
  | rootClosed
  | stage (i : Nat) (a : Act R)

/-- Close channels one after the other; closing a closed channel crashes (Go's `close`). The loops
`for _, c := range outCh { close(c) }` (policyengine.go:226-230, flattener.go:101-105) are one step of the model. -/
def closeAll : List Nat → (Nat → Bool) → Option (Nat → Bool)
  | [], c => some c
  | x :: xs, c => if c x = true then none else closeAll xs (Function.update c x true)

/-- The output channels of a stage. -/
def Net.outs {R : Type} (N : Net R) (i : Nat) : List Nat := (List.range (N.comp i).nOut).map (N.tgt i)

/-- One step of the running pipeline, with Go's channel semantics: a send waits for room and crashes on a closed channel; a
receive takes the oldest record; a closed channel reports its end only when it is empty. The driver is taken to send
nothing after closing the root channel (see `file_driver_delivers`, `stream_driver_delivers`). -/
inductive Step {R : Type} (N : Net R) : St N → Label N → Obs R → St N → Prop where
  | drive (s : St N) (r : R) : s.panicked = false → s.closed 0 = false → (s.buf 0).length < N.cap →
      Step N s (.drive r) (.driven r) { s with buf := Function.update s.buf 0 (s.buf 0 ++ [r]) }
  | closeRoot (s : St N) : s.panicked = false → s.closed 0 = false →
      Step N s .closeRoot .rootClosed { s with closed := Function.update s.closed 0 true }
  | tau (s : St N) (i : Nat) (l : (N.comp i).L) (t : (N.comp i).S) : s.panicked = false → i < N.n →
      (N.comp i).step (s.st i) l = some (t, .tau) →
      Step N s (.stage i l) (.stage i .tau) { s with st := Function.update s.st i t }
  | take (s : St N) (i : Nat) (l : (N.comp i).L) (t : (N.comp i).S) (r : R) (q : List R) : s.panicked = false → i < N.n →
      (N.comp i).step (s.st i) l = some (t, .take r) → s.buf i = r :: q →
      Step N s (.stage i l) (.stage i (.take r)) { s with st := Function.update s.st i t, buf := Function.update s.buf i q }
  | eof (s : St N) (i : Nat) (l : (N.comp i).L) (t : (N.comp i).S) : s.panicked = false → i < N.n →
      (N.comp i).step (s.st i) l = some (t, .eof) → s.buf i = [] → s.closed i = true →
      Step N s (.stage i l) (.stage i .eof) { s with st := Function.update s.st i t }
  | send (s : St N) (i : Nat) (l : (N.comp i).L) (t : (N.comp i).S) (k : Nat) (r : R) : s.panicked = false → i < N.n →
      (N.comp i).step (s.st i) l = some (t, .send k r) → s.closed (N.tgt i k) = false →
      (s.buf (N.tgt i k)).length < N.cap →
      Step N s (.stage i l) (.stage i (.send k r))
        { s with st := Function.update s.st i t, buf := Function.update s.buf (N.tgt i k) (s.buf (N.tgt i k) ++ [r]) }
  | sendPanic (s : St N) (i : Nat) (l : (N.comp i).L) (t : (N.comp i).S) (k : Nat) (r : R) : s.panicked = false → i < N.n →
      (N.comp i).step (s.st i) l = some (t, .send k r) → s.closed (N.tgt i k) = true →
      Step N s (.stage i l) (.stage i .tau) { s with panicked := true }
  | close (s : St N) (i : Nat) (l : (N.comp i).L) (t : (N.comp i).S) (c : Nat → Bool) : s.panicked = false → i < N.n →
      (N.comp i).step (s.st i) l = some (t, .close) → closeAll (N.outs i) s.closed = some c →
      Step N s (.stage i l) (.stage i .close) { s with st := Function.update s.st i t, closed := c }
  | closePanic (s : St N) (i : Nat) (l : (N.comp i).L) (t : (N.comp i).S) : s.panicked = false → i < N.n →
      (N.comp i).step (s.st i) l = some (t, .close) → closeAll (N.outs i) s.closed = none →
      Step N s (.stage i l) (.stage i .tau) { s with panicked := true }

/-- Executions of the pipeline. -/
inductive Exec {R : Type} (N : Net R) : List (Obs R) → St N → Prop where
  | nil : Exec N [] (St.start N)
  | snoc {tr s l o s'} : Exec N tr s → Step N s l o s' → Exec N (tr ++ [o]) s'

/-- `pl.wg.Wait()` (pipeline.go:286-288) can return: every stage has executed `wg.Done`. -/
def Waited {R : Type} {N : Net R} (s : St N) : Prop := ∀ i, i < N.n → (N.comp i).returned (s.st i) = true

/-! ### The stages -/

/-- State of a stage that handles one record at a time in its own goroutine: handler state, sends still to do for the
current record, whether `Process` has returned and whether `Cleanup` is over. -/
structure SyncSt (σ R : Type) where
  hs : σ
  todo : List (Nat × R)
  returned : Bool
  cleaned : Bool

/-- Steps of such a stage: receive `r`; the input has ended; next send; `Cleanup`. -/
inductive SyncL (R : Type) where
  | take (r : R)
  | eof
  | send
  | close

/-- The steps of a stage that handles one record at a time: the SysFlow reader with its handler (processor.go:90-145
calling the flattener's handlers, which send synchronously: flattener.go:88-96, `for _, c := range s.outCh { c <- fr }`),
and the policy engine without policies (policyengine.go:137-140, policyengine_flatrecord.go:34). `f` is what handling a
record does to the handler's state and which records it sends on every output channel. -/
def syncStep {σ R : Type} (f : σ → R → σ × List R) (nOut : Nat) (s : SyncSt σ R) : SyncL R → Option (SyncSt σ R × Act R)
  | .take r =>
    if s.returned = false ∧ s.todo.isEmpty = true then
      some ({ s with hs := (f s.hs r).1, todo := (f s.hs r).2.flatMap (fun x => (List.range nOut).map (fun k => (k, x))) }, .take r)
    else none
  | .eof => if s.returned = false ∧ s.todo.isEmpty = true then some ({ s with returned := true }, .eof) else none
  | .send =>
    match s.todo with
    | (k, x) :: rest => some ({ s with todo := rest }, .send k x)
    | [] => none
  | .close => if s.returned = true ∧ s.cleaned = false then some ({ s with cleaned := true }, .close) else none

/-- A stage that handles one record at a time. -/
def sync {σ R : Type} (f : σ → R → σ × List R) (h0 : σ) (nOut : Nat) : Comp R where
  S := SyncSt σ R
  L := SyncL R
  init := ⟨h0, [], false, false⟩
  step := syncStep f nOut
  nOut := nOut
  env _ := false
  returned s := s.returned
  cleaned s := s.cleaned

/-- The policy engine's act in a step of its machine (`Verif.Engine.Swap.step`): receiving a record, noticing the end of
the input, a worker's send, closing the output channels when `StopWorkers` has returned (policyengine.go:223-230). -/
def engineAct {P R : Type} : Verif.Engine.Swap.Label P R → List (Verif.Engine.Swap.Obs P R) → Act R
  | .input r, _ => .take r
  | .close, _ => .eof
  | .cleanupReturn, _ => .close
  | .worker _, [.pool _ (.sent k r)] => .send k r
  | _, _ => .tau

/-- Whether the engine's `Process` has returned (policyengine.go:126 `defer wg.Done()`). -/
def phaseReturned {P R : Type} : Verif.Engine.Swap.Phase P R → Bool
  | .eof => true
  | .cleanup => true
  | .finished => true
  | _ => false

/-- Whether the engine's `Cleanup` is over. -/
def phaseCleaned {P R : Type} : Verif.Engine.Swap.Phase P R → Bool
  | .finished => true
  | _ => false

/-- Steps of the policy monitor. -/
def isPush {P R : Type} : Verif.Engine.Swap.Label P R → Bool
  | .push _ => true
  | _ => false

/-- The engine's steps as a stage. -/
def engineStep {P R : Type} (cfg : Verif.Engine.Swap.Cfg P R) (s : Verif.Engine.Swap.St P R) (l : Verif.Engine.Swap.Label P R) :
    Option (Verif.Engine.Swap.St P R × Act R) :=
  match Verif.Engine.Swap.step cfg s l with
  | some (s', os) => some (s', engineAct l os)
  | none => none

/-- The policy engine as a stage. The machine's policy set only matters through `cfg.proc`. -/
def engine {P R : Type} (cfg : Verif.Engine.Swap.Cfg P R) (p0 : P) (start : Int) (pending : List P) : Comp R where
  S := Verif.Engine.Swap.St P R
  L := Verif.Engine.Swap.Label P R
  init := Verif.Engine.Swap.init cfg p0 start pending
  step := engineStep cfg
  nOut := cfg.nOut
  env := isPush
  returned s := phaseReturned s.phase
  cleaned s := phaseCleaned s.phase

/-- Steps of the exporter: receive a record (reading the clock if it flushes), the timer fires, the input has ended,
`Cleanup`. -/
inductive ExpL (R : Type) where
  | recv (r : R) (t : Int)
  | tick (now after : Int)
  | eof
  | close

/-- Timer steps. -/
def ExpL.isTick {R : Type} : ExpL R → Bool
  | .tick _ _ => true
  | _ => false

/-- The steps of the exporter (exporter.go:113-186), with `Verif.Exporter.step` as the body of the loop. -/
def expStep {S R D : Type} (C : Verif.Exporter.Codec R D) (T : Verif.Exporter.Transport S D) (eb : Int)
    (s : Verif.Exporter.State S R D × Bool) : ExpL R → Option ((Verif.Exporter.State S R D × Bool) × Act R)
  | .recv r t => if s.1.running = true then some ((Verif.Exporter.step C T eb s.1 (.recv r t), s.2), .take r) else none
  | .tick now after => if s.1.running = true then some ((Verif.Exporter.step C T eb s.1 (.tick now after), s.2), .tau) else none
  | .eof => if s.1.running = true then some ((Verif.Exporter.step C T eb s.1 .close, s.2), .eof) else none
  | .close => if s.1.running = false ∧ s.2 = false then some ((s.1, true), .close) else none

/-- The exporter as a stage; it has no output channels (`SetOutChan` does nothing, exporter.go:178). -/
def exporter {S R D : Type} (C : Verif.Exporter.Codec R D) (T : Verif.Exporter.Transport S D) (eb : Int) (tr : S) (start : Int) : Comp R where
  S := Verif.Exporter.State S R D × Bool
  L := ExpL R
  init := (Verif.Exporter.init tr start, false)
  step := expStep C T eb
  nOut := 0
  env := ExpL.isTick
  returned s := !s.1.running
  cleaned s := s.2

end Verif.Pipeline.Drain
