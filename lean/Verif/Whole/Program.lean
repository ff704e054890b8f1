import Verif.Pipeline.EndToEnd
import Verif.Falco.StreamAlerts
import Verif.Json.Malformed
import Verif.Json.Examples
/-
The whole program in its usual configuration: SysFlow reader with the flattener as handler, policy engine with Falco
policies, exporter with the JSON encoder and the file transport; under every schedule of its goroutines.
Sources: /repo/driver/pipeline/pipeline.go:135-294, /repo/core/processor/reader.go:80-172, /repo/core/flattener/flattener.go:67-251,
/repo/core/policyengine/policyengine.go:83-234, /repo/core/exporter/exporter.go:113-186.
-/
namespace Verif.Whole
open Verif.Decimal (Str)
open Verif.Exporter (Bytes)
open Verif.FlatRecord
open Verif.Policy
open Verif.Falco
open Verif.Processor (Rec HCall)
open Verif.Flattener (FLib Timed)
open Verif.Pipeline
open Verif.Pipeline.Drain (Net Comp sync engine exporter chain emitted)

/-- What travels on the channels: SysFlow records (root channel), flat records (flattener to policy engine), records with
their context (policy engine to exporter). In the program these are channels of different types
(/repo/core/flattener/flattener.go:32-37, /repo/core/policyengine/policyengine.go:46-50). -/
inductive Msg where
  | sf (r : Rec)
  | flat (fr : FlatRec)
  | alert (r : Record)

/-- State of the reader stage: the reader (`none`: it does not return from computing a process tree), the flattener, and the number of
handler calls made. -/
structure ReaderSt where
  reader : Option Processor.State
  fl : Flattener.State
  calls : Nat

/-- The calls for one record, with the clock readings made while handling them. -/
def timed (clock : Nat → Nat → Int) (i : Nat) : List HCall → List Timed
  | [] => []
  | c :: cs => ⟨c, clock i 0, clock i 0, clock i⟩ :: timed clock (i + 1) cs

/-- The reader stage on one record (reader.go:90-164 calling flattener.go:109-251): new state and what is sent on the output channel.
The flattener's model keeps what it has sent; here it is emptied before each record. -/
def readerStep (F : FLib) (fuel : Nat) (clock : Nat → Nat → Int) (h : ReaderSt) : Msg → ReaderSt × List Msg
  | .sf r =>
    match h.reader with
    | none => (h, [])
    | some s =>
      match Processor.step false fuel s r with
      | none => (⟨none, h.fl, h.calls⟩, [])
      | some (s', cs) =>
        let fl := Flattener.handles F { h.fl with outs := [[]] } (timed clock h.calls cs)
        (⟨some s', fl, h.calls + cs.length⟩, (fl.outs.headD []).map Msg.flat)
  | _ => (h, [])

/-- The program's parameters: library functions; policy sets (`P`) with the texts of their files and what they compile to; mode; the actions
available; the engine's workers, monitor and interval; the exporter's buffer size and encoder environment; channel capacity;
duplicate filter; clocks. -/
structure Setup (P : Type) where
  L : Lib
  F : FLib
  str : Str → Option Nat
  texts : P → List Str
  code : P → List (Rule Record) × List (Filter Record)
  enrich : Bool
  builtIn : Engine.ActionMap Record
  user : Engine.ActionMap Record
  workers : Nat
  monitor : Bool
  interval : Int
  buffer : Int
  version : Bytes
  sipAlias : Bool
  cap : Nat
  fuel : Nat
  dedup : Bool
  ttl : Int
  clock : Nat → Nat → Int
  policies : P
  pending : List P
  start : Int

variable {P : Type}

/-- What a worker of the policy engine makes of a record (policyengine.go:146-149, policyengine_flatrecord.go:28-36;
engine/interpreter.go:155-184): alert or enrich mode, one output channel. -/
def Setup.proc (S : Setup P) (p : P) : Msg → Option Msg
  | .flat fr => (Engine.outs ((flatInterp S.L S.enrich (S.code p).1 (S.code p).2 S.builtIn S.user true).work (newRecord fr)).2).head?.map Msg.alert
  | _ => none

/-- The policy engine's configuration. -/
def Setup.cfg (S : Setup P) : Engine.Swap.Cfg P Msg := ⟨S.proc, 1, S.workers, S.monitor, S.interval⟩

/-- The encoder's environment. -/
def Setup.env (S : Setup P) : Json.Env := ⟨S.L, S.version, S.sipAlias⟩

/-- The JSON encoder on a record (json.go:65-75, 77-134). -/
def Setup.enc (S : Setup P) : Msg → Option Exporter.Datum
  | .alert r => (Json.encode S.env r).map Exporter.Datum.bytes
  | _ => none

/-- The flattener before the first record. -/
def Setup.reader0 (S : Setup P) : ReaderSt := ⟨some .init, Flattener.init S.dedup S.ttl 1, 0⟩

/-- The loaded pipeline (pipeline.go:135-200) with any encoder and transport. -/
def Setup.netWith {X D : Type} (S : Setup P) (C : Exporter.Codec Msg D) (T : Exporter.Transport X D) (x0 : X) : Net Msg :=
  chain ([sync (readerStep S.F S.fuel S.clock) S.reader0 1, engine S.cfg S.policies S.start S.pending] ++
    [exporter C T S.buffer x0 S.start]) S.cap

/-- The loaded pipeline (pipeline.go:135-200), writing JSON to a file whose writes succeed. -/
def Setup.net (S : Setup P) : Net Msg := S.netWith (Exporter.allOrNone S.enc) (Exporter.fileTransport (fun _ => none)) Exporter.newFile

/-- The contents of the log file. -/
def Setup.log (S : Setup P) (s : Drain.St S.net) : Bytes :=
  (show Exporter.State Exporter.OutFile Msg Exporter.Datum × Bool from s.st 2).1.tr.contents

end Verif.Whole
