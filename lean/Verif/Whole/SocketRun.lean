import Verif.Whole.FileRun
import Verif.Pipeline.Socket
/-
C117, continued: the whole program of C78 fed through a socket.
-/
namespace Verif.Whole
open Verif.Decimal (Str)
open Verif.Exporter (Bytes)
open Verif.FlatRecord
open Verif.Policy
open Verif.Falco
open Verif.Processor (Rec HCall demoStream demoPE)
open Verif.Flattener (FLib Known fields eventsAfter StoresEvent)
open Verif.Pipeline
open Verif.Pipeline.Process
open Verif.Pipeline.Drain (driven Exec Waited)

variable {P : Type}

/-- **C117** The program in the configuration of C76 reading from a socket whose connections carry, packet by packet, the encodings of SysFlow records of at most
16384 bytes: whenever it returns, it returns without an error, and its log is complete for a prefix of the records sent; for all of them if nobody asks it to stop. -/
theorem socket_run (S : Setup P) (dss : P → List (List Decl)) (ok : S.Ok dss) (eval : List Avro.Byte → Rec × Bool) (enc : Rec → List Avro.Byte)
    (run : Nat → Bool) (hrun : StaysStopped run) (conns : List (List Rec)) (hd : ∀ c ∈ conns, ∀ r ∈ c, ReadsBack eval enc r)
    (hs : ∀ c ∈ conns, ∀ r ∈ c, enc r ≠ [] ∧ (enc r).length ≤ 16384) (hret : ∃ r, Processor.run false S.fuel .init conns.flatten = some r)
    {tr : List (Drain.Obs Msg)} {s : PSt Rec S.net}
    (hx : PExec Msg.sf S.net (socketDriver eval run (conns.map (List.map (fun r => .packet (enc r) false)))) tr s) {e : Bool} (he : s.status = some e) :
    e = false ∧ ∃ rs, rs <+: conns.flatten ∧ ((∀ i, run i = true) → rs = conns.flatten) ∧ LogComplete S dss rs (S.log s.net) := by
  obtain ⟨body, h1, h2, h3, -, -⟩ := socket_delivers eval enc run hrun conns hd hs
  have ho : Orderly (socketDriver eval run (conns.map (List.map (fun r => .packet (enc r) false)))) body := ⟨h1, h2⟩
  have hsb := sent_body ho
  obtain ⟨ys, hys⟩ := h3
  obtain ⟨r, hret⟩ := hret
  have hp : ∃ r', Processor.run false S.fuel .init (Pipeline.sent (socketDriver eval run (conns.map (List.map (fun r => .packet (enc r) false))))) = some r' := by
    rw [hsb]
    refine run_prefix false S.fuel _ ys .init r ?_
    rw [hys]; exact hret
  obtain ⟨g1, g2⟩ := orderly_run S dss ok ho hp hx he
  refine ⟨g1, _, by rw [hsb]; exact ⟨ys, hys⟩, fun hall => ?_, g2⟩
  obtain rfl : run = fun _ => true := funext hall
  exact socket_delivers_all eval enc conns hd hs

/-- An encoding of the records of the demo stream: one byte, the place in the stream. -/
def placeEnc (r : Rec) : List Avro.Byte := [UInt8.ofNat (demoStream.idxOf r)]
def placeEval (bs : List Avro.Byte) : Rec × Bool := (demoStream.getD (bs.headD 0).toNat .unsupported, false)

theorem place_reads (r : Rec) (h : r ∈ demoStream) : ReadsBack placeEval placeEnc r := by
  have : ∀ r ∈ demoStream, placeEval (placeEnc r) = (r, false) := by decide
  intro rest
  exact this r h

/-- The program runs on two connections to the end, with any number of workers; the log is complete for the records of both. -/
example (n : Nat) (hn : 0 < n) : ∃ code tr, ∃ s : PSt Rec (demoSetup n code).net,
    PExec Msg.sf (demoSetup n code).net (socketDriver placeEval (fun _ => true)
      ([demoStream.take 3, demoStream.drop 3].map (List.map (fun r => .packet (placeEnc r) false)))) tr s ∧
    s.status = some false ∧ LogComplete (demoSetup n code) (fun _ => [lsDecls]) demoStream ((demoSetup n code).log s.net) := by
  obtain ⟨code, ok⟩ := demo_ok n hn
  obtain ⟨hT, hC⟩ := net_ok (demoSetup n code) ok.workers ok.cap
  have hst : StaysStopped (fun _ => true) := fun _ h => h
  have hd : ∀ c ∈ [demoStream.take 3, demoStream.drop 3], ∀ r ∈ c, ReadsBack placeEval placeEnc r := by
    intro c hc r hr
    refine place_reads r ?_
    rcases List.mem_cons.1 hc with rfl | hc
    · exact List.mem_of_mem_take hr
    · rw [List.mem_singleton.1 hc] at hr
      exact List.mem_of_mem_drop hr
  have hs : ∀ c ∈ [demoStream.take 3, demoStream.drop 3], ∀ r ∈ c, placeEnc r ≠ [] ∧ (placeEnc r).length ≤ 16384 :=
    fun _ _ r _ => ⟨List.cons_ne_nil _ _, by show 1 ≤ 16384; decide⟩
  obtain ⟨body, h1, h2, _⟩ := socket_delivers placeEval placeEnc (fun _ => true) hst [demoStream.take 3, demoStream.drop 3] hd hs
  obtain ⟨tr, s, hx, he⟩ := complete_run hT hC ⟨h1, h2⟩ Msg.sf
  have h : (Processor.run false 10 .init demoStream).isSome = true := by decide
  have hf : [demoStream.take 3, demoStream.drop 3].flatten = demoStream := rfl
  obtain ⟨-, rs, -, hall, hlog⟩ := socket_run (demoSetup n code) _ ok placeEval placeEnc (fun _ => true) hst [demoStream.take 3, demoStream.drop 3] hd hs
    (by rw [hf]; exact Option.isSome_iff_exists.mp h) hx he
  obtain rfl := (hall (fun _ => rfl)).trans hf
  exact ⟨code, tr, s, hx, he, hlog⟩

end Verif.Whole
