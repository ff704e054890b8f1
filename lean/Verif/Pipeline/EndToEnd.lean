import Verif.Pipeline.EngineStage
/-
C53: what the stages deliver, chains of stages, and end-to-end delivery from the driver to a log.
-/
namespace Verif.Pipeline.Drain
open Verif.Engine

variable {P R : Type}

/-- A stretch of the input handled under one policy set: the policy set, the records received, the records delivered. -/
structure Segment (P R : Type) where
  pol : P
  ins : List R
  outs : List R

/-- The policy engine's delivery in a complete run: the input is cut into consecutive segments, one per policy set in
force, starting with the initial one; the output is the concatenation of the segments' outputs; and each of them
consists of the results of its records under its policy set, each exactly once — in order, if there is one worker. -/
structure EngineDelivers (cfg : Swap.Cfg P R) (p0 : P) (input output : List R) (segs : List (Segment P R)) : Prop where
  first : ∃ rest, segs.map Segment.pol = p0 :: rest
  input : segs.flatMap Segment.ins = input
  output : segs.flatMap Segment.outs = output
  each : ∀ g ∈ segs, g.outs.Perm (g.ins.filterMap (cfg.proc g.pol))
  order : cfg.n = 1 → ∀ g ∈ segs, g.outs = g.ins.filterMap (cfg.proc g.pol)

/-- What a finished policy engine has delivered on its outputs: the segments are those of its first policy set and of those it has adopted; their policies and inputs are the same for all outputs. -/
theorem engine_delivers_outputs (cfg : Swap.Cfg P R) (p0 : P) (start : Int) (pending : List P) {tr' : List (Swap.Obs P R)} {s : Swap.St P R}
    (hx : Swap.Exec cfg p0 start pending tr' s) (hf : s.phase = .finished) :
    ∃ parts : List (P × List R), parts.map Prod.fst = p0 :: Swap.adoptions tr' ∧ ∀ k, k < cfg.nOut →
      ∃ segs, segs.map (fun g => (g.pol, g.ins)) = parts ∧ EngineDelivers cfg p0 (Swap.inputs tr') (Swap.delivered k tr') segs := by
  obtain ⟨⟨old, cur, hpx, hp, ha, hin, hc⟩, _, hfin, _, _, _, _⟩ := Swap.inv_exec hx
  have hstop := hfin (by rw [hf]; trivial)
  have hall : ∀ e ∈ old ++ [(s.pol, cur)], Swap.Ended cfg e := by
    intro e he
    rcases List.mem_append.1 he with he | he
    · exact hc e he
    · rw [List.mem_singleton.1 he]; exact ⟨_, hpx, hstop⟩
  have hp' : Swap.poolEvents tr' = (old ++ [(s.pol, cur)]).flatMap (fun e => e.2.map (fun o => (e.1, o))) := by simpa using hp
  refine ⟨(old ++ [(s.pol, cur)]).map (fun e => (e.1, Pool.accepts e.2)), by rw [List.map_map, ← ha]; simp [Function.comp_def], fun k hk => ?_⟩
  have hpol : ((old ++ [(s.pol, cur)]).map (fun e => (⟨e.1, Pool.accepts e.2, Pool.sends k e.2⟩ : Segment P R))).map Segment.pol = p0 :: Swap.adoptions tr' := by
    rw [List.map_map, ← ha]; simp [Function.comp_def]
  refine ⟨(old ++ [(s.pol, cur)]).map (fun e => ⟨e.1, Pool.accepts e.2, Pool.sends k e.2⟩), by rw [List.map_map]; rfl, ⟨Swap.adoptions tr', hpol⟩, ?_, ?_, ?_, ?_⟩
  · rw [hf] at hin; rw [List.flatMap_map]; simpa [Swap.inHand] using hin
  · rw [Swap.delivered, hp', List.flatMap_map]
    generalize old ++ [(s.pol, cur)] = es
    induction es with
    | nil => rfl
    | cons e es ih =>
      simp only [List.flatMap_cons, List.map_append, List.map_map, Pool.sends_append]
      rw [ih]
      have e2 : List.map (Prod.snd ∘ fun o => (e.1, o)) e.2 = e.2 := by simp [Function.comp_def]
      rw [e2]
  · intro g hg
    obtain ⟨e, he, rfl⟩ := List.mem_map.1 hg
    exact (Swap.ended_complete (hall e he)).2 k hk
  · intro h1 g hg
    obtain ⟨e, he, rfl⟩ := List.mem_map.1 hg
    obtain ⟨ps, hpe, hs⟩ := hall e he
    rw [h1] at hpe
    exact ((Pool.single_worker_order _ _ _ _ hpe).2.2 hs).2 k hk

/-- What a finished policy engine has delivered on each of its outputs: the segments are those of its first policy set and of those it has adopted. -/
theorem engine_delivers_along (cfg : Swap.Cfg P R) (p0 : P) (start : Int) (pending : List P) {tr' : List (Swap.Obs P R)} {s : Swap.St P R}
    (hx : Swap.Exec cfg p0 start pending tr' s) (hf : s.phase = .finished) (k : Nat) (hk : k < cfg.nOut) :
    ∃ segs, segs.map Segment.pol = p0 :: Swap.adoptions tr' ∧ EngineDelivers cfg p0 (Swap.inputs tr') (Swap.delivered k tr') segs := by
  obtain ⟨parts, h1, h2⟩ := engine_delivers_outputs cfg p0 start pending hx hf
  obtain ⟨segs, rfl, h3⟩ := h2 k hk
  refine ⟨segs, ?_, h3⟩
  rw [List.map_map] at h1
  exact h1

/-- What a finished policy engine has delivered on each of its outputs. -/
theorem engine_delivers (cfg : Swap.Cfg P R) (p0 : P) (start : Int) (pending : List P) {tr : List (Act R)} {s : Swap.St P R}
    (h : (engine cfg p0 start pending).Run tr s) (hf : s.phase = .finished) (k : Nat) (hk : k < cfg.nOut) :
    ∃ segs, EngineDelivers cfg p0 (takes tr) (sends k tr) segs := by
  obtain ⟨tr', hx, hi, hd⟩ := engine_run cfg p0 start pending h
  obtain ⟨segs, -, hs⟩ := engine_delivers_along cfg p0 start pending hx hf k hk
  rw [hi, hd k] at hs
  exact ⟨segs, hs⟩

/-! ### Chains -/

/-- The stage that is never started: used for positions outside a pipeline. -/
def idle (R : Type) : Comp R := sync (fun (_ : Unit) _ => ((), [])) () 0

/-- A linear pipeline: each stage's only output is the next stage's input. -/
def chain (cs : List (Comp R)) (cap : Nat) : Net R where
  n := cs.length
  comp i := cs.getD i (idle R)
  tgt i _ := i + 1
  cap := cap

theorem chain_comp (cs : List (Comp R)) (cap i : Nat) (hi : i < cs.length) : (chain cs cap).comp i = cs[i] := by
  simp [chain, hi]

/-- A chain is a tree, if each stage but the last has one output and the last none. -/
theorem chain_tree (cs : List (Comp R)) (cap : Nat) (hcap : 0 < cap) (last : Comp R)
    (hone : ∀ C ∈ cs, C.nOut = 1) (hlast : last.nOut = 0) : Tree (chain (cs ++ [last]) cap) := by
  have out : ∀ i k, i < (cs ++ [last]).length → k < ((chain (cs ++ [last]) cap).comp i).nOut → i < cs.length ∧ k = 0 := by
    intro i k hi hk
    rw [chain_comp _ _ _ hi] at hk
    by_cases h : i < cs.length
    · rw [List.getElem_append_left h, hone _ (List.getElem_mem h)] at hk
      exact ⟨h, by omega⟩
    · rw [List.getElem_append_right (by omega)] at hk
      simp [hlast] at hk
  refine ⟨by simp [chain], hcap, ?_, ?_, ?_⟩
  · intro i k hi hk
    have := out i k hi hk
    refine ⟨by simp [chain], ?_⟩
    simp [chain]; omega
  · intro i k j m hi hj hk hm e
    have h1 := out i k hi hk
    have h2 := out j m hj hm
    have : i + 1 = j + 1 := e
    exact ⟨by omega, by omega⟩
  · intro i h0 hi
    have hi' : i < (cs ++ [last]).length := hi
    have hl : i - 1 < cs.length := by simp at hi'; omega
    refine ⟨i - 1, 0, ?_, ?_, ?_⟩
    · show i - 1 < (cs ++ [last]).length
      omega
    · rw [chain_comp _ _ _ (by omega), List.getElem_append_left hl, hone _ (List.getElem_mem hl)]; omega
    · show i - 1 + 1 = i
      omega

theorem chain_contract (cs : List (Comp R)) (cap : Nat) (h : ∀ C ∈ cs, Contract C) :
    ∀ i, i < (chain cs cap).n → Contract ((chain cs cap).comp i) := by
  intro i hi
  rw [chain_comp _ _ _ hi]
  exact h _ (List.getElem_mem hi)

/-! ### The usual pipeline: reader, policy engine, exporter -/

/-- Reader with handler `f`, policy engine, exporter writing a log file. -/
def logPipeline {σ : Type} (f : σ → R → σ × List R) (h0 : σ) (cfg : Swap.Cfg P R) (p0 : P) (t0 : Int) (pending : List P)
    (enc : R → Option Exporter.Datum) (os : Nat → Option Nat) (eb t1 : Int) (cap : Nat) : Net R :=
  chain ([sync f h0 1, engine cfg p0 t0 pending] ++ [exporter (Exporter.perRecord enc) (Exporter.fileTransport os) eb Exporter.newFile t1]) cap

theorem logPipeline_ok {σ : Type} (f : σ → R → σ × List R) (h0 : σ) (cfg : Swap.Cfg P R) (hn : 0 < cfg.n) (ho : cfg.nOut = 1) (p0 : P) (t0 : Int)
    (pending : List P) (enc : R → Option Exporter.Datum) (os : Nat → Option Nat) (eb t1 : Int) (cap : Nat) (hcap : 0 < cap) :
    Tree (logPipeline f h0 cfg p0 t0 pending enc os eb t1 cap) ∧
    ∀ i, i < (logPipeline f h0 cfg p0 t0 pending enc os eb t1 cap).n → Contract ((logPipeline f h0 cfg p0 t0 pending enc os eb t1 cap).comp i) := by
  constructor
  · refine chain_tree _ cap hcap _ ?_ rfl
    intro C hC
    rcases List.mem_cons.1 hC with rfl | hC
    · rfl
    · rw [List.mem_singleton.1 hC]; exact ho
  · refine chain_contract _ cap ?_
    intro C hC
    rcases List.mem_cons.1 hC with rfl | hC
    · exact sync_contract f h0 1
    rcases List.mem_cons.1 hC with rfl | hC
    · exact engine_contract cfg hn p0 t0 pending
    · rw [List.mem_singleton.1 hC]; exact exporter_contract _ _ eb _ t1

/-- The contents of the log file of such a pipeline. -/
def logContents {σ : Type} {f : σ → R → σ × List R} {h0 : σ} {cfg : Swap.Cfg P R} {p0 : P} {t0 : Int} {pending : List P}
    {enc : R → Option Exporter.Datum} {os : Nat → Option Nat} {eb t1 : Int} {cap : Nat}
    (s : St (logPipeline f h0 cfg p0 t0 pending enc os eb t1 cap)) : Exporter.Bytes :=
  (show Exporter.State Exporter.OutFile R Exporter.Datum × Bool from s.st 2).1.tr.contents

/-- **C53** End to end: when `Wait` returns, the log file holds exactly one line per encodable record that the policy engine
forwarded, in the order forwarded; and the policy engine forwarded exactly what it makes of the records the reader's
handler output for the records the driver sent — all of them, each once, under the policy set then in force. -/
theorem log_complete {σ : Type} (f : σ → R → σ × List R) (h0 : σ) (cfg : Swap.Cfg P R) (hn : 0 < cfg.n) (ho : cfg.nOut = 1) (p0 : P) (t0 : Int)
    (pending : List P) (enc : R → Option Exporter.Datum) (os : Nat → Option Nat) (hos : ∀ i, os i = none) (eb t1 : Int) (cap : Nat) (hcap : 0 < cap)
    (tr : List (Obs R)) (s : St (logPipeline f h0 cfg p0 t0 pending enc os eb t1 cap))
    (h : Exec (logPipeline f h0 cfg p0 t0 pending enc os eb t1 cap) tr s) (hw : Waited s) :
    ∃ forwarded segs,
      EngineDelivers cfg p0 (emitted f h0 (driven tr)) forwarded segs ∧
      logContents s = Exporter.logOf (forwarded.filterMap enc) := by
  obtain ⟨hT, hC⟩ := logPipeline_ok f h0 cfg hn ho p0 t0 pending enc os eb t1 cap hcap
  obtain ⟨_, h1, h2, h3, h4⟩ := drained_when_wait_returns hT hC h hw
  have l0 : 0 < (logPipeline f h0 cfg p0 t0 pending enc os eb t1 cap).n := (show 0 < 3 by decide)
  have l1 : 1 < (logPipeline f h0 cfg p0 t0 pending enc os eb t1 cap).n := (show 1 < 3 by decide)
  have l2 : 2 < (logPipeline f h0 cfg p0 t0 pending enc os eb t1 cap).n := (show 2 < 3 by decide)
  have r0 : (sync f h0 1).Run (acts 0 tr) (s.st 0) := h4 0 l0
  have r1 : (engine cfg p0 t0 pending).Run (acts 1 tr) (s.st 1) := h4 1 l1
  have r2 : (exporter (Exporter.perRecord enc) (Exporter.fileTransport os) eb Exporter.newFile t1).Run (acts 2 tr) (s.st 2) := h4 2 l2
  have f0 : takes (acts 1 tr) = sends 0 (acts 0 tr) := h2 0 0 l0 (show 0 < 1 by decide)
  have f1 : takes (acts 2 tr) = sends 0 (acts 1 tr) := h2 1 0 l1 (by show 0 < cfg.nOut; omega)
  have d0 := sync_delivers f h0 1 r0 (hw 0 l0) 0 (by decide)
  have c1 : phaseCleaned (show Swap.St P R from s.st 1).phase = true := h3 1 l1 (by show 0 < cfg.nOut; omega)
  have hfin : (show Swap.St P R from s.st 1).phase = .finished := by
    revert c1
    generalize (show Swap.St P R from s.st 1).phase = ph
    cases ph <;> intro c1 <;> first | rfl | cases c1
  obtain ⟨segs, hseg⟩ := engine_delivers cfg p0 t0 pending r1 hfin 0 (by omega)
  rw [f0, d0, h1] at hseg
  refine ⟨_, segs, hseg, ?_⟩
  obtain ⟨es, e1, e2, e3, _⟩ := exporter_run _ _ _ _ _ r2
  have hret : (!(show Exporter.State Exporter.OutFile R Exporter.Datum × Bool from s.st 2).1.running) = true := hw 2 l2
  rw [← f1, ← e2, ← Exporter.file_log enc os hos eb t1 es (by rw [e3]; exact hret)]
  show (show Exporter.State Exporter.OutFile R Exporter.Datum × Bool from s.st 2).1.tr.contents = _
  rw [show (show Exporter.State Exporter.OutFile R Exporter.Datum × Bool from s.st 2).1 = _ from e1]

/-- **C53** … and with a single worker and a fixed policy set the log is a function of the driver's records. -/
theorem log_single_worker {σ : Type} (f : σ → R → σ × List R) (h0 : σ) (cfg : Swap.Cfg P R) (h1 : cfg.n = 1) (ho : cfg.nOut = 1) (p0 : P) (t0 : Int)
    (proc : R → Option R) (hproc : ∀ p, cfg.proc p = proc)
    (pending : List P) (enc : R → Option Exporter.Datum) (os : Nat → Option Nat) (hos : ∀ i, os i = none) (eb t1 : Int) (cap : Nat) (hcap : 0 < cap)
    (tr : List (Obs R)) (s : St (logPipeline f h0 cfg p0 t0 pending enc os eb t1 cap))
    (h : Exec (logPipeline f h0 cfg p0 t0 pending enc os eb t1 cap) tr s) (hw : Waited s) :
    logContents s = Exporter.logOf (((emitted f h0 (driven tr)).filterMap proc).filterMap enc) := by
  obtain ⟨fw, segs, hd, hl⟩ := log_complete f h0 cfg (by omega) ho p0 t0 pending enc os hos eb t1 cap hcap tr s h hw
  rw [hl, ← hd.output, ← hd.input]
  have := hd.order h1
  congr 2
  clear hd hl
  induction segs with
  | nil => rfl
  | cons g gs ih =>
    simp only [List.flatMap_cons, List.filterMap_append]
    rw [this g (by simp), hproc, ih (fun x hx => this x (by simp [hx]))]

/-! ### Limits -/

/-- **C53**, limit: `Wait` can return before the last stage has cleaned up, for every exporter: what its transport does only
in `Cleanup` (flushing the Kafka producer, closing the file) may not have happened when the program ends. -/
theorem wait_before_last_cleanup {S D : Type} (C : Exporter.Codec R D) (T : Exporter.Transport S D) (eb : Int) (tr0 : S) (t : Int) (cap : Nat) :
    ∃ tr, ∃ s : St (chain [exporter C T eb tr0 t] cap), Exec (chain [exporter C T eb tr0 t] cap) tr s ∧ Waited s ∧
      (exporter C T eb tr0 t).cleaned (s.st 0) = false := by
  have s1 := Step.closeRoot (St.start (chain [exporter C T eb tr0 t] cap)) rfl rfl
  have s2 := Step.eof { St.start (chain [exporter C T eb tr0 t] cap) with closed := Function.update (fun _ => false) 0 true } 0 ExpL.eof
    (Exporter.step C T eb (Exporter.init tr0 t) .close, false) rfl (show 0 < 1 by decide) (by rfl) rfl (by simp)
  refine ⟨_, _, .snoc (.snoc .nil s1) s2, ?_, ?_⟩
  · intro i hi
    have hi' : i < 1 := hi
    have : i = 0 := by omega
    subst this
    rfl
  · rfl

/-- Stage 0 feeds stages 1 and 2, which both write to the channel of stage 3. -/
def diamond (R : Type) (cap : Nat) : Net R where
  n := 4
  comp := fun
    | 0 => sync (fun (_ : Unit) r => ((), [r])) () 2
    | 1 => sync (fun (_ : Unit) r => ((), [r])) () 1
    | 2 => sync (fun (_ : Unit) r => ((), [r])) () 1
    | _ => sync (fun (_ : Unit) _ => ((), [])) () 0
  tgt := fun
    | 0, 0 => 1
    | 0, _ => 2
    | _, _ => 3
  cap := cap

/-- **C53**, limit: a pipeline in which two stages write to one channel crashes at shutdown (the channel is closed twice). -/
theorem shared_channel_panics (R : Type) (cap : Nat) : ∃ tr, ∃ s : St (diamond R cap), Exec (diamond R cap) tr s ∧ s.panicked = true := by
  have h1 := Step.closeRoot (St.start (diamond R cap)) rfl rfl
  have e1 := Exec.snoc .nil h1
  have e2 := Exec.snoc e1 (Step.eof (N := diamond R cap) _ 0 SyncL.eof (⟨(), [], true, false⟩ : SyncSt Unit R) rfl (show 0 < 4 by decide) rfl rfl rfl)
  have e3 := Exec.snoc e2 (Step.close (N := diamond R cap) _ 0 SyncL.close (⟨(), [], true, true⟩ : SyncSt Unit R) _ rfl (show 0 < 4 by decide) rfl rfl)
  have e4 := Exec.snoc e3 (Step.eof (N := diamond R cap) _ 1 SyncL.eof (⟨(), [], true, false⟩ : SyncSt Unit R) rfl (show 1 < 4 by decide) rfl rfl rfl)
  have e5 := Exec.snoc e4 (Step.close (N := diamond R cap) _ 1 SyncL.close (⟨(), [], true, true⟩ : SyncSt Unit R) _ rfl (show 1 < 4 by decide) rfl rfl)
  have e6 := Exec.snoc e5 (Step.eof (N := diamond R cap) _ 2 SyncL.eof (⟨(), [], true, false⟩ : SyncSt Unit R) rfl (show 2 < 4 by decide) rfl rfl rfl)
  exact ⟨_, _, .snoc e6 (Step.closePanic (N := diamond R cap) _ 2 SyncL.close (⟨(), [], true, true⟩ : SyncSt Unit R) rfl (show 2 < 4 by decide) rfl rfl), rfl⟩


/-! ### Non-vacuity: a complete run of a pipeline whose reader doubles records and whose only policy set multiplies by ten -/

/-- Engine configuration of the sample. -/
def demoCfg : Swap.Cfg Unit Nat := { proc := fun _ r => if r = 2 then none else some (r * 10), nOut := 1, n := 1, monitor := false, interval := 0 }

/-- The sample pipeline. -/
def demoNet : Net Nat := logPipeline (fun (_ : Unit) r => ((), [r, r + 1])) () demoCfg () 0 [] (fun r => some (.bytes [r.toUInt8])) (fun _ => none) 5 0 1

/-- An intermediate state of the sample's stages. -/
def demoS0 (todo : List (Nat × Nat)) (ret cl : Bool) : SyncSt Unit Nat := ⟨(), todo, ret, cl⟩
def demoE (q : List Nat) (closed : Bool) (w : Pool.W Nat) (ph : Swap.Phase Unit Nat) : Swap.St Unit Nat := ⟨(), ⟨q, closed, [w]⟩, ph, [], 0⟩

example : ∃ tr s, Exec demoNet tr s ∧ Waited s ∧ driven tr = [1] ∧
    (show Exporter.State Exporter.OutFile Nat Exporter.Datum × Bool from s.st 2).1.tr.contents = [10, 10] := by
  have l0 : 0 < demoNet.n := (show 0 < 3 by decide)
  have l1 : 1 < demoNet.n := (show 1 < 3 by decide)
  have l2 : 2 < demoNet.n := (show 2 < 3 by decide)
  have e1 := Exec.snoc .nil (Step.drive (St.start demoNet) 1 rfl rfl (show 0 < 1 by decide))
  have e2 := Exec.snoc e1 (Step.closeRoot _ rfl rfl)
  have e3 := Exec.snoc e2 (Step.take (N := demoNet) _ 0 (SyncL.take 1) (demoS0 [(0, 1), (0, 2)] false false) 1 [] rfl l0 rfl rfl)
  have e4 := Exec.snoc e3 (Step.send (N := demoNet) _ 0 SyncL.send (demoS0 [(0, 2)] false false) 0 1 rfl l0 rfl rfl (show 0 < 1 by decide))
  have e5 := Exec.snoc e4 (Step.take (N := demoNet) _ 1 (Swap.Label.input 1) (demoE [] false .idle (.check 1)) 1 [] rfl l1 rfl rfl)
  have e6 := Exec.snoc e5 (Step.tau (N := demoNet) _ 1 (Swap.Label.clock 0) (demoE [] false .idle (.submit 1)) rfl l1 rfl)
  have e7 := Exec.snoc e6 (Step.tau (N := demoNet) _ 1 Swap.Label.submit (demoE [1] false .idle .recv) rfl l1 rfl)
  have e8 := Exec.snoc e7 (Step.send (N := demoNet) _ 0 SyncL.send (demoS0 [] false false) 0 2 rfl l0 rfl rfl (show 0 < 1 by decide))
  have e9 := Exec.snoc e8 (Step.eof (N := demoNet) _ 0 SyncL.eof (demoS0 [] true false) rfl l0 rfl rfl rfl)
  have e10 := Exec.snoc e9 (Step.close (N := demoNet) _ 0 SyncL.close (demoS0 [] true true) _ rfl l0 rfl rfl)
  have e11 := Exec.snoc e10 (Step.tau (N := demoNet) _ 1 (Swap.Label.worker (.recv 0)) (demoE [] false (.busy 1) .recv) rfl l1 rfl)
  have e12 := Exec.snoc e11 (Step.tau (N := demoNet) _ 1 (Swap.Label.worker (.eval 0)) (demoE [] false (.sending 10 0) .recv) rfl l1 rfl)
  have e13 := Exec.snoc e12 (Step.take (N := demoNet) _ 1 (Swap.Label.input 2) (demoE [] false (.sending 10 0) (.check 2)) 2 [] rfl l1 rfl rfl)
  have e14 := Exec.snoc e13 (Step.send (N := demoNet) _ 1 (Swap.Label.worker (.send 0)) (demoE [] false .idle (.check 2)) 0 10 rfl l1 rfl rfl (show 0 < 1 by decide))
  have e15 := Exec.snoc e14 (Step.tau (N := demoNet) _ 1 (Swap.Label.clock 0) (demoE [] false .idle (.submit 2)) rfl l1 rfl)
  have e16 := Exec.snoc e15 (Step.tau (N := demoNet) _ 1 Swap.Label.submit (demoE [2] false .idle .recv) rfl l1 rfl)
  have e17 := Exec.snoc e16 (Step.eof (N := demoNet) _ 1 Swap.Label.close (demoE [2] false .idle .eof) rfl l1 rfl rfl rfl)
  have e18 := Exec.snoc e17 (Step.tau (N := demoNet) _ 1 Swap.Label.cleanup (demoE [2] true .idle .cleanup) rfl l1 rfl)
  have e19 := Exec.snoc e18 (Step.tau (N := demoNet) _ 1 (Swap.Label.worker (.recv 0)) (demoE [] true (.busy 2) .cleanup) rfl l1 rfl)
  have e20 := Exec.snoc e19 (Step.tau (N := demoNet) _ 1 (Swap.Label.worker (.eval 0)) (demoE [] true .idle .cleanup) rfl l1 rfl)
  have e21 := Exec.snoc e20 (Step.tau (N := demoNet) _ 1 (Swap.Label.worker (.exit 0)) (demoE [] true .done .cleanup) rfl l1 rfl)
  have e22 := Exec.snoc e21 (Step.close (N := demoNet) _ 1 Swap.Label.cleanupReturn (demoE [] true .done .finished) _ rfl l1 rfl rfl)
  have e23 := Exec.snoc e22 (Step.take (N := demoNet) _ 2 (ExpL.recv 10 0) _ 10 [] rfl l2 rfl rfl)
  have e24 := Exec.snoc e23 (Step.eof (N := demoNet) _ 2 ExpL.eof _ rfl l2 rfl rfl rfl)
  refine ⟨_, _, e24, ?_, rfl, ?_⟩
  · intro i hi
    have hi' : i < 3 := hi
    match i, hi' with
    | 0, _ => rfl
    | 1, _ => rfl
    | 2, _ => rfl
  · decide +kernel

end Verif.Pipeline.Drain
