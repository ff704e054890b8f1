import Verif.Whole.Boot
import Verif.Whole.Ecs
/-
C92: the usual three-stage configurations, with any channel names and any settings, start the program of C76.
-/
namespace Verif.Whole
open Verif.Decimal (Str)
open Verif.Exporter (Bytes)
open Verif.FlatRecord
open Verif.Policy
open Verif.Falco
open Verif.Processor (Rec HCall)
open Verif.Flattener (FLib)
open Verif.Pipeline
open Verif.Pipeline.Process
open Verif.Pipeline.Drain (Net Comp sync engine exporter chain)
open Verif.Config (XConf XVal XConfig ConfEnv EngineConfig createConfigX createEngineConfig createFlattenerConfig engineInit)

variable {P : Type}

/-! ### Specification -/

/-- A configuration of three stages, SysFlow reader with the flattener, policy engine, exporter, connected by channels named `a`, `b`, `d`. (The type in a second reference to a channel plays no
role.) -/
structure Usual (c1 c2 c3 : Pipeline.Conf) (a b d : Str) : Prop where
  reader : strAt c1 "processor".toList = some "sysflowreader".toList
  handler : strAt c1 "handler".toList = some "flattener".toList
  engine : strAt c2 "processor".toList = some "policyengine".toList
  exporter : strAt c3 "processor".toList = some "exporter".toList
  in1 : ∃ s, declared c1 "in".toList = [some s] ∧ fields s = [a, "sysflowchan".toList]
  out1 : ∃ s, declared c1 "out".toList = [some s] ∧ fields s = [b, "flattenerchan".toList]
  in2 : ∃ s t, declared c2 "in".toList = [some s] ∧ fields s = [b, t]
  out2 : ∃ s, declared c2 "out".toList = [some s] ∧ fields s = [d, "eventchan".toList]
  in3 : ∃ s t, declared c3 "in".toList = [some s] ∧ fields s = [d, t]
  out3 : c3.get "out".toList = none
  ab : a ≠ b
  bd : b ≠ d
  ad : a ≠ d

/-- The program that such a configuration with policies describes: each parameter of the program (see `Setup`) is the setting of the configuration. -/
def World.setup (W : World P) (c1 c2 : Pipeline.Conf) (x : XConfig) (p : P) : Setup P where
  L := W.L
  F := W.F
  str := W.str
  texts := W.texts
  code := W.code
  enrich := (engineConf c2).mode == .enrich
  builtIn := W.builtIn
  user := W.user
  workers := (engineConf c2).concurrency.toNat
  monitor := (engineConf c2).monitor == .loc
  interval := seconds (engineConf c2).monitorInterval
  buffer := x.eventBuffer
  version := Utf8.bytes x.jsonSchemaVersion
  sipAlias := W.sipAlias
  cap := 100000
  fuel := W.fuel
  dedup := (createFlattenerConfig (Config.toConf (xconf c1))).1.filterOn
  ttl := seconds (createFlattenerConfig (Config.toConf (xconf c1))).1.maxAge
  clock := W.clock
  policies := p
  pending := W.pending
  start := W.start

/-- What makes the initialisation of the policy engine and of the exporter succeed, with policies `p` and exporter configuration `x`: a policy path whose policies compile, a number of workers that is
not negative; a valid exporter configuration whose destination can be opened. -/
structure World.Ready (W : World P) (c2 c3 : Pipeline.Conf) (x : XConfig) (p : P) : Prop where
  path : (engineConf c2).policiesPath ≠ []
  built : W.policyAt (engineConf c2) = some p
  workers : 0 ≤ (engineConf c2).concurrency
  conf : createConfigX W.secrets (xconf c3) = some x
  dest : W.exports x = true

/-- The same for enrich mode without policies. -/
structure World.ReadyBypass (W : World P) (c2 c3 : Pipeline.Conf) (x : XConfig) : Prop where
  path : (engineConf c2).policiesPath = []
  mode : (engineConf c2).mode = .enrich
  conf : createConfigX W.secrets (xconf c3) = some x
  dest : W.exports x = true

/-! ### Proofs -/

def fullRegs : Regs Factory := bootRegs.addAll handlerRegs

theorem boot_reader (W : World P) : W.env.getProc bootRegs "sysflowreader".toList = (bootRegs, .ok .reader) := by
  have h : bootRegs.procs.get "sysflowreader".toList = some .reader := by decide +kernel
  unfold World.env
  dsimp only
  unfold Regs.getProcessor
  rw [h]

theorem full_engine (W : World P) : W.env.getProc fullRegs "policyengine".toList = (fullRegs, .ok .engine) := by
  have h : fullRegs.procs.get "policyengine".toList = some .engine := by decide +kernel
  unfold World.env
  dsimp only
  unfold Regs.getProcessor
  rw [h]

theorem full_exporter (W : World P) : W.env.getProc fullRegs "exporter".toList = (fullRegs, .ok .exporter) := by
  have h : fullRegs.procs.get "exporter".toList = some .exporter := by decide +kernel
  unfold World.env
  dsimp only
  unfold Regs.getProcessor
  rw [h]

theorem init_reader (W : World P) (c : Pipeline.Conf) (h : strAt c "handler".toList = some "flattener".toList) : W.env.init .reader c bootRegs = .ok fullRegs := by
  have h0 : bootRegs.handlers.get "flattener".toList = none := by decide +kernel
  have h1 : fullRegs.handlers.get "flattener".toList = some .flattener := by decide +kernel
  have e : Regs.getHandler W.loadHandler fullRegs c = (fullRegs, .ok .flattener) := by
    unfold Regs.getHandler
    rw [h]
    dsimp only
    rw [h1]
  unfold World.env
  dsimp only
  rw [h0]
  rw [if_neg (by decide)]
  change (match Regs.getHandler W.loadHandler fullRegs c with
      | (r2, .ok _) => Res.ok r2
      | (_, .err) => .err
      | (_, .panic) => .panic) = _
  rw [e]

theorem getChan_new {F : Type} (r : Regs F) (cs : Chans F) (s n t : Str) (f : F) (hs : fields s = [n, t]) (hn : cs.byName.get n = none) (ht : r.chans.get t = some f) :
    getChan r cs s = (⟨cs.byName.set n ⟨cs.next, f⟩, cs.next + 1⟩, .ok ⟨cs.next, f⟩) := by
  unfold getChan
  rw [hs]
  dsimp only
  rw [if_neg (by simp), hn, ht]

theorem getChan_old {F : Type} (r : Regs F) (cs : Chans F) (s n t : Str) (c : Chan F) (hs : fields s = [n, t]) (hn : cs.byName.get n = some c) : getChan r cs s = (cs, .ok c) :=
  type_of_later_reference_ignored r cs s n t c hs hn

theorem getChans_one {F : Type} (r : Regs F) (cs cs' : Chans F) (s : Str) (c : Chan F) (h : getChan r cs s = (cs', .ok c)) : getChans r cs [some s] = (cs', .ok [c]) := by
  unfold getChans
  rw [h]
  rfl

theorem declared_some {c : Pipeline.Conf} {k : Str} {s : Str} (h : declared c k = [some s]) : ∃ v, c.get k = some v ∧ chanNames v = [some s] := by
  unfold declared at h
  cases hc : c.get k with
  | none => rw [hc] at h; cases h
  | some v => rw [hc] at h; exact ⟨v, rfl, h⟩

/-- A stage that is found, initialised and connected. -/
theorem loadStage_io {F : Type} (E : Env F) (l : Load F) (c : Pipeline.Conf) (p : Str) (f : F) (r1 r2 : Regs F) (si so : Str) (cs1 cs2 : Chans F) (ci co : Chan F)
    (hp : strAt c kProc = some p) (hg : E.getProc l.regs p = (r1, .ok f)) (hi : E.init f c r1 = .ok r2) (hin : declared c kIn = [some si]) (hout : declared c kOut = [some so])
    (hci : getChan r2 l.chans si = (cs1, .ok ci)) (hco : getChan r2 cs1 so = (cs2, .ok co)) :
    loadStage E l c = .done { regs := r2, chans := cs2, stages := l.stages ++ [⟨f, [ci], some [co]⟩], channels := l.channels ++ [ci] ++ [co] } := by
  obtain ⟨vi, h1, h2⟩ := declared_some hin
  obtain ⟨vo, h3, h4⟩ := declared_some hout
  unfold loadStage
  simp only [hp, hg, hi, h1, h2, h3, h4, getChans_one _ _ _ _ _ hci, getChans_one _ _ _ _ _ hco]

theorem loadStage_i {F : Type} (E : Env F) (l : Load F) (c : Pipeline.Conf) (p : Str) (f : F) (r1 r2 : Regs F) (si : Str) (cs1 : Chans F) (ci : Chan F)
    (hp : strAt c kProc = some p) (hg : E.getProc l.regs p = (r1, .ok f)) (hi : E.init f c r1 = .ok r2) (hin : declared c kIn = [some si]) (hout : c.get kOut = none)
    (hci : getChan r2 l.chans si = (cs1, .ok ci)) :
    loadStage E l c = .done { regs := r2, chans := cs1, stages := l.stages ++ [⟨f, [ci], none⟩], channels := l.channels ++ [ci] } := by
  obtain ⟨vi, h1, h2⟩ := declared_some hin
  unfold loadStage
  simp only [hp, hg, hi, h1, h2, hout, getChans_one _ _ _ _ _ hci]

theorem loadStages_cons {F : Type} {E : Env F} {l l' : Load F} {c : Pipeline.Conf} {cs : List Pipeline.Conf} (h : loadStage E l c = .done l') :
    loadStages E l (c :: cs) = loadStages E l' cs := by
  conv_lhs => unfold loadStages
  rw [h]

/-- The three stages that are started. -/
def usualStages : List (Stage Factory) :=
  [⟨.reader, [⟨0, .sysflowChan⟩], some [⟨1, .flatChan⟩]⟩, ⟨.engine, [⟨1, .flatChan⟩], some [⟨2, .eventChan⟩]⟩, ⟨.exporter, [⟨2, .eventChan⟩], none⟩]

/-- The channels after the first stage; after the second. -/
def chans1 (a b : Str) : Chans Factory := ⟨AMap.set (AMap.set [] a ⟨0, .sysflowChan⟩) b ⟨1, .flatChan⟩, 2⟩
def chans2 (a b d : Str) : Chans Factory := ⟨AMap.set (AMap.set (AMap.set [] a ⟨0, .sysflowChan⟩) b ⟨1, .flatChan⟩) d ⟨2, .eventChan⟩, 3⟩

def afterReader (a b : Str) : Load Factory :=
  { regs := fullRegs, chans := chans1 a b, stages := [⟨.reader, [⟨0, .sysflowChan⟩], some [⟨1, .flatChan⟩]⟩], channels := [⟨0, .sysflowChan⟩, ⟨1, .flatChan⟩] }
def afterEngine (a b d : Str) : Load Factory :=
  { regs := fullRegs, chans := chans2 a b d, stages := [⟨.reader, [⟨0, .sysflowChan⟩], some [⟨1, .flatChan⟩]⟩, ⟨.engine, [⟨1, .flatChan⟩], some [⟨2, .eventChan⟩]⟩],
    channels := [⟨0, .sysflowChan⟩, ⟨1, .flatChan⟩, ⟨1, .flatChan⟩, ⟨2, .eventChan⟩] }

theorem usual_first (W : World P) {c1 c2 c3 : Pipeline.Conf} {a b d : Str} (u : Usual c1 c2 c3 a b d) : loadStage W.env { regs := bootRegs } c1 = .done (afterReader a b) := by
  obtain ⟨s1, hi1, f1⟩ := u.in1
  obtain ⟨s2, ho1, f2⟩ := u.out1
  have k1 : fullRegs.chans.get "sysflowchan".toList = some .sysflowChan := by decide +kernel
  have k2 : fullRegs.chans.get "flattenerchan".toList = some .flatChan := by decide +kernel
  have g1 := getChan_new fullRegs ({} : Chans Factory) s1 a _ _ f1 rfl k1
  have g2 := getChan_new fullRegs ⟨AMap.set [] a ⟨0, .sysflowChan⟩, 1⟩ s2 b _ _ f2 (by rw [AMap.get_set, if_neg u.ab]; rfl) k2
  exact loadStage_io W.env { regs := bootRegs } c1 _ _ _ _ _ _ _ _ _ _ u.reader (boot_reader W) (init_reader W c1 u.handler) hi1 ho1 g1 g2

theorem usual_second (W : World P) {c1 c2 c3 : Pipeline.Conf} {a b d : Str} (u : Usual c1 c2 c3 a b d) (he : W.env.init .engine c2 fullRegs = .ok fullRegs) :
    loadStage W.env (afterReader a b) c2 = .done (afterEngine a b d) := by
  obtain ⟨s3, t3, hi2, f3⟩ := u.in2
  obtain ⟨s4, ho2, f4⟩ := u.out2
  have k3 : fullRegs.chans.get "eventchan".toList = some .eventChan := by decide +kernel
  have g3 := getChan_old fullRegs (chans1 a b) s3 b t3 ⟨1, .flatChan⟩ f3 (by unfold chans1; rw [AMap.get_set, if_pos rfl])
  have g4 := getChan_new fullRegs (chans1 a b) s4 d _ _ f4 (by unfold chans1; rw [AMap.get_set, if_neg u.bd, AMap.get_set, if_neg u.ad]; rfl) k3
  exact loadStage_io W.env (afterReader a b) c2 _ _ _ _ _ _ _ _ _ _ u.engine (full_engine W) he hi2 ho2 g3 g4

/-- Loading such a configuration. -/
theorem usual_loads (W : World P) {c1 c2 c3 : Pipeline.Conf} {a b d : Str} (u : Usual c1 c2 c3 a b d) (he : W.env.init .engine c2 fullRegs = .ok fullRegs)
    (hx : W.env.init .exporter c3 fullRegs = .ok fullRegs) :
    ∃ l, loadStages W.env { regs := bootRegs } [c1, c2, c3] = .done l ∧ l.stages = usualStages ∧ rootChannel l = some ⟨0, .sysflowChan⟩ := by
  obtain ⟨s5, t5, hi3, f5⟩ := u.in3
  have g5 := getChan_old fullRegs (chans2 a b d) s5 d t5 ⟨2, .eventChan⟩ f5 (by unfold chans2; rw [AMap.get_set, if_pos rfl])
  have L3 := loadStage_i W.env (afterEngine a b d) c3 _ _ _ _ _ _ _ u.exporter (full_exporter W) hx hi3 u.out3 g5
  exact ⟨_, (loadStages_cons (usual_first W u)).trans ((loadStages_cons (usual_second W u he)).trans ((loadStages_cons L3).trans rfl)), rfl, rfl⟩

theorem init_engine (W : World P) {c2 c3 : Pipeline.Conf} {x : XConfig} {p : P} (h : W.Ready c2 c3 x p) (r : Regs Factory) : W.env.init .engine c2 r = .ok r := by
  have e : engineInit (Config.toConf (xconf c2)) (W.policyAt (engineConf c2)).isSome = .running (engineConf c2).concurrency ((engineConf c2).monitor == .loc) := by
    rw [h.built]
    unfold engineInit
    change (if (engineConf c2).policiesPath = [] then _ else if true = true then (if (engineConf c2).concurrency < 0 then _ else _) else _) = _
    rw [if_neg h.path, if_pos rfl, if_neg (Int.not_lt.2 h.workers)]
    rfl
  unfold World.env
  dsimp only
  rw [e]

theorem init_engine_bypass (W : World P) {c2 c3 : Pipeline.Conf} {x : XConfig} (h : W.ReadyBypass c2 c3 x) (r : Regs Factory) : W.env.init .engine c2 r = .ok r := by
  have e : engineInit (Config.toConf (xconf c2)) (W.policyAt (engineConf c2)).isSome = .bypass := by
    unfold engineInit
    change (if (engineConf c2).policiesPath = [] then (match (engineConf c2).mode with | .enrich => _ | .alert => _) else _) = _
    rw [if_pos h.path, h.mode]
  unfold World.env
  dsimp only
  rw [e]

theorem init_exporter (W : World P) {c3 : Pipeline.Conf} {x : XConfig} (h : createConfigX W.secrets (xconf c3) = some x) (hx : W.exports x = true) (r : Regs Factory) :
    W.env.init .exporter c3 r = .ok r := by
  unfold World.env
  dsimp only
  rw [h]
  dsimp only
  rw [if_pos hx]

/-- The network of the three stages, whatever they are. -/
theorem usual_chain (W : World P) (c1 c2 c3 : Pipeline.Conf) (l : Load Factory) (h : l.stages = usualStages) (cap : Nat) :
    netOf W.comp [c1, c2, c3] l cap = chain [W.comp c1 ⟨.reader, [⟨0, .sysflowChan⟩], some [⟨1, .flatChan⟩]⟩, W.comp c2 ⟨.engine, [⟨1, .flatChan⟩], some [⟨2, .eventChan⟩]⟩,
      W.comp c3 ⟨.exporter, [⟨2, .eventChan⟩], none⟩] cap := by
  have hr0 : readerOf l ⟨1, .flatChan⟩ = some 1 := by unfold readerOf; rw [h]; rfl
  have hr1 : readerOf l ⟨2, .eventChan⟩ = some 2 := by unfold readerOf; rw [h]; rfl
  have hn : l.stages.length = 3 := by rw [h]; rfl
  have hc : (fun (i : Nat) => (([c1, c2, c3].zip l.stages)[i]?.map (fun p => W.comp p.1 p.2)).getD (Drain.idle Msg)) =
      fun (i : Nat) => [W.comp c1 ⟨.reader, [⟨0, .sysflowChan⟩], some [⟨1, .flatChan⟩]⟩, W.comp c2 ⟨.engine, [⟨1, .flatChan⟩], some [⟨2, .eventChan⟩]⟩,
        W.comp c3 ⟨.exporter, [⟨2, .eventChan⟩], none⟩].getD i (Drain.idle Msg) := by
    funext i
    rw [h]
    match i with
    | 0 => rfl
    | 1 => rfl
    | 2 => rfl
    | i + 3 => rfl
  have ht : (fun (i k : Nat) => ((l.stages[i]?.bind (fun st => (st.outs.getD [])[k]?)).bind (readerOf l)).getD (i + 1)) = fun (i _ : Nat) => i + 1 := by
    funext i k
    rw [h]
    match i, k with
    | 0, 0 => change (readerOf l ⟨1, .flatChan⟩).getD 1 = 1; rw [hr0]; rfl
    | 1, 0 => change (readerOf l ⟨2, .eventChan⟩).getD 2 = 2; rw [hr1]; rfl
    | 2, _ => rfl
    | 0, k + 1 => rfl
    | 1, k + 1 => rfl
    | i + 3, _ => rfl
  unfold netOf chain
  rw [hc, ht, hn]
  rfl

theorem usual_typed {l : Load Factory} (h2 : l.stages = usualStages) : ∀ st ∈ l.stages, Typed st := by
  rw [h2]
  intro st hst
  rcases List.mem_cons.1 hst with rfl | hst
  · exact ⟨rfl, fun e he => by rw [List.mem_singleton.1 he]⟩
  · rcases List.mem_cons.1 hst with rfl | hst
    · exact ⟨rfl, fun e he => by rw [List.mem_singleton.1 he]⟩
    · rw [List.mem_singleton.1 hst]; rfl

/-- **C92** Policies. A usual configuration whose stages can be initialised is loaded, no stage is started with a channel of the wrong type, the driver is given the reader's input channel, and the
network started is the chain of the reader, the policy engine and the exporter, each with the settings of the configuration. -/
theorem usual_boots (W : World P) {c1 c2 c3 : Pipeline.Conf} {a b d : Str} (u : Usual c1 c2 c3 a b d) {x : XConfig} {p : P} (h : W.Ready c2 c3 x p) :
    ∃ l, loadStages W.env { regs := bootRegs } [c1, c2, c3] = .done l ∧ (∀ st ∈ l.stages, Typed st) ∧ l.stages.head?.map (·.ins) = (rootChannel l).map ([·]) ∧
      netOf W.comp [c1, c2, c3] l chanSize =
        chain [sync (readerStep W.F W.fuel W.clock) (W.setup c1 c2 x p).reader0 1, engine (W.setup c1 c2 x p).cfg p W.start W.pending, W.exporterComp x] chanSize := by
  obtain ⟨l, h1, h2, h3⟩ := usual_loads W u (init_engine W h _) (init_exporter W h.conf h.dest _)
  refine ⟨l, h1, usual_typed h2, by rw [h2, h3]; rfl, ?_⟩
  · rw [usual_chain W c1 c2 c3 l h2]
    have e2 : W.comp c2 ⟨.engine, [⟨1, .flatChan⟩], some [⟨2, .eventChan⟩]⟩ = engine (W.setup c1 c2 x p).cfg p W.start W.pending := by
      unfold World.comp
      dsimp only
      rw [h.built]
      cases hp : (engineConf c2).policiesPath with
      | nil => exact absurd hp h.path
      | cons _ _ => rfl
    have e3 : W.comp c3 ⟨.exporter, [⟨2, .eventChan⟩], none⟩ = W.exporterComp x := by
      unfold World.comp
      dsimp only
      rw [h.conf]
    rw [e2, e3]
    rfl

/-- **C92** With JSON to a file that can be written, this is the program of C76. -/
theorem usual_file_json (W : World P) (c1 c2 : Pipeline.Conf) {x : XConfig} {p : P} (hf : x.format = .json) (ht : x.transport = .file) (hw : ∀ k, W.writes k = none) :
    chain [sync (readerStep W.F W.fuel W.clock) (W.setup c1 c2 x p).reader0 1, engine (W.setup c1 c2 x p).cfg p W.start W.pending, W.exporterComp x] chanSize = (W.setup c1 c2 x p).net := by
  have hw : W.writes = fun _ => none := funext hw
  have e3 : W.exporterComp x = exporter (Exporter.allOrNone (W.setup c1 c2 x p).enc) (Exporter.fileTransport (fun _ => none)) x.eventBuffer Exporter.newFile W.start := by
    have he : W.encode x = (W.setup c1 c2 x p).enc := by
      funext m
      unfold World.encode
      rw [hf]
      cases m <;> rfl
    unfold World.exporterComp
    rw [ht, he, hw]
  rw [e3]
  rfl

/-- The file side of the ECS encoder. -/
def World.ecsSide (W : World P) (c1 c2 : Pipeline.Conf) (x : XConfig) (p : P) : EcsSide (W.setup c1 c2 x p) := ⟨W.ecs x, W.E, rfl⟩

theorem ecs_encode (W : World P) (c1 c2 : Pipeline.Conf) {x : XConfig} {p : P} (hf : x.format = .ecs) :
    W.encode x = (W.ecsSide c1 c2 x p).toFile ∧ W.encodeE x = (W.ecsSide c1 c2 x p).toElastic := by
  constructor
  · funext m
    unfold World.encode
    rw [hf]
    cases m <;> rfl
  · funext m
    unfold World.encodeE
    rw [hf]
    cases m <;> rfl

/-- **C92** With ECS documents to a file that can be written, it is the program of C82; with ECS documents to Elastic through a library whose calls succeed, too. -/
theorem usual_file_ecs (W : World P) (c1 c2 : Pipeline.Conf) {x : XConfig} {p : P} (hf : x.format = .ecs) (ht : x.transport = .file) (hw : ∀ k, W.writes k = none) :
    chain [sync (readerStep W.F W.fuel W.clock) (W.setup c1 c2 x p).reader0 1, engine (W.setup c1 c2 x p).cfg p W.start W.pending, W.exporterComp x] chanSize = (W.ecsSide c1 c2 x p).fileNet := by
  have hw : W.writes = fun _ => none := funext hw
  have e3 : W.exporterComp x = exporter (Exporter.allOrNone (W.ecsSide c1 c2 x p).toFile) (Exporter.fileTransport (fun _ => none)) x.eventBuffer Exporter.newFile W.start := by
    unfold World.exporterComp
    rw [ht, (ecs_encode W c1 c2 hf (p := p)).1, hw]
  rw [e3]
  rfl

theorem usual_elastic (W : World P) (c1 c2 : Pipeline.Conf) {x : XConfig} {p : P} (hf : x.format = .ecs) (ht : x.transport = .es) (hw : ∀ k, W.sends k = true) :
    chain [sync (readerStep W.F W.fuel W.clock) (W.setup c1 c2 x p).reader0 1, engine (W.setup c1 c2 x p).cfg p W.start W.pending, W.exporterComp x] chanSize =
      (W.ecsSide c1 c2 x p).elasticNet := by
  have hw : W.sends = fun _ => true := funext hw
  have e3 : W.exporterComp x = exporter (Exporter.allOrNone (W.ecsSide c1 c2 x p).toElastic) (Exporter.elastic (fun _ => true)) x.eventBuffer ⟨[], 0⟩ W.start := by
    unfold World.exporterComp
    rw [ht, (ecs_encode W c1 c2 hf (p := p)).2, hw]
  rw [e3]
  rfl

/-- **C92** Enrich mode without policies: the same network, with the policy engine that passes every record on (C86). -/
theorem usual_boots_bypass (W : World P) {c1 c2 c3 : Pipeline.Conf} {a b d : Str} (u : Usual c1 c2 c3 a b d) {x : XConfig} (h : W.ReadyBypass c2 c3 x) (p : P) :
    ∃ l, loadStages W.env { regs := bootRegs } [c1, c2, c3] = .done l ∧ (∀ st ∈ l.stages, Typed st) ∧ l.stages.head?.map (·.ins) = (rootChannel l).map ([·]) ∧
      netOf W.comp [c1, c2, c3] l chanSize =
        chain [sync (readerStep W.F W.fuel W.clock) (W.setup c1 c2 x p).reader0 1, sync bypassStep () 1, W.exporterComp x] chanSize ∧
      (x.format = .json → x.transport = .file → (∀ k, W.writes k = none) → netOf W.comp [c1, c2, c3] l chanSize = (W.setup c1 c2 x p).bypassNet (W.setup c1 c2 x p).enc) := by
  obtain ⟨l, h1, h2, h3⟩ := usual_loads W u (init_engine_bypass W h _) (init_exporter W h.conf h.dest _)
  have hnet : netOf W.comp [c1, c2, c3] l chanSize =
      chain [sync (readerStep W.F W.fuel W.clock) (W.setup c1 c2 x p).reader0 1, sync bypassStep () 1, W.exporterComp x] chanSize := by
    rw [usual_chain W c1 c2 c3 l h2]
    have e2 : W.comp c2 ⟨.engine, [⟨1, .flatChan⟩], some [⟨2, .eventChan⟩]⟩ = sync bypassStep () 1 := by
      unfold World.comp
      dsimp only
      rw [h.path]
      rfl
    have e3 : W.comp c3 ⟨.exporter, [⟨2, .eventChan⟩], none⟩ = W.exporterComp x := by
      unfold World.comp
      dsimp only
      rw [h.conf]
    rw [e2, e3]
    rfl
  refine ⟨l, h1, usual_typed h2, by rw [h2, h3]; rfl, hnet, ?_⟩
  intro hf ht hw
  have hw : W.writes = fun _ => none := funext hw
  rw [hnet]
  have e3 : W.exporterComp x = exporter (Exporter.allOrNone (W.setup c1 c2 x p).enc) (Exporter.fileTransport (fun _ => none)) x.eventBuffer Exporter.newFile W.start := by
    have he : W.encode x = (W.setup c1 c2 x p).enc := by
      funext m
      unfold World.encode
      rw [hf]
      cases m <;> rfl
    unfold World.exporterComp
    rw [ht, he, hw]
  rw [e3]
  rfl

/-- **C50** A configured number of seconds (the age of the duplicate filter, the interval of the policy monitor) is that many thousand millions of nanoseconds, up to 292 years. -/
theorem seconds_exact (n : Int) (h1 : -9223372036 ≤ n) (h2 : n ≤ 9223372036) : seconds n = n * 10 ^ 9 := by
  unfold seconds
  rw [Int.bmod_eq_of_le (by omega) (by omega)]
  rfl

/-- **C50**, finding: one second more and the duration is negative. -/
theorem seconds_overflow : seconds 9223372037 < 0 := by decide

/-- **C50** So the age of the duplicate filter and the interval of the policy monitor that the program runs with are the configured ones. -/
theorem configured_durations (W : World P) (c1 c2 : Pipeline.Conf) (x : XConfig) (p : P) (age interval : Int)
    (ha : (createFlattenerConfig (Config.toConf (xconf c1))).1.maxAge = age) (hi : (engineConf c2).monitorInterval = interval)
    (ba : -9223372036 ≤ age ∧ age ≤ 9223372036) (bi : -9223372036 ≤ interval ∧ interval ≤ 9223372036) :
    (W.setup c1 c2 x p).ttl = age * 10 ^ 9 ∧ (W.setup c1 c2 x p).interval = interval * 10 ^ 9 := by
  subst ha hi
  exact ⟨seconds_exact _ ba.1 ba.2, seconds_exact _ bi.1 bi.2⟩

end Verif.Whole
