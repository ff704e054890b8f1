import Verif.Whole.OtelSeries
import Verif.Whole.OtelBoot
/-
C114: configurations of policy engines in a row, in the build for OpenTelemetry logs: loading, the network started, and runs of the file driver.
Sources: /repo/driver/pipeline/pipeline.go:84-201, /repo/core/policyengine/policyengine.go:40-160, 212-218
-/
namespace Verif.OtelRun
open Verif.Decimal (Str)
open Verif.Exporter (Bytes)
open Verif.Policy
open Verif.Otel
open Verif.Falco (Decl GPolicy ltokens StrRule Cyclic MentionsE sites asRule asFilter siteCond)
open Verif.Pipeline
open Verif.Pipeline.Process
open Verif.Pipeline.Drain (Net Comp sync engine exporter chain driven Exec Waited emitted)
open Verif.Config (XConf XVal XConfig ConfEnv EngineConfig createConfigX createEngineConfig createFlattenerConfig engineInit)
open Verif.Whole (Factory bootRegs fullRegs handlerRegs xconf engineConf seconds chanSize getChan_new getChan_old loadStage_io loadStage_i loadStages_cons)

variable {P : Type}

/-! ### Specification -/

/-- A configuration of policy engines in a row and an exporter behind them: the first engine reads the channel `names 0`, of the driver's type; each engine writes the channel that the next one reads. -/
structure RowConf (es : List Pipeline.Conf) (c : Pipeline.Conf) (names : Nat → Str) : Prop where
  nonempty : es ≠ []
  engines : ∀ (i : Nat) e, es[i]? = some e → strAt e "processor".toList = some "policyengine".toList ∧
    (∃ s t, declared e "in".toList = [some s] ∧ fields s = [names i, t] ∧ (i = 0 → t = "otelchan".toList)) ∧
    ∃ s, declared e "out".toList = [some s] ∧ fields s = [names (i + 1), "eventchan".toList]
  exporter : strAt c "processor".toList = some "exporter".toList
  input : ∃ s t, declared c "in".toList = [some s] ∧ fields s = [names es.length, t]
  last : c.get "out".toList = none
  distinct : ∀ i j, i ≤ es.length → j ≤ es.length → names i = names j → i = j

/-- What makes the initialisation of the policy engines and of the exporter succeed, with policies `pol` and exporter configuration `x`. -/
structure World.RowReady (W : World P) (es : List Pipeline.Conf) (c : Pipeline.Conf) (x : XConfig) (pol : Pipeline.Conf → P) : Prop where
  engines : ∀ e ∈ es, (engineConf e).policiesPath ≠ [] ∧ W.policyAt (engineConf e) = some (pol e) ∧ 0 < (engineConf e).concurrency
  conf : createConfigX W.secrets (xconf c) = some x
  dest : W.exports x = true

/-! ### Proofs -/

/-- The channel between engines. -/
def chanAt (i : Nat) : Chan Factory := ⟨i, if i = 0 then .otelChan else .eventChan⟩

def rowChans (names : Nat → Str) : Nat → Chans Factory
  | 0 => ⟨AMap.set [] (names 0) (chanAt 0), 1⟩
  | n + 1 => ⟨AMap.set (rowChans names n).byName (names (n + 1)) (chanAt (n + 1)), n + 2⟩

def rowStages (n : Nat) : List (Stage Factory) := (List.range n).map (fun i => ⟨.engine, [chanAt i], some [chanAt (i + 1)]⟩)

theorem rowStages_succ (n : Nat) : rowStages (n + 1) = rowStages n ++ [⟨.engine, [chanAt n], some [chanAt (n + 1)]⟩] := by
  unfold rowStages
  rw [List.range_succ, List.map_append]
  rfl

theorem rowChans_next (names : Nat → Str) (n : Nat) : (rowChans names n).next = n + 1 := by cases n <;> rfl

theorem rowChans_get (names : Nat → Str) (len : Nat) (hd : ∀ i j, i ≤ len → j ≤ len → names i = names j → i = j) : ∀ n, n ≤ len → ∀ i, i ≤ len →
    (rowChans names n).byName.get (names i) = if i ≤ n then some (chanAt i) else none := by
  intro n
  induction n with
  | zero =>
    intro hn i hi
    unfold rowChans
    dsimp only
    rw [AMap.get_set]
    by_cases h : i = 0
    · subst h; rw [if_pos rfl, if_pos (Nat.le_refl _)]
    · rw [if_neg (fun e => h (hd i 0 hi hn e.symm)), if_neg (by omega)]
      rfl
  | succ n ih =>
    intro hn i hi
    unfold rowChans
    dsimp only
    rw [AMap.get_set]
    by_cases h : i = n + 1
    · subst h; rw [if_pos rfl, if_pos (Nat.le_refl _)]
    · rw [if_neg (fun e => h (hd i (n + 1) hi hn e.symm)), ih (by omega) i hi]
      by_cases h2 : i ≤ n
      · rw [if_pos h2, if_pos (by omega)]
      · rw [if_neg h2, if_neg (by omega)]

/-- What is loaded after the first `n` engines. -/
structure RowLoaded (names : Nat → Str) (n : Nat) (l : Load Factory) : Prop where
  regs : l.regs = bootRegs
  chans : l.chans = rowChans names n
  stages : l.stages = rowStages n
  root : rootChannel l = some (chanAt 0)

theorem row_first (W : World P) {es : List Pipeline.Conf} {c e : Pipeline.Conf} {names : Nat → Str} (u : RowConf es c names) (he : es[0]? = some e) (hi : W.env.init .engine e bootRegs = .ok bootRegs) :
    ∃ l, loadStage W.env { regs := bootRegs } e = .done l ∧ RowLoaded names 1 l := by
  obtain ⟨h1, ⟨s1, t, hi1, f1, ht⟩, s2, ho1, f2⟩ := u.engines 0 e he
  rw [ht rfl] at f1
  have hlen : 1 ≤ es.length := by
    cases hes : es with
    | nil => exact absurd hes u.nonempty
    | cons _ _ => simp
  have k1 : bootRegs.chans.get "otelchan".toList = some .otelChan := by decide +kernel
  have k2 : bootRegs.chans.get "eventchan".toList = some .eventChan := by decide +kernel
  have g1 := getChan_new bootRegs ({} : Chans Factory) s1 (names 0) _ _ f1 rfl k1
  have g2 := getChan_new bootRegs (rowChans names 0) s2 (names 1) _ _ f2 (by rw [rowChans_get names es.length u.distinct 0 (by omega) 1 hlen]; rfl) k2
  refine ⟨_, loadStage_io W.env { regs := bootRegs } e _ _ _ _ _ _ _ _ _ _ h1 (boot_engine W) hi hi1 ho1 g1 g2, rfl, rfl, rfl, rfl⟩

theorem row_next (W : World P) {es : List Pipeline.Conf} {c e : Pipeline.Conf} {names : Nat → Str} (u : RowConf es c names) {n : Nat} (hn : 1 ≤ n) (he : es[n]? = some e)
    (hi : W.env.init .engine e bootRegs = .ok bootRegs) {l : Load Factory} (hl : RowLoaded names n l) : ∃ l', loadStage W.env l e = .done l' ∧ RowLoaded names (n + 1) l' := by
  obtain ⟨h1, ⟨s1, t, hi1, f1, -⟩, s2, ho1, f2⟩ := u.engines n e he
  have hlen : n < es.length := (List.getElem?_eq_some_iff.1 he).1
  have k2 : bootRegs.chans.get "eventchan".toList = some .eventChan := by decide +kernel
  have g1 := getChan_old bootRegs (rowChans names n) s1 (names n) t (chanAt n) f1 (by rw [rowChans_get names es.length u.distinct n (by omega) n (by omega), if_pos (Nat.le_refl _)])
  have g2 := getChan_new bootRegs (rowChans names n) s2 (names (n + 1)) _ _ f2 (by rw [rowChans_get names es.length u.distinct n (by omega) (n + 1) (by omega), if_neg (by omega)]) k2
  rw [rowChans_next] at g2
  rw [← hl.chans] at g1
  have hreg : W.env.getProc l.regs "policyengine".toList = (bootRegs, .ok .engine) := by rw [hl.regs]; exact boot_engine W
  refine ⟨_, loadStage_io W.env l e _ _ _ _ _ _ _ _ _ _ h1 hreg hi hi1 ho1 g1 (by rw [hl.chans]; exact g2), rfl, rfl, ?_, ?_⟩
  · rw [rowStages_succ, ← hl.stages]
    rfl
  · have := hl.root
    unfold rootChannel at this ⊢
    dsimp only
    cases hc : l.channels with
    | nil => rw [hc] at this; cases this
    | cons a b => rw [hc] at this; exact this

theorem row_loads (W : World P) {es : List Pipeline.Conf} {c : Pipeline.Conf} {names : Nat → Str} (u : RowConf es c names) (he : ∀ e ∈ es, W.env.init .engine e bootRegs = .ok bootRegs)
    (hx : W.env.init .exporter c bootRegs = .ok bootRegs) :
    ∃ l, loadStages W.env { regs := bootRegs } (es ++ [c]) = .done l ∧ l.stages = rowStages es.length ++ [⟨.exporter, [chanAt es.length], none⟩] ∧ rootChannel l = some (chanAt 0) := by
  have key : ∀ (suf pre : List Pipeline.Conf) (l : Load Factory), es = pre ++ suf → 1 ≤ pre.length → RowLoaded names pre.length l →
      ∃ l', loadStages W.env l (suf ++ [c]) = .done l' ∧ l'.stages = rowStages es.length ++ [⟨.exporter, [chanAt es.length], none⟩] ∧ rootChannel l' = some (chanAt 0) := by
    intro suf
    induction suf with
    | nil =>
      intro pre l hes hp hl
      rw [List.append_nil] at hes
      subst hes
      obtain ⟨s, t, hi, f⟩ := u.input
      have g := getChan_old bootRegs (rowChans names es.length) s (names es.length) t (chanAt es.length) f (by rw [rowChans_get names es.length u.distinct _ (Nat.le_refl _) _ (Nat.le_refl _), if_pos (Nat.le_refl _)])
      rw [← hl.chans] at g
      have hreg : W.env.getProc l.regs "exporter".toList = (bootRegs, .ok .exporter) := by rw [hl.regs]; exact boot_exporter W
      have L := loadStage_i W.env l c _ _ _ _ _ _ _ u.exporter hreg hx hi u.last g
      refine ⟨_, (loadStages_cons L).trans rfl, by rw [← hl.stages], ?_⟩
      have := hl.root
      unfold rootChannel at this ⊢
      dsimp only
      cases hc : l.channels with
      | nil => rw [hc] at this; cases this
      | cons a b => rw [hc] at this; exact this
    | cons e suf ih =>
      intro pre l hes hp hl
      have hget : es[pre.length]? = some e := by rw [hes]; simp
      obtain ⟨l1, h1, h2⟩ := row_next W u hp hget (he e (by rw [hes]; simp)) hl
      obtain ⟨l', i1, i2⟩ := ih (pre ++ [e]) l1 (by rw [hes]; simp) (by simp) (by simpa using h2)
      refine ⟨l', ?_, i2⟩
      rw [List.cons_append, loadStages_cons h1]
      exact i1
  cases hes : es with
  | nil => exact absurd hes u.nonempty
  | cons e rest =>
    obtain ⟨l1, h1, h2⟩ := row_first W u (by rw [hes]; rfl) (he e (by rw [hes]; simp))
    obtain ⟨l', i1, i2⟩ := key rest [e] l1 hes (by simp) h2
    refine ⟨l', ?_, ?_⟩
    · rw [List.cons_append, loadStages_cons h1]
      exact i1
    · rw [← hes]
      exact i2

theorem row_stage (n i : Nat) (hi : i < n) (y : Stage Factory) : (rowStages n ++ [y])[i]? = some ⟨.engine, [chanAt i], some [chanAt (i + 1)]⟩ := by
  rw [List.getElem?_append_left (by simp [rowStages]; exact hi)]
  unfold rowStages
  rw [List.getElem?_map, List.getElem?_range hi]
  rfl

theorem row_reader {l : Load Factory} (n : Nat) (h : l.stages = rowStages n ++ [⟨.exporter, [chanAt n], none⟩]) (i : Nat) (hi : i ≤ n) : readerOf l (chanAt i) = some i := by
  unfold readerOf
  rw [List.findIdx?_eq_some_iff_getElem]
  have hlen : l.stages.length = n + 1 := by rw [h]; simp [rowStages]
  have ins : ∀ j, j ≤ n → ∃ st, l.stages[j]? = some st ∧ st.ins = [chanAt j] := by
    intro j hj
    by_cases h1 : j < n
    · exact ⟨_, by rw [h]; exact row_stage n j h1 _, rfl⟩
    · have : j = n := by omega
      subst this
      exact ⟨⟨.exporter, [chanAt j], none⟩, by rw [h, List.getElem?_append_right (by simp [rowStages])]; simp [rowStages], rfl⟩
  refine ⟨by omega, ?_, ?_⟩
  · obtain ⟨st, h1, h2⟩ := ins i hi
    rw [List.getElem?_eq_getElem (by omega)] at h1
    injection h1 with h1
    rw [h1, h2]
    simp
  · intro j hj
    obtain ⟨st, h1, h2⟩ := ins j (by omega)
    rw [List.getElem?_eq_getElem (by omega)] at h1
    injection h1 with h1
    rw [h1, h2]
    simp [chanAt]
    omega

/-- The network of a row. -/
theorem row_chain (W : World P) (es : List Pipeline.Conf) (c : Pipeline.Conf) (l : Load Factory) (h : l.stages = rowStages es.length ++ [⟨.exporter, [chanAt es.length], none⟩]) (cap : Nat)
    (G : Pipeline.Conf → Comp ResourceLogs) (hG : ∀ e ∈ es, ∀ a b, W.comp e ⟨.engine, [a], some [b]⟩ = G e) (X : Comp ResourceLogs) (hX : ∀ a, W.comp c ⟨.exporter, [a], none⟩ = X) :
    netOf W.comp (es ++ [c]) l cap = chain (es.map G ++ [X]) cap := by
  have hlen : l.stages.length = es.length + 1 := by rw [h]; simp [rowStages]
  have hc : (fun (i : Nat) => (((es ++ [c]).zip l.stages)[i]?.map (fun p => W.comp p.1 p.2)).getD (Drain.idle ResourceLogs)) = fun (i : Nat) => (es.map G ++ [X]).getD i (Drain.idle ResourceLogs) := by
    have hm : ((es ++ [c]).zip l.stages).map (fun p => W.comp p.1 p.2) = es.map G ++ [X] := by
      apply List.ext_getElem?
      intro i
      rw [List.getElem?_map]
      by_cases hi : i < es.length
      · have e1 : ((es ++ [c]).zip l.stages)[i]? = some (es[i], ⟨.engine, [chanAt i], some [chanAt (i + 1)]⟩) := by
          rw [List.getElem?_zip_eq_some]
          refine ⟨by rw [List.getElem?_append_left hi, List.getElem?_eq_getElem hi], by rw [h]; exact row_stage _ _ hi _⟩
        rw [e1, List.getElem?_append_left (by simpa using hi), List.getElem?_map, List.getElem?_eq_getElem hi]
        exact congrArg some (hG _ (List.getElem_mem hi) _ _)
      · by_cases h2 : i = es.length
        · have e1 : ((es ++ [c]).zip l.stages)[i]? = some (c, ⟨.exporter, [chanAt es.length], none⟩) := by
            rw [List.getElem?_zip_eq_some, h, h2]
            refine ⟨by simp, ?_⟩
            rw [List.getElem?_append_right (by simp [rowStages])]
            simp [rowStages]
          rw [e1, h2, List.getElem?_append_right (by simp)]
          simpa using hX _
        · rw [List.getElem?_eq_none (by simp; omega), List.getElem?_eq_none (by simp; omega)]
          rfl
    funext i
    rw [List.getD_eq_getElem?_getD, ← hm, List.getElem?_map]
  have ht : (fun (i k : Nat) => ((l.stages[i]?.bind (fun st => (st.outs.getD [])[k]?)).bind (readerOf l)).getD (i + 1)) = fun (i _ : Nat) => i + 1 := by
    funext i k
    by_cases hi : i < es.length
    · rw [h, row_stage es.length i hi]
      cases k with
      | zero =>
        change (readerOf l (chanAt (i + 1))).getD (i + 1) = i + 1
        rw [row_reader es.length h (i + 1) (by omega)]
        rfl
      | succ k => rfl
    · by_cases h2 : i = es.length
      · subst h2
        rw [h, List.getElem?_append_right (by simp [rowStages])]
        simp [rowStages]
      · rw [List.getElem?_eq_none (by omega)]
        rfl
  unfold netOf chain
  rw [hc, ht, hlen]
  simp
theorem chan_carries (i : Nat) : Carries (chanAt i) := by
  unfold Carries chanAt
  by_cases h : i = 0
  · rw [if_pos h]; exact .inl rfl
  · rw [if_neg h]; exact .inr rfl

/-! ## C114 -/

/-- **C114** A configuration of any number of policy engines in a row whose stages can be initialised is loaded, no stage is started with a channel of the wrong type, an OpenTelemetry driver is given the first
engine's input channel, and the network started is the chain of the engines and the exporter, each with its own settings and policies. -/
theorem row_boots (W : World P) {es : List Pipeline.Conf} {c : Pipeline.Conf} {names : Nat → Str} (u : RowConf es c names) {x : XConfig} {pol : Pipeline.Conf → P} (h : W.RowReady es c x pol) :
    ∃ l, loadStages W.env { regs := bootRegs } (es ++ [c]) = .done l ∧ (∀ st ∈ l.stages, Typed st) ∧
      (∃ d, Whole.otelDriverChannel l = .ok d ∧ l.stages.head?.map (·.ins) = some [d]) ∧
      netOf W.comp (es ++ [c]) l chanSize = chain (es.map (fun e => engine (W.setup e x (pol e)).cfg (pol e) W.start W.pending) ++ [W.exporterComp x]) chanSize := by
  have hi : ∀ e ∈ es, W.env.init .engine e bootRegs = .ok bootRegs := fun e he =>
    init_engine W (c2 := c) (x := x) (p := pol e) ⟨(h.engines e he).1, (h.engines e he).2.1, Int.le_of_lt (h.engines e he).2.2, h.conf, h.dest⟩ _
  obtain ⟨l, h1, h2, h3⟩ := row_loads W u hi (init_exporter W h.conf h.dest _)
  refine ⟨l, h1, ?_, ⟨chanAt 0, by unfold Whole.otelDriverChannel; rw [h3]; rfl, ?_⟩, ?_⟩
  · rw [h2]
    intro st hst
    rcases List.mem_append.1 hst with hst | hst
    · obtain ⟨i, -, rfl⟩ := List.mem_map.1 hst
      exact ⟨⟨_, rfl, chan_carries i⟩, fun d hd => by rw [List.mem_singleton.1 hd]; exact chan_carries (i + 1)⟩
    · rw [List.mem_singleton.1 hst]; exact ⟨_, rfl, chan_carries _⟩
  · have hp : 0 < es.length := List.length_pos_iff.2 u.nonempty
    rw [h2, List.head?_eq_getElem?, row_stage _ 0 hp]
    rfl
  · refine row_chain W es c l h2 chanSize (fun e => engine (W.setup e x (pol e)).cfg (pol e) W.start W.pending) ?_ (W.exporterComp x) ?_
    · intro e he a b
      unfold World.comp
      dsimp only
      rw [(h.engines e he).2.1]
      cases hp : (engineConf e).policiesPath with
      | nil => exact absurd hp (h.engines e he).1
      | cons _ _ => rfl
    · intro a
      unfold World.comp
      dsimp only
      rw [h.conf]

/-- The engines of the row. -/
def World.row (W : World P) (es : List Pipeline.Conf) (x : XConfig) (pol : Pipeline.Conf → P) : List (Setup P) := es.map (fun e => W.setup e x (pol e))

theorem row_file_net (W : World P) (es : List Pipeline.Conf) (c : Pipeline.Conf) {x : XConfig} (pol : Pipeline.Conf → P) (ht : x.transport = .file) (hw : ∀ k, W.writes k = none) :
    chain (es.map (fun e => engine (W.setup e x (pol e)).cfg (pol e) W.start W.pending) ++ [W.exporterComp x]) chanSize =
      series (W.row es x pol) (W.setup c x (pol c)) (Exporter.fileTransport (fun _ => none)) Exporter.newFile := by
  have hw : W.writes = fun _ => none := funext hw
  have e : W.exporterComp x = exporter (Exporter.perRecord (W.setup c x (pol c)).enc) (Exporter.fileTransport (fun _ => none)) x.eventBuffer Exporter.newFile W.start := by
    unfold World.exporterComp
    dsimp only
    rw [ht, hw]
    rfl
  unfold series World.row
  rw [e, List.map_map]
  rfl

theorem row_kafka_net (W : World P) (es : List Pipeline.Conf) (c : Pipeline.Conf) {x : XConfig} (pol : Pipeline.Conf → P) (ht : x.transport = .kafka) (hw : ∀ k, W.sends k = true) :
    chain (es.map (fun e => engine (W.setup e x (pol e)).cfg (pol e) W.start W.pending) ++ [W.exporterComp x]) chanSize =
      series (W.row es x pol) (W.setup c x (pol c)) (Exporter.kafka (fun _ => true)) ([], 0) := by
  have hw : W.sends = fun _ => true := funext hw
  have e : W.exporterComp x = exporter (Exporter.perRecord (W.setup c x (pol c)).enc) (Exporter.kafka (fun _ => true)) x.eventBuffer ([], 0) W.start := by
    unfold World.exporterComp
    dsimp only
    rw [ht, hw]
    rfl
  unfold series World.row
  rw [e, List.map_map]
  rfl

theorem row_ok (W : World P) {es : List Pipeline.Conf} {x : XConfig} {pol : Pipeline.Conf → P} {dss : P → List (List Decl)} (ok : ∀ e ∈ es, W.Ok e dss) : ∀ s ∈ W.row es x pol, s.Ok dss := by
  intro s hs
  obtain ⟨e, he, rfl⟩ := List.mem_map.1 hs
  exact setup_ok W (ok e he) x (pol e)

/-- **C114** From pipeline.json to a log file through any number of policy engines: on the network that a configuration of engines in a row starts, every run of the OTel file driver over one file returns without an
error and with a log whose lines are the messages of the records of the file that came through all engines, with the rules that apply noted engine by engine; or, if a stop was requested, of the records from the
first one up to some point. -/
theorem boot_row_file (W : World P) {m : Manifest} {env : List Str} {cs es : List Pipeline.Conf} {c : Pipeline.Conf} {names : Nat → Str} (hm : setManifest m env cs = es ++ [c]) (u : RowConf es c names)
    {x : XConfig} {pol : Pipeline.Conf → P} (h : W.RowReady es c x pol) (ht : x.transport = .file) (hw : ∀ k, W.writes k = none) {dss : P → List (List Decl)} (ok : ∀ e ∈ es, W.Ok e dss)
    (hf : ∀ p, Setup.FiltersTagless dss p) (hline : ∀ rl t, W.encode x rl = some t → Exporter.newline ∉ t) :
    ∃ l, loadStages W.env { regs := bootRegs } (setManifest m env cs) = .done l ∧ (∃ d, Whole.otelDriverChannel l = .ok d ∧ l.stages.head?.map (·.ins) = some [d]) ∧
      netOf W.comp (setManifest m env cs) l chanSize = series (W.row es x pol) (W.setup c x (pol c)) (Exporter.fileTransport (fun _ => none)) Exporter.newFile ∧
      ∀ {J : Type} (dec : J → ResourceLogs → ResourceLogs) (zero : ResourceLogs) (run : Nat → Bool) (js : List J), (∀ j ∈ js, Given (dec j zero)) →
      ∀ (tr : List (Drain.Obs ResourceLogs)) (s : PSt ResourceLogs (series (W.row es x pol) (W.setup c x (pol c)) (Exporter.fileTransport (fun _ => none)) Exporter.newFile)),
        PExec id _ (oneFile dec zero run js) tr s → ∀ e, s.status = some e →
        e = false ∧ ∃ (rls : List ResourceLogs) (fin : List Way) (f : Exporter.OutFile), rls <+: js.map (fun j => dec j zero) ∧ ((∀ k, run k = true) → rls = js.map (fun j => dec j zero)) ∧
          PassedAll (fun _ => dss) (W.row es x pol) (rls.map (fun rl => (rl, []))) fin ∧ MessagesOf (W.setup c x (pol c)) fin (Exporter.linesOf [] f.contents) ∧
          f.contents = (Exporter.linesOf [] f.contents).flatMap (fun l => l ++ [Exporter.newline]) ∧ Holding s.net es.length f := by
  obtain ⟨l, h1, -, h3, h4⟩ := row_boots W u h
  rw [hm]
  refine ⟨l, h1, h3, h4.trans (row_file_net W es c pol ht hw), ?_⟩
  intro J dec zero run js hg tr s hx e he
  have hok := row_ok W (x := x) (pol := pol) ok
  obtain ⟨hT, hC⟩ := series_ok (W.row es x pol) (W.setup c x (pol c)) (Exporter.fileTransport (fun _ => none)) Exporter.newFile (fun s hs => (hok s hs).workers) (show 0 < 100000 by decide)
  obtain ⟨body, ho, p1, p2⟩ := one_file dec zero run js
  obtain ⟨h1, h2, h3, h4⟩ := run_returned hT hC ho hx he
  rw [List.map_id] at h4
  obtain ⟨fin, f, q1, q2, q3, q4⟩ := engines_in_a_row_file (W.row es x pol) (W.setup c x (pol c)) (fun _ => dss) hok (fun _ _ p => hf p) (show 0 < 100000 by decide) hline tr s.net h2 h3 (by
    intro rl hrl
    rw [h4] at hrl
    obtain ⟨j, hj, rfl⟩ := List.mem_map.1 (p1.subset hrl)
    exact hg j hj)
  refine ⟨h1, driven tr, fin, f, by rw [h4]; exact p1, fun hr => by rw [h4]; exact p2 hr, q1, q2, q3, ?_⟩
  have : (W.row es x pol).length = es.length := by unfold World.row; rw [List.length_map]
  rw [this] at q4
  exact q4

/-- **C114** The same with Kafka accepting all messages, when every stage has returned. -/
theorem boot_row_kafka (W : World P) {m : Manifest} {env : List Str} {cs es : List Pipeline.Conf} {c : Pipeline.Conf} {names : Nat → Str} (hm : setManifest m env cs = es ++ [c]) (u : RowConf es c names)
    {x : XConfig} {pol : Pipeline.Conf → P} (h : W.RowReady es c x pol) (ht : x.transport = .kafka) (hw : ∀ k, W.sends k = true) {dss : P → List (List Decl)} (ok : ∀ e ∈ es, W.Ok e dss)
    (hf : ∀ p, Setup.FiltersTagless dss p) :
    ∃ l, loadStages W.env { regs := bootRegs } (setManifest m env cs) = .done l ∧ (∃ d, Whole.otelDriverChannel l = .ok d ∧ l.stages.head?.map (·.ins) = some [d]) ∧
      netOf W.comp (setManifest m env cs) l chanSize = series (W.row es x pol) (W.setup c x (pol c)) (Exporter.kafka (fun _ => true)) ([], 0) ∧
      ∀ (tr : List (Drain.Obs ResourceLogs)) (s : Drain.St (series (W.row es x pol) (W.setup c x (pol c)) (Exporter.kafka (fun _ => true)) ([], 0))), Exec _ tr s → Waited s → (∀ rl ∈ driven tr, Given rl) →
        ∃ fin messages n, PassedAll (fun _ => dss) (W.row es x pol) ((driven tr).map (fun rl => (rl, []))) fin ∧ MessagesOf (W.setup c x (pol c)) fin messages ∧
          Holding s es.length ((messages, n) : List Bytes × Nat) := by
  obtain ⟨l, h1, -, h3, h4⟩ := row_boots W u h
  rw [hm]
  refine ⟨l, h1, h3, h4.trans (row_kafka_net W es c pol ht hw), ?_⟩
  intro tr s hx hwait hg
  have hok := row_ok W (x := x) (pol := pol) ok
  obtain ⟨fin, ms, n, q1, q2, q3⟩ := engines_in_a_row_kafka (W.row es x pol) (W.setup c x (pol c)) (fun _ => dss) hok (fun _ _ p => hf p) (show 0 < 100000 by decide) tr s hx hwait hg
  refine ⟨fin, ms, n, q1, q2, ?_⟩
  have : (W.row es x pol).length = es.length := by unfold World.row; rw [List.length_map]
  rw [this] at q3
  exact q3

/-! ### Example -/

/-- Two engines, the first in alert mode, the second in enrich mode with two workers, and an exporter to a file. -/
def rowConfs : List Pipeline.Conf :=
  [[(kProc, .str "policyengine".toList), (kIn, .str "o otelchan".toList), (kOut, .str "m eventchan".toList), ("policies".toList, .str "/filter.yaml".toList)],
   [(kProc, .str "policyengine".toList), (kIn, .str "m eventchan".toList), (kOut, .str "e eventchan".toList), ("policies".toList, .str "/filter.yaml".toList), ("mode".toList, .str "enrich".toList),
    ("concurrency".toList, .str "2".toList)],
   [(kProc, .str "exporter".toList), (kIn, .str "e x".toList), ("format".toList, .str "otel".toList), ("export".toList, .str "file".toList),
    ("kafka.config".toList, .map [("bootstrap.servers".toList, .str "h".toList)]), ("kafka.topic".toList, .str "t".toList), ("kafka.encoding".toList, .str "json".toList)]]

def rowNames : Nat → Str
  | 0 => "o".toList
  | 1 => "m".toList
  | _ => "e".toList

/-- The two engines and the exporter, with the global items. -/
def rowAt (i : Nat) : Pipeline.Conf := ((setManifest Whole.demoManifest [] rowConfs)[i]?).getD []

theorem row_confs : setManifest Whole.demoManifest [] rowConfs = [rowAt 0, rowAt 1] ++ [rowAt 2] := rfl

theorem two_of {α : Type} {a b e : α} {i : Nat} (h : [a, b][i]? = some e) : (i = 0 ∧ e = a) ∨ (i = 1 ∧ e = b) := by
  match i with
  | 0 => exact .inl ⟨rfl, (Option.some.inj h).symm⟩
  | 1 => exact .inr ⟨rfl, (Option.some.inj h).symm⟩
  | i + 2 => cases h

theorem row_conf : RowConf [rowAt 0, rowAt 1] (rowAt 2) rowNames := by
  refine ⟨by simp, ?_, by decide +kernel, ⟨"e x".toList, "x".toList, by decide +kernel, by decide +kernel⟩, by decide +kernel, ?_⟩
  · intro i e he
    rcases two_of he with ⟨rfl, rfl⟩ | ⟨rfl, rfl⟩
    · exact ⟨by decide +kernel, ⟨"o otelchan".toList, _, by decide +kernel, by decide +kernel, fun _ => rfl⟩, "m eventchan".toList, by decide +kernel, by decide +kernel⟩
    · exact ⟨by decide +kernel, ⟨"m eventchan".toList, "eventchan".toList, by decide +kernel, by decide +kernel, fun h => by cases h⟩, "e eventchan".toList, by decide +kernel, by decide +kernel⟩
  · intro i j hi hj
    have hi : i ≤ 2 := hi
    have hj : j ≤ 2 := hj
    match i, j, hi, hj with
    | 0, 0, _, _ | 1, 1, _, _ | 2, 2, _, _ => intro _; rfl
    | 0, 1, _, _ | 0, 2, _, _ | 1, 0, _, _ | 1, 2, _, _ | 2, 0, _, _ | 2, 1, _, _ => intro h; exact absurd h (by decide)

theorem row_ready (code : List (Rule ResourceLogs) × List (Filter ResourceLogs)) : ∃ x, (otelWorld code).RowReady [rowAt 0, rowAt 1] (rowAt 2) x (fun _ => ()) ∧ x.transport = .file ∧ x.kafka.encoding = .json := by
  have : (createConfigX ⟨fun _ => none, fun _ => none⟩ (xconf (rowAt 2))).map (fun x => (x.format, x.transport, x.kafka.encoding)) = some (.otel, .file, .json) := by decide +kernel
  obtain ⟨x, hx, hs⟩ := Option.map_eq_some_iff.1 this
  simp only [Prod.mk.injEq] at hs
  refine ⟨x, ⟨?_, hx, ?_⟩, hs.2.1, hs.2.2⟩
  · have p0 : (engineConf (rowAt 0)).policiesPath = "/filter.yaml".toList := by decide +kernel
    have p1 : (engineConf (rowAt 1)).policiesPath = "/filter.yaml".toList := by decide +kernel
    intro e he
    rcases List.mem_cons.1 he with rfl | he
    · refine ⟨by decide +kernel, ?_, by decide +kernel⟩
      change (if (engineConf (rowAt 0)).policiesPath = "/filter.yaml".toList then some () else none) = _
      rw [if_pos p0]
    · rw [List.mem_singleton.1 he]
      refine ⟨by decide +kernel, ?_, by decide +kernel⟩
      change (if (engineConf (rowAt 1)).policiesPath = "/filter.yaml".toList then some () else none) = _
      rw [if_pos p1]
  · unfold World.exports
    rw [hs.1, hs.2.1]
    rfl

/-- The configuration is loaded; the program runs on a file with two copies of a record to the end, and each copy has come out with the rule noted twice, once by each engine. -/
example : ∃ code x, (∃ l, loadStages (otelWorld code).env { regs := bootRegs } (setManifest Whole.demoManifest [] rowConfs) = .done l) ∧
    ∃ tr, ∃ s : PSt ResourceLogs (series ((otelWorld code).row [rowAt 0, rowAt 1] x (fun _ => ())) ((otelWorld code).setup (rowAt 2) x ()) (Exporter.fileTransport (fun _ => none)) Exporter.newFile),
    PExec id _ (oneFile (fun j _ => j) demoLogs (fun _ => true) [demoLogs, demoLogs]) tr s ∧ s.status = some false ∧
    ∃ f : Exporter.OutFile, Holding s.net 2 f ∧
      MessagesOf ((otelWorld code).setup (rowAt 2) x ()) (List.replicate 2 (demoLogs, [Falco.infoOf hostRule, Falco.infoOf hostRule])) (Exporter.linesOf [] f.contents) := by
  classical
  obtain ⟨code, ok⟩ := demoRun_ok 1 (by decide)
  obtain ⟨x, hr, ht, henc⟩ := row_ready code
  have hok : ∀ e ∈ [rowAt 0, rowAt 1], (otelWorld code).Ok e (fun _ => [[.rule hostRule]]) := fun e he =>
    ⟨ok.str, ok.texts, ok.acyclic, ok.foreign, ok.code, ok.actions, ok.order, (hr.engines e he).2.2⟩
  have hff : ∀ p : Unit, Setup.FiltersForeign (fun _ => [[.rule hostRule]]) p := fun p y hy => by
    rw [show (sites [[Decl.rule hostRule]]).filterMap asFilter = [] from rfl] at hy
    cases hy
  have hline : ∀ rl t, (otelWorld code).encode x rl = some t → Exporter.newline ∉ t := by
    intro rl t h
    unfold World.encode at h
    rw [henc] at h
    exact demo_line 1 code rl t h
  obtain ⟨l, h1, -, -, h4⟩ := boot_row_file (otelWorld code) row_confs row_conf hr ht (fun _ => rfl) hok (fun p x hx k hk => (hff p x hx k hk).2) hline
  have hk := row_ok (otelWorld code) (x := x) (pol := fun _ => ()) hok
  obtain ⟨hT, hC⟩ := series_ok ((otelWorld code).row [rowAt 0, rowAt 1] x (fun _ => ())) ((otelWorld code).setup (rowAt 2) x ()) (Exporter.fileTransport (fun _ => none)) Exporter.newFile
    (fun s hs => (hk s hs).workers) (show 0 < 100000 by decide)
  obtain ⟨body, ho, _⟩ := one_file (fun (j _ : ResourceLogs) => j) demoLogs (fun _ => true) [demoLogs, demoLogs]
  obtain ⟨tr, s, hx, he⟩ := complete_run hT hC ho id
  obtain ⟨-, rls, fin, f, -, q2, q3, q4, -, q6⟩ := h4 (fun (j _ : ResourceLogs) => j) demoLogs (fun _ => true) [demoLogs, demoLogs]
    (by intro j hj; have : j = demoLogs := by simpa using hj
        subst this; exact ⟨demo_whole, demo_fresh⟩) tr s hx false he
  have := q2 (fun _ => rfl)
  subst this
  obtain ⟨hp, -⟩ := engines_in_a_row_fixed (fun _ _ => [[.rule hostRule]]) (fun _ => [[.rule hostRule]]) _ (fun _ _ _ => rfl) (fun _ _ => hff) _ _ q3
  have hwant : ∀ e ∈ (otelWorld code).row [rowAt 0, rowAt 1] x (fun _ => ()), Wanted e [[.rule hostRule]] demoLogs ∧ applicable e.L demoLogs [[.rule hostRule]] = [Falco.infoOf hostRule] := by
    intro e he
    obtain ⟨w1, w2⟩ := demo_wanted 1 code
    obtain ⟨c, -, rfl⟩ := List.mem_map.1 he
    exact ⟨⟨w1.1, .inr (by rw [show ((otelWorld code).setup c x ()).L = Otel.demoLib from rfl, w2]; simp)⟩, w2⟩
  have hfin : fin = List.replicate 2 (demoLogs, [Falco.infoOf hostRule, Falco.infoOf hostRule]) := by
    rw [← List.perm_replicate]
    refine hp.trans (.of_eq ?_)
    have h0 : (∀ e ∈ (otelWorld code).row [rowAt 0, rowAt 1] x (fun _ => ()), Wanted e [[.rule hostRule]] demoLogs) := fun e he => (hwant e he).1
    change List.map _ (List.filter _ [demoLogs, demoLogs]) = _
    rw [List.filter_cons_of_pos (by simpa using h0), List.filter_cons_of_pos (by simpa using h0), List.filter_nil]
    have e2 : ((otelWorld code).row [rowAt 0, rowAt 1] x (fun _ => ())).flatMap (fun e => applicable e.L demoLogs [[.rule hostRule]]) = [Falco.infoOf hostRule, Falco.infoOf hostRule] := by
      unfold World.row at hwant ⊢
      rw [List.map_cons, List.map_cons, List.map_nil] at hwant ⊢
      rw [List.flatMap_cons, List.flatMap_cons, List.flatMap_nil, (hwant _ List.mem_cons_self).2, (hwant _ (List.mem_cons_of_mem _ List.mem_cons_self)).2]
      rfl
    rw [List.map_cons, List.map_cons, List.map_nil, e2]
    rfl
  rw [hfin] at q4
  exact ⟨code, x, ⟨l, h1⟩, tr, s, hx, he, f, q6, q4⟩

end Verif.OtelRun
