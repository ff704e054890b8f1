import Verif.Whole.Program
/-
C76: the whole program. Whatever the scheduling of reader, flattener, policy engine workers, policy reloads, exporter and timer, when `Wait`
returns the log file holds exactly one line for each event of the stream that the policies say something about.
-/
namespace Verif.Whole
open Verif.Decimal (Str)
open Verif.Exporter (Bytes)
open Verif.FlatRecord
open Verif.Policy
open Verif.Falco
open Verif.Processor (Rec HCall)
open Verif.Flattener (FLib Timed Known fields eventsAfter Stores StoresEvent)
open Verif.Pipeline
open Verif.Pipeline.Drain (Net Comp sync engine exporter chain emitted driven Exec Waited EngineDelivers Segment)

variable {P : Type}

/-! ### Specification -/

/-- An event of the stream with the records before it. -/
abbrev Event := List Rec × Rec

/-- The policies let an event with these field values pass: no enabled filter is true of it and, unless in enrich mode, some rule
applies. -/
def Passes (L : Lib) (enrich : Bool) (dss : List (List Decl)) (tab : List (Str × FVal)) : Prop :=
  ¬ FilteredTo L tab dss ∧ (enrich = true ∨ ∃ x ∈ (sites dss).filterMap asRule, AppliesTo L tab x)

/-- The event is one the log must show. -/
def Logged (S : Setup P) (dss : List (List Decl)) (x : Event) : Prop :=
  ∃ c, Known x.1 x.2 c ∧ Passes S.L S.enrich dss (fields S.L S.F c x.2)

/-- What the stream knows about the event is enough for a well-formed document: Kubernetes events; or the process is known, and the pod,
if there is one, has at most one address of each kind and at most one service, with at most one address. -/
def Presentable (L : Lib) (c : Processor.Ctx) (ev : Rec) : Prop :=
  Strings.trimQuotes (L.recType (Flattener.typeOf ev)) = "KE".toList ∨
  (c.proc ≠ none ∧ ∀ p, c.pod = some p → p.hostIP.length ≤ 1 ∧ p.internalIP.length ≤ 1 ∧ p.services.length ≤ 1 ∧
    ∀ s ∈ p.services, s.clusterIP.length ≤ 1)

/-- The actions change neither the alert mark nor the tags of a record. -/
def Quiet (bi us : Engine.ActionMap Record) : Prop :=
  ∀ a f, (bi a = some f ∨ us a = some f) → ∀ r, (f r).1.ctx.isAlert = r.ctx.isAlert ∧ (f r).1.ctx.getTags = r.ctx.getTags

/-- Nothing has marked the record as an alert or tagged it, unless actions did. -/
def Unmarked (S : Setup P) (r : Record) : Prop := Quiet S.builtIn S.user → r.ctx.isAlert = false ∧ r.ctx.getTags = []

/-- The line of an event: the text of a record with the event's field values and ancestors, carrying exactly the rules that the
policies attach to such an event (`V` says which, given the field values), and no mark or tag but those of actions; it reads back as the document of that record. -/
def LineWith (S : Setup P) (V : List (Str × FVal) → List RuleInfo) (x : Event) (line : Bytes) : Prop :=
  ∃ c r, Known x.1 x.2 c ∧ ShowsTable S.L r.fr (fields S.L S.F c x.2) ∧ r.fr.ptree = c.ptree ∧
    r.ctx.getRules = V (fields S.L S.F c x.2) ∧ Unmarked S r ∧ Json.encode S.env r = some line ∧
    (Presentable S.L c x.2 → Json.read line = some (Json.Spec.document S.L S.sipAlias S.version r))

/-- The line of an event under Falco policies. -/
def LineFor (S : Setup P) (dss : List (List Decl)) : Event → Bytes → Prop := LineWith S (verdict S.L dss)

/-- A stretch of the stream handled under one policy set, with the lines logged for it. -/
structure Stretch (P : Type) where
  pol : P
  events : List Event
  lines : List Bytes

/-- The parameters are as `Init` leaves them: the texts of every policy set parse as `dss` and compile, without cyclic definitions; actions leave
telemetry and rules alone; at least one worker; room in the channels. -/
structure Setup.Core (S : Setup P) (dss : P → List (List Decl)) : Prop where
  str : StrRule S.str
  parse : ∀ p, List.Forall₂ (fun s ds => GPolicy (ltokens S.str s) ds) (S.texts p) (dss p)
  acyclic : ∀ p, ∀ x ∈ sites (dss p), ∀ e, siteCond x = some e → ¬ Cyclic x.2 e
  compiled : ∀ p, ∃ n, compile (flatOps S.L getMappers) n ((S.texts p).map (fileOf S.str)) = some (some (S.code p))
  benign : Benign S.builtIn S.user
  workers : 0 < S.workers
  cap : 0 < S.cap

/-- Moreover: the JSON encoder's environment is right (the dependency's names are plain, the version is a number). -/
structure Setup.JsonOk (S : Setup P) (dss : P → List (List Decl)) : Prop extends Setup.Core S dss where
  lib : Json.Spec.LibOk S.L
  version : Json.Spec.VersionOk S.version

/-- Moreover: no duplicate filter. -/
structure Setup.Ok (S : Setup P) (dss : P → List (List Decl)) : Prop extends Setup.JsonOk S dss where
  dedup : S.dedup = false

/-! ### Lists -/

theorem forall₂_append {α β : Type} {r : α → β → Prop} {xs : List α} {b1 b2 : List β} (h : List.Forall₂ r xs (b1 ++ b2)) :
    ∃ a1 a2, xs = a1 ++ a2 ∧ List.Forall₂ r a1 b1 ∧ List.Forall₂ r a2 b2 := by
  induction b1 generalizing xs with
  | nil => exact ⟨[], xs, rfl, .nil, h⟩
  | cons b bs ih =>
    cases h with
    | cons h1 h2 =>
      obtain ⟨a1, a2, rfl, h3, h4⟩ := ih h2
      exact ⟨_ :: a1, a2, rfl, .cons h1 h3, h4⟩

/-- Splitting related lists along a cut of (the image of) the second. -/
theorem split_along {α β γ δ : Type} {r : α → β → Prop} (g : β → γ) (ins : δ → List γ) (segs : List δ) : ∀ {xs : List α} {ys : List β},
    List.Forall₂ r xs ys → segs.flatMap ins = ys.map g →
    ∃ parts : List (δ × List α × List β), parts.map (·.1) = segs ∧ parts.flatMap (·.2.1) = xs ∧
      ∀ q ∈ parts, ins q.1 = q.2.2.map g ∧ List.Forall₂ r q.2.1 q.2.2 := by
  induction segs with
  | nil =>
    intro xs ys h he
    have : ys = [] := List.map_eq_nil_iff.1 he.symm
    subst this
    cases h
    exact ⟨[], rfl, rfl, fun q hq => (by cases hq)⟩
  | cons s segs ih =>
    intro xs ys h he
    rw [List.flatMap_cons] at he
    obtain ⟨y1, y2, rfl, e1, e2⟩ := List.map_eq_append_iff.1 he.symm
    obtain ⟨x1, x2, rfl, h1, h2⟩ := forall₂_append h
    obtain ⟨parts, p1, p2, p3⟩ := ih h2 e2.symm
    refine ⟨(s, x1, y1) :: parts, by simp [p1], by simp [p2], ?_⟩
    intro q hq
    rcases List.mem_cons.1 hq with rfl | hq
    · exact ⟨e1.symm, h1⟩
    · exact p3 q hq

/-- A permutation of the second of two related lists is related to a permutation of the first. -/
theorem forall₂_perm {α β : Type} {r : α → β → Prop} {ys zs : List β} (hp : zs.Perm ys) : ∀ {xs : List α}, List.Forall₂ r xs ys →
    ∃ ws, ws.Perm xs ∧ List.Forall₂ r ws zs := by
  induction hp with
  | nil => intro xs h; exact ⟨xs, .refl _, h⟩
  | cons b _ ih =>
    intro xs h
    cases h with
    | cons h1 h2 =>
      obtain ⟨ws, w1, w2⟩ := ih h2
      exact ⟨_ :: ws, w1.cons _, .cons h1 w2⟩
  | swap a b l =>
    intro xs h
    cases h with
    | cons h1 h2 =>
      cases h2 with
      | cons h3 h4 => exact ⟨_, List.Perm.swap _ _ _, .cons h3 (.cons h1 h4)⟩
  | trans _ _ ih1 ih2 =>
    intro xs h
    obtain ⟨ws, w1, w2⟩ := ih2 h
    obtain ⟨vs, v1, v2⟩ := ih1 w2
    exact ⟨vs, v1.trans w1, v2⟩

open Classical in
/-- A partial function on the second of two related lists, defined exactly where a predicate on the first holds. -/
theorem forall₂_filterMap {α β γ : Type} {r : α → β → Prop} {q : α → γ → Prop} (p : α → Prop) (f : β → Option γ)
    {xs : List α} {ys : List β} (h : List.Forall₂ r xs ys)
    (hn : ∀ x y, r x y → ¬ p x → f y = none) (hs : ∀ x y, r x y → p x → ∃ z, f y = some z ∧ q x z) :
    List.Forall₂ q (xs.filter (fun x => decide (p x))) (ys.filterMap f) := by
  induction h with
  | nil => exact .nil
  | @cons x y xs ys h1 _ ih =>
    by_cases hx : p x
    · obtain ⟨z, hz, hq⟩ := hs x y h1 hx
      rw [List.filter_cons_of_pos (by simpa using hx), List.filterMap_cons, hz]
      exact .cons hq ih
    · rw [List.filter_cons_of_neg (by simpa using hx), List.filterMap_cons, hn x y h1 hx]
      exact ih

/-! ### The reader stage -/

theorem timed_calls (clock : Nat → Nat → Int) (cs : List HCall) : ∀ i, (timed clock i cs).map (·.call) = cs := by
  induction cs with
  | nil => intro i; rfl
  | cons c cs ih => intro i; simp [timed, ih]

theorem handles_plain (F : FLib) (xs : List Timed) : ∀ (s : Flattener.State) (q : List FlatRec), s.filterOn = false → s.outs = [q] →
    (Flattener.handles F s xs).outs = [q ++ (xs.map (·.call)).filterMap (Flattener.recOf F)] ∧ (Flattener.handles F s xs).filterOn = false := by
  induction xs with
  | nil => intro s q hf h; exact ⟨by simpa [Flattener.handles] using h, hf⟩
  | cons x xs ih =>
    intro s q hf h
    have hh := Flattener.handle_noFilter F s x.rd x.call hf
    obtain ⟨h1, h2⟩ := ih (Flattener.handle F s x.rd x.call) (q ++ (Flattener.recOf F x.call).toList) (by rw [hh]; exact hf)
      (by rw [hh]; show s.outs.map _ = _; rw [h]; rfl)
    unfold Flattener.handles
    refine ⟨?_, h2⟩
    rw [h1, List.map_cons, List.filterMap_cons, List.append_assoc]
    cases Flattener.recOf F x.call <;> rfl

theorem reader_emits (F : FLib) (fuel : Nat) (clock : Nat → Nat → Int) (rs : List Rec) : ∀ (s s' : Processor.State) (cs : List HCall)
    (fl : Flattener.State) (k : Nat), fl.filterOn = false → Processor.run false fuel s rs = some (s', cs) →
    emitted (readerStep F fuel clock) ⟨some s, fl, k⟩ (rs.map Msg.sf) = (cs.filterMap (Flattener.recOf F)).map Msg.flat := by
  induction rs with
  | nil => intro s s' cs fl k _ h; cases h; rfl
  | cons r rs ih =>
    intro s s' cs fl k hf h
    rw [Processor.run] at h
    split at h
    · cases h
    · rename_i s1 c1 hs
      split at h
      · cases h
      · rename_i s2 c2 hr
        cases h
        obtain ⟨h1, h2⟩ := handles_plain F (timed clock k c1) { fl with outs := [[]] } [] hf rfl
        rw [timed_calls, List.nil_append] at h1
        have e : readerStep F fuel clock ⟨some s, fl, k⟩ (.sf r) =
            (⟨some s1, Flattener.handles F { fl with outs := [[]] } (timed clock k c1), k + c1.length⟩, (c1.filterMap (Flattener.recOf F)).map Msg.flat) := by
          simp only [readerStep, hs, h1, List.headD_cons]
        rw [List.map_cons, emitted, e, List.filterMap_append, List.map_append]
        dsimp only
        rw [ih s1 s' c2 _ _ h2 hr]

/-! ### The exporter -/

theorem received_step {R : Type} (e : Exporter.Ev R) (es : List (Exporter.Ev R)) (r : R) (h : r ∈ Exporter.received [e]) : r ∈ Exporter.received (e :: es) := by
  cases e <;> simp_all [Exporter.received]

theorem encode_allOrNone {R D : Type} (f : R → Option D) (b : List R) (h : ∀ r ∈ b, f r ≠ none) :
    (Exporter.allOrNone f).encode b = (Exporter.perRecord f).encode b := by
  show b.mapM f = some (b.filterMap f)
  induction b with
  | nil => rfl
  | cons r b ih =>
    have := ih (fun x hx => h x (by simp [hx]))
    cases hr : f r with
    | none => exact absurd hr (h r (by simp))
    | some d => rw [List.mapM_cons, hr, this, List.filterMap_cons, hr]; rfl

theorem process_congr {S R D : Type} {C C' : Exporter.Codec R D} {p : R → Prop} (hC : ∀ b : List R, (∀ r ∈ b, p r) → C.encode b = C'.encode b)
    (T : Exporter.Transport S D) (s : Exporter.State S R D) (h : ∀ r ∈ s.recs, p r) : Exporter.process C T s = Exporter.process C' T s := by
  unfold Exporter.process
  rw [hC s.recs h]

theorem process_recs {S R D : Type} (C : Exporter.Codec R D) (T : Exporter.Transport S D) (s : Exporter.State S R D) : (Exporter.process C T s).recs = s.recs := by
  unfold Exporter.process
  split
  · rfl
  · dsimp only
    split <;> rfl

/-- Encoders that agree on batches of the records that are received behave alike. -/
theorem run_congr {S R D : Type} {C C' : Exporter.Codec R D} {p : R → Prop} (hC : ∀ b : List R, (∀ r ∈ b, p r) → C.encode b = C'.encode b)
    (T : Exporter.Transport S D) (eb : Int) (es : List (Exporter.Ev R)) :
    ∀ s : Exporter.State S R D, (∀ r ∈ s.recs, p r) → (∀ r ∈ Exporter.received es, p r) →
    Exporter.run C T eb s es = Exporter.run C' T eb s es := by
  induction es with
  | nil => intro s _ _; rfl
  | cons e es ih =>
    intro s hs hr
    have hstep : Exporter.step C T eb s e = Exporter.step C' T eb s e := by
      unfold Exporter.step
      split
      · cases e with
        | recv r after =>
          dsimp only
          split
          · rw [process_congr hC]
            intro x hx
            rcases List.mem_append.1 hx with hx | hx
            · exact hs x hx
            · rw [List.mem_singleton.1 hx]; exact hr r (by simp [Exporter.received])
          · rfl
        | close =>
          dsimp only
          split
          · rw [process_congr hC T s hs]
          · rfl
        | tick now after =>
          dsimp only
          split
          · rw [process_congr hC T s hs]
          · rfl
      · rfl
    rw [Exporter.run, Exporter.run, hstep]
    cases e with
    | close =>
      -- after the end of the input nothing happens
      have stop : ∀ (C : Exporter.Codec R D) (es : List (Exporter.Ev R)) (s : Exporter.State S R D), s.running = false → Exporter.run C T eb s es = s := by
        intro C es
        induction es with
        | nil => intro s _; rfl
        | cons e es ih =>
          intro s h
          rw [Exporter.run]
          have : Exporter.step C T eb s e = s := by unfold Exporter.step; simp [h]
          rw [this, ih s h]
      have hrun : (Exporter.step C' T eb s .close).running = false := by
        unfold Exporter.step
        split
        · dsimp only; split <;> rfl
        · rename_i h; simpa using h
      rw [stop _ _ _ hrun, stop _ _ _ hrun]
    | recv r after =>
      refine ih _ ?_ (fun x hx => hr x (by simp [Exporter.received, hx]))
      unfold Exporter.step
      split
      · dsimp only
        split
        · intro x hx; cases hx
        · intro x hx
          rcases List.mem_append.1 hx with hx | hx
          · exact hs x hx
          · rw [List.mem_singleton.1 hx]; exact hr r (by simp [Exporter.received])
      · exact hs
    | tick now after =>
      refine ih _ ?_ (fun x hx => hr x (by simpa [Exporter.received] using hx))
      unfold Exporter.step
      split
      · dsimp only
        split
        · intro x hx; cases hx
        · exact hs
      · exact hs

/-- If no received record fails to encode, the encoder that gives up on a batch behaves like the one that skips records. -/
theorem run_allOrNone {S R D : Type} (f : R → Option D) (T : Exporter.Transport S D) (eb : Int) (es : List (Exporter.Ev R))
    (s : Exporter.State S R D) (hs : ∀ r ∈ s.recs, f r ≠ none) (hr : ∀ r ∈ Exporter.received es, f r ≠ none) :
    Exporter.run (Exporter.allOrNone f) T eb s es = Exporter.run (Exporter.perRecord f) T eb s es :=
  run_congr (p := fun r => f r ≠ none) (encode_allOrNone f) T eb es s hs hr

/-! ### Three stages -/

theorem three_ok {R σ S D : Type} (f : σ → R → σ × List R) (h0 : σ) (cfg : Engine.Swap.Cfg P R) (hn : 0 < cfg.n) (ho : cfg.nOut = 1) (p0 : P) (t0 : Int)
    (pending : List P) (C : Exporter.Codec R D) (T : Exporter.Transport S D) (eb t1 : Int) (tr0 : S) (cap : Nat) (hcap : 0 < cap) :
    Drain.Tree (chain ([sync f h0 1, engine cfg p0 t0 pending] ++ [exporter C T eb tr0 t1]) cap) ∧ ∀ i, i < (chain ([sync f h0 1, engine cfg p0 t0 pending] ++ [exporter C T eb tr0 t1]) cap).n → Drain.Contract ((chain ([sync f h0 1, engine cfg p0 t0 pending] ++ [exporter C T eb tr0 t1]) cap).comp i) := by
  constructor
  · refine Drain.chain_tree _ cap hcap _ ?_ rfl
    intro C hC
    rcases List.mem_cons.1 hC with rfl | hC
    · rfl
    · rw [List.mem_singleton.1 hC]; exact ho
  · refine Drain.chain_contract _ cap ?_
    intro C hC
    rcases List.mem_cons.1 hC with rfl | hC
    · exact Drain.sync_contract f h0 1
    rcases List.mem_cons.1 hC with rfl | hC
    · exact Drain.engine_contract cfg hn p0 t0 pending
    · rw [List.mem_singleton.1 hC]; exact Drain.exporter_contract _ _ eb _ t1

/-- What three stages have done when `Wait` returns, `tr1` being what the policy engine has done. -/
theorem three_stages_along {R σ S D : Type} (f : σ → R → σ × List R) (h0 : σ) (cfg : Engine.Swap.Cfg P R) (hn : 0 < cfg.n) (ho : cfg.nOut = 1) (p0 : P) (t0 : Int)
    (pending : List P) (C : Exporter.Codec R D) (T : Exporter.Transport S D) (eb t1 : Int) (tr0 : S) (cap : Nat) (hcap : 0 < cap)
    (tr : List (Drain.Obs R)) (s : Drain.St (chain ([sync f h0 1, engine cfg p0 t0 pending] ++ [exporter C T eb tr0 t1]) cap))
    (h : Exec (chain ([sync f h0 1, engine cfg p0 t0 pending] ++ [exporter C T eb tr0 t1]) cap) tr s) (hw : Waited s) {tr1 : List (Engine.Swap.Obs P R)}
    (hx : Engine.Swap.Exec cfg p0 t0 pending tr1 (show Engine.Swap.St P R from s.st 1)) (hi : Engine.Swap.inputs tr1 = Drain.takes (Drain.acts 1 tr))
    (hs : Engine.Swap.delivered 0 tr1 = Drain.sends 0 (Drain.acts 1 tr)) :
    ∃ segs es, segs.map Segment.pol = p0 :: Engine.Swap.adoptions tr1 ∧ EngineDelivers cfg p0 (emitted f h0 (driven tr)) (Exporter.received es) segs ∧ Exporter.closed es = true ∧
      (show Exporter.State S R D × Bool from s.st 2).1 = Exporter.run C T eb (Exporter.init tr0 t1) es := by
  obtain ⟨hT, hC⟩ := three_ok f h0 cfg hn ho p0 t0 pending C T eb t1 tr0 cap hcap
  obtain ⟨_, h1, h2, h3, h4⟩ := Drain.drained_when_wait_returns hT hC h hw
  have l0 : 0 < (chain ([sync f h0 1, engine cfg p0 t0 pending] ++ [exporter C T eb tr0 t1]) cap).n := (show 0 < 3 by decide)
  have l1 : 1 < (chain ([sync f h0 1, engine cfg p0 t0 pending] ++ [exporter C T eb tr0 t1]) cap).n := (show 1 < 3 by decide)
  have l2 : 2 < (chain ([sync f h0 1, engine cfg p0 t0 pending] ++ [exporter C T eb tr0 t1]) cap).n := (show 2 < 3 by decide)
  have r0 : (sync f h0 1).Run (Drain.acts 0 tr) (s.st 0) := h4 0 l0
  have r2 : (exporter C T eb tr0 t1).Run (Drain.acts 2 tr) (s.st 2) := h4 2 l2
  have f0 : Drain.takes (Drain.acts 1 tr) = Drain.sends 0 (Drain.acts 0 tr) := h2 0 0 l0 (show 0 < 1 by decide)
  have f1 : Drain.takes (Drain.acts 2 tr) = Drain.sends 0 (Drain.acts 1 tr) := h2 1 0 l1 (by show 0 < cfg.nOut; omega)
  have d0 := Drain.sync_delivers f h0 1 r0 (hw 0 l0) 0 (by decide)
  have c1 : Drain.phaseCleaned (show Engine.Swap.St P R from s.st 1).phase = true := h3 1 l1 (by show 0 < cfg.nOut; omega)
  have hfin : (show Engine.Swap.St P R from s.st 1).phase = .finished := by
    revert c1
    generalize (show Engine.Swap.St P R from s.st 1).phase = ph
    cases ph <;> intro c1 <;> first | rfl | cases c1
  obtain ⟨segs, hpol, hseg⟩ := Drain.engine_delivers_along cfg p0 t0 pending hx hfin 0 (by omega)
  rw [hi, hs, f0, d0, h1, ← f1] at hseg
  obtain ⟨es, e1, e2, e3, _⟩ := Drain.exporter_run _ _ _ _ _ r2
  have hret : (!(show Exporter.State S R D × Bool from s.st 2).1.running) = true := hw 2 l2
  exact ⟨segs, es, hpol, by rw [e2]; exact hseg, e3.trans hret, e1⟩

/-- What the policy engine has done in a run of three stages. -/
theorem three_engine {R σ S D : Type} (f : σ → R → σ × List R) (h0 : σ) (cfg : Engine.Swap.Cfg P R) (hn : 0 < cfg.n) (ho : cfg.nOut = 1) (p0 : P) (t0 : Int)
    (pending : List P) (C : Exporter.Codec R D) (T : Exporter.Transport S D) (eb t1 : Int) (tr0 : S) (cap : Nat) (hcap : 0 < cap)
    (tr : List (Drain.Obs R)) (s : Drain.St (chain ([sync f h0 1, engine cfg p0 t0 pending] ++ [exporter C T eb tr0 t1]) cap))
    (h : Exec (chain ([sync f h0 1, engine cfg p0 t0 pending] ++ [exporter C T eb tr0 t1]) cap) tr s) (hw : Waited s) :
    ∃ tr1, Engine.Swap.Exec cfg p0 t0 pending tr1 (show Engine.Swap.St P R from s.st 1) ∧ Engine.Swap.inputs tr1 = Drain.takes (Drain.acts 1 tr) ∧
      Engine.Swap.delivered 0 tr1 = Drain.sends 0 (Drain.acts 1 tr) := by
  obtain ⟨hT, hC⟩ := three_ok f h0 cfg hn ho p0 t0 pending C T eb t1 tr0 cap hcap
  obtain ⟨_, _, _, _, h4⟩ := Drain.drained_when_wait_returns hT hC h hw
  have r1 : (engine cfg p0 t0 pending).Run (Drain.acts 1 tr) (s.st 1) := h4 1 (show 1 < 3 by decide)
  obtain ⟨tr1, k1, k2, k3⟩ := Drain.engine_run cfg p0 t0 pending r1
  exact ⟨tr1, k1, k2, k3 0⟩

/-- What is in the exporter when a pipeline of reader, policy engine and exporter has drained. -/
theorem three_stages {R σ S D : Type} (f : σ → R → σ × List R) (h0 : σ) (cfg : Engine.Swap.Cfg P R) (hn : 0 < cfg.n) (ho : cfg.nOut = 1) (p0 : P) (t0 : Int)
    (pending : List P) (C : Exporter.Codec R D) (T : Exporter.Transport S D) (eb t1 : Int) (tr0 : S) (cap : Nat) (hcap : 0 < cap)
    (tr : List (Drain.Obs R)) (s : Drain.St (chain ([sync f h0 1, engine cfg p0 t0 pending] ++ [exporter C T eb tr0 t1]) cap))
    (h : Exec (chain ([sync f h0 1, engine cfg p0 t0 pending] ++ [exporter C T eb tr0 t1]) cap) tr s) (hw : Waited s) :
    ∃ segs es, EngineDelivers cfg p0 (emitted f h0 (driven tr)) (Exporter.received es) segs ∧ Exporter.closed es = true ∧
      (show Exporter.State S R D × Bool from s.st 2).1 = Exporter.run C T eb (Exporter.init tr0 t1) es := by
  obtain ⟨tr1, k1, k2, k3⟩ := three_engine f h0 cfg hn ho p0 t0 pending C T eb t1 tr0 cap hcap tr s h hw
  obtain ⟨segs, es, -, h1⟩ := three_stages_along f h0 cfg hn ho p0 t0 pending C T eb t1 tr0 cap hcap tr s h hw k1 k2 k3
  exact ⟨segs, es, h1⟩

/-! ### The policy engine -/

theorem compile_unique {R : Type} (ops : Operations R) (n m : Nat) (files : List File) (a b : Option (List (Rule R) × List (Filter R)))
    (ha : compile ops n files = some a) (hb : compile ops m files = some b) : a = b := by
  unfold compile at ha hb
  obtain ⟨sa, h1, rfl⟩ := Option.map_eq_some_iff.1 ha
  obtain ⟨sb, h2, rfl⟩ := Option.map_eq_some_iff.1 hb
  have e1 := compileFiles_mono ops n (max n m) (Nat.le_max_left ..) files _ _ h1
  have e2 := compileFiles_mono ops m (max n m) (Nat.le_max_right ..) files _ _ h2
  rw [e1] at e2
  cases e2
  rfl

theorem actions_keep {T : Type} (g : Record → T) (pi : Engine.Interp Record) (ha : ∀ a f, (pi.builtIn a = some f ∨ pi.user a = some f) → ∀ r, g (f r).1 = g r) (as : List (List Char)) :
    ∀ (r : Record) (tr : List (Engine.Event Record)), g (pi.runActions as (r, tr)).1 = g r := by
  induction as with
  | nil => intro r tr; rfl
  | cons a as ih =>
    intro r tr
    rw [Engine.Interp.runActions]
    cases hf : pi.findAction a with
    | none => exact ih r tr
    | some f =>
      have : pi.builtIn a = some f ∨ pi.user a = some f := by
        unfold Engine.Interp.findAction at hf
        cases hb : pi.builtIn a with
        | none => rw [hb] at hf; exact .inr hf
        | some g => rw [hb] at hf; exact .inl hf
      dsimp only
      rw [ih, ha a f this r]

/-- Processing leaves alone what neither actions nor the attaching of a rule change. -/
theorem work_keeps_what {T : Type} (g : Record → T) (hg : ∀ r x, g (addRule r x) = g r) (L : Lib) (e : Bool) (rules : List (Rule Record)) (fs : List (Filter Record)) (bi us : Engine.ActionMap Record) (o : Bool)
    (ha : ∀ a f, (bi a = some f ∨ us a = some f) → ∀ r, g (f r).1 = g r) (r : Record) : g ((flatInterp L e rules fs bi us o).work r).1 = g r := by
  have key : ∀ (xs : List (Rule Record)) (r : Record) (m : Bool) (tr : List (Engine.Event Record)),
      g ((flatInterp L e rules fs bi us o).applyRules xs (r, m, tr)).1 = g r := by
    intro xs
    induction xs with
    | nil => intro r m tr; rfl
    | cons x xs ih =>
      intro r m tr
      rw [Engine.Interp.applyRules]
      split
      · dsimp only
        rw [ih]
        unfold Engine.Interp.handleActions
        split
        · exact hg r x
        · rw [actions_keep g _ ha]; exact hg r x
      · exact ih r m tr
  unfold Engine.Interp.work
  split
  · rfl
  · dsimp only
    split <;> exact key _ r _ _

/-- Processing leaves the telemetry of a record alone, if the actions do. -/
theorem work_keeps (L : Lib) (e : Bool) (rules : List (Rule Record)) (fs : List (Filter Record)) (bi us : Engine.ActionMap Record) (o : Bool)
    (ha : ∀ a f, (bi a = some f ∨ us a = some f) → ∀ r, (f r).1.fr = r.fr) (r : Record) : ((flatInterp L e rules fs bi us o).work r).1.fr = r.fr :=
  work_keeps_what (fun r => r.fr) (fun _ _ => rfl) L e rules fs bi us o ha r

/-- Processing leaves a record unmarked. -/
theorem work_unmarked (S : Setup P) (rules : List (Rule Record)) (fs : List (Filter Record)) (fr : FlatRec) :
    Unmarked S ((flatInterp S.L S.enrich rules fs S.builtIn S.user true).work (newRecord fr)).1 := by
  intro hq
  exact ⟨work_keeps_what (fun r => r.ctx.isAlert) (fun _ _ => rfl) _ _ _ _ _ _ _ (fun a f hf r => (hq a f hf r).1) _,
    work_keeps_what (fun r => r.ctx.getTags) (fun _ _ => rfl) _ _ _ _ _ _ _ (fun a f hf r => (hq a f hf r).2) _⟩

/-- A record of an event as it leaves the policy engine, with the rules that `V` says. -/
def AlertWith (S : Setup P) (V : List (Str × FVal) → List RuleInfo) (x : Event) (m : Msg) : Prop :=
  ∃ c r, m = .alert r ∧ Known x.1 x.2 c ∧ Stores S.F c x.2 r.fr ∧ ShowsTable S.L r.fr (fields S.L S.F c x.2) ∧
    r.ctx.getRules = V (fields S.L S.F c x.2) ∧ Unmarked S r

/-- The same under Falco policies. -/
def AlertFor (S : Setup P) (dss : List (List Decl)) : Event → Msg → Prop := AlertWith S (verdict S.L dss)

theorem engine_step (S : Setup P) (dss : P → List (List Decl)) (ok : S.Core dss) (p : P) (x : Event) (fr : FlatRec) (h : StoresEvent S.F x fr) :
    (¬ Logged S (dss p) x → S.proc p (.flat fr) = none) ∧
    (Logged S (dss p) x → ∃ m, S.proc p (.flat fr) = some m ∧ AlertFor S (dss p) x m) := by
  obtain ⟨n, rules, filters, hcomp, hwork⟩ := policy_texts_to_alerts S.L ok.str (S.texts p) (dss p) (ok.parse p) (ok.acyclic p)
  obtain ⟨m, hm⟩ := ok.compiled p
  have hcode : S.code p = (rules, filters) := Option.some.inj (compile_unique _ _ _ _ _ _ hm hcomp)
  obtain ⟨hev, c, hk, hst⟩ := h
  have htab : ShowsTable S.L (newRecord fr).fr (fields S.L S.F c x.2) := Flattener.fields_read S.L S.F c x.2 hev fr hst
  obtain ⟨h1, h2⟩ := hwork S.enrich true S.builtIn S.user (fun a f hf r => (ok.benign a f hf r).1) (fun a f hf r => (ok.benign a f hf r).2) (newRecord fr)
  have hkeep := work_keeps S.L S.enrich rules filters S.builtIn S.user true (fun a f hf r => (ok.benign a f hf r).1) (newRecord fr)
  have hum := work_unmarked S rules filters fr
  have hproc : S.proc p (.flat fr) = (Engine.outs ((flatInterp S.L S.enrich rules filters S.builtIn S.user true).work (newRecord fr)).2).head?.map Msg.alert := by
    unfold Setup.proc
    rw [hcode]
  generalize (flatInterp S.L S.enrich rules filters S.builtIn S.user true).work (newRecord fr) = out at h1 h2 hkeep hum hproc
  have h2 := h2 rfl
  have happ : (∃ y ∈ (sites (dss p)).filterMap asRule, Applies S.L (newRecord fr) y) ↔ ∃ y ∈ (sites (dss p)).filterMap asRule, AppliesTo S.L (fields S.L S.F c x.2) y :=
    exists_congr fun y => and_congr_right fun _ => applies_iff htab y
  have hlog : Logged S (dss p) x ↔ Passes S.L S.enrich (dss p) (fields S.L S.F c x.2) := by
    constructor
    · rintro ⟨c', hk', hp⟩
      rw [Flattener.known_unique hk' hk] at hp
      exact hp
    · exact fun hp => ⟨c, hk, hp⟩
  have hrules : out.1.ctx.getRules = verdict S.L (dss p) (fields S.L S.F c x.2) := by
    refine h1.trans ?_
    rw [show (newRecord fr).ctx.getRules = [] from rfl, List.nil_append]
    unfold verdict
    by_cases hf : FilteredTo S.L (fields S.L S.F c x.2) (dss p)
    · rw [if_pos hf, if_pos ((filtered_iff htab (dss p)).mpr hf)]
    · rw [if_neg hf, if_neg (fun h => hf ((filtered_iff htab (dss p)).mp h))]
      congr 1
      exact List.filter_congr (fun y _ => decide_eq_decide.mpr (applies_iff htab y))
  rw [hlog, hproc]
  unfold Passes
  by_cases hf : FilteredTo S.L (fields S.L S.F c x.2) (dss p)
  · rw [if_pos ((filtered_iff htab (dss p)).mpr hf)] at h2
    rw [h2]
    exact ⟨fun _ => rfl, fun h => absurd hf h.1⟩
  · rw [if_neg (fun h => hf ((filtered_iff htab (dss p)).mp h))] at h2
    by_cases ha : S.enrich = true ∨ ∃ y ∈ (sites (dss p)).filterMap asRule, AppliesTo S.L (fields S.L S.F c x.2) y
    · rw [if_pos (ha.imp id happ.mpr)] at h2
      rw [h2]
      refine ⟨fun h => absurd ⟨hf, ha⟩ h, fun _ => ⟨_, rfl, c, out.1, rfl, hk, ?_, ?_, hrules, hum⟩⟩
      · rw [hkeep]; exact hst
      · rw [hkeep]; exact htab
    · rw [if_neg (fun h => ha (h.imp id happ.mp))] at h2
      rw [h2]
      exact ⟨fun _ => rfl, fun h => absurd h.2 ha⟩

/-! ### The encoder -/

theorem kind_of_stores {F : FLib} {c : Processor.Ctx} {ev : Rec} {fr : FlatRec} (L : Lib) (hev : Processor.isEvent ev = true) (h : Stores F c ev fr) :
    Json.Spec.kind L fr = Strings.trimQuotes (L.recType (Flattener.typeOf ev)) := by
  unfold Json.Spec.kind
  rw [h.int]
  cases ev <;> first | rfl | cases hev

theorem pod_of_stores {F : FLib} {c : Processor.Ctx} {ev : Rec} {fr : FlatRec} (h : Stores F c ev fr) (hp : Json.Spec.hasPod fr) : ∃ p, c.pod = some p := by
  cases hc : c.pod with
  | some p => exact ⟨p, rfl⟩
  | none =>
    refine absurd ?_ hp
    rw [h.str]
    have : Flattener.strOf F c ev .POD_ID_STR = [] := by
      cases ev <;> first | rfl | (simp only [Flattener.strOf, Flattener.entityStr, hc]; rfl)
    rw [this]
    rfl

theorem alert_line (S : Setup P) (hlib : Json.Spec.LibOk S.L) (hver : Json.Spec.VersionOk S.version) (V : List (Str × FVal) → List RuleInfo) (x : Event) (hev : Processor.isEvent x.2 = true) (m : Msg)
    (h : AlertWith S V x m) : ∃ line, S.enc m = some (.bytes line) ∧ LineWith S V x line := by
  obtain ⟨c, r, rfl, hk, hst, htab, hrules, hum⟩ := h
  have hkind := kind_of_stores S.L hev hst
  have hne : Json.encode S.env r ≠ none := by
    intro hn
    obtain ⟨hp, hl⟩ := (Json.json_panic_iff S.env hlib hver r).1 hn
    obtain ⟨p, hpod⟩ := pod_of_stores hst hp.2
    refine hl ?_
    obtain ⟨l1, l2, l3⟩ := hst.lists
    unfold Json.PodLists
    rw [l1, l2, l3, hpod]
    exact ⟨fun h => (by cases h), fun h => (by cases h), fun h => (by cases h)⟩
  obtain ⟨line, hl⟩ := Option.ne_none_iff_exists'.1 hne
  refine ⟨line, ?_, c, r, hk, htab, hst.tree, hrules, hum, hl, ?_⟩
  · show (Json.encode S.env r).map Exporter.Datum.bytes = _
    rw [hl]
    rfl
  · intro hpres
    rcases Json.json_wellformed_iff S.env hlib hver r line hl with ⟨_, h⟩ | ⟨hc, _⟩
    · exact h
    · refine absurd ?_ hc
      rcases hpres with h | ⟨h1, h2⟩
      · exact .inl (hkind.trans h)
      · refine .inr ⟨?_, fun hp => ?_⟩
        · rw [hst.tree]
          intro ht
          cases hp : c.proc with
          | none => exact h1 hp
          | some pr =>
            cases ho : Processor.procOf x.2 with
            | none =>
              have := hk.proc
              rw [ho, hp] at this
              cases this
            | some id =>
              obtain ⟨l, _, hl, _⟩ := hk.tree id ho (by rw [hp]; rfl)
              rw [ht] at hl
              cases hl
        · obtain ⟨p, hpod⟩ := pod_of_stores hst hp
          obtain ⟨l1, l2, l3⟩ := hst.lists
          obtain ⟨b1, b2, b3, b4⟩ := h2 p hpod
          refine ⟨p.hostIP, p.internalIP, p.services, ?_, b1, ?_, b2, ?_, b3, b4⟩
          · rw [l1, hpod]; rfl
          · rw [l2, hpod]; rfl
          · rw [l3, hpod]; rfl

/-! ## C76 -/

theorem numChar_visible : ∀ n : Fin 256, Json.isNumChar (UInt8.ofNat n.val) = true → 32 ≤ (UInt8.ofNat n.val).toNat := by decide +kernel

theorem numChar_noCtl (c : UInt8) (h : Json.isNumChar c = true) : 32 ≤ c.toNat := by
  have := numChar_visible ⟨c.toNat, c.toNat_lt⟩
  simp only [UInt8.ofNat_toNat] at this
  exact this h

/-- What the policy engine makes of events: a stretch of events handled under one policy set, with what it forwarded for them. -/
structure Handled (P : Type) where
  pol : P
  events : List Event
  alerts : List Msg

open Classical in
/-- The alerts of a stretch: one for each event that its policies let pass, and nothing else; in the order of the events if there is one worker. -/
def Handled.As (S : Setup P) (Want : P → Event → Prop) (Alert : P → Event → Msg → Prop) (g : Handled P) : Prop :=
  ∃ picked, List.Perm picked (g.events.filter (fun x => decide (Want g.pol x))) ∧
    (S.workers = 1 → picked = g.events.filter (fun x => decide (Want g.pol x))) ∧
    List.Forall₂ (fun x m => Alert g.pol x m ∧ Processor.isEvent x.2 = true) picked g.alerts

/-- The same for Falco policies. -/
def Handled.Right (S : Setup P) (dss : P → List (List Decl)) (g : Handled P) : Prop := g.As S (fun p => Logged S (dss p)) (fun p => AlertFor S (dss p))

open Classical in
/-- What the policy engine has delivered, in terms of events: the stretches are its segments. -/
theorem handled_of_segments (S : Setup P) (cfg : Engine.Swap.Cfg P Msg) (hproc : cfg.proc = S.proc) (hn : cfg.n = S.workers) (Want : P → Event → Prop) (Alert : P → Event → Msg → Prop)
    (hstep : ∀ p x fr, StoresEvent S.F x fr → (¬ Want p x → S.proc p (.flat fr) = none) ∧ (Want p x → ∃ m, S.proc p (.flat fr) = some m ∧ Alert p x m))
    {p0 : P} {segs : List (Segment P Msg)} {outs : List Msg} {evs : List Event} {frs : List FlatRec} (hdel : EngineDelivers cfg p0 (frs.map Msg.flat) outs segs)
    {parts : List (Segment P Msg × List Event × List FlatRec)} (hp1 : parts.map (·.1) = segs) (hp2 : parts.flatMap (·.2.1) = evs)
    (hp3 : ∀ q ∈ parts, q.1.ins = q.2.2.map Msg.flat ∧ List.Forall₂ (StoresEvent S.F) q.2.1 q.2.2) :
    ∃ gs : List (Handled P), gs.map (fun g => (g.pol, g.events)) = parts.map (fun q => (q.1.pol, q.2.1)) ∧ gs.map Handled.pol = segs.map Segment.pol ∧ gs.flatMap Handled.events = evs ∧
      gs.flatMap Handled.alerts = outs ∧ ∀ g ∈ gs, g.As S Want Alert := by
  refine ⟨parts.map (fun q => ⟨q.1.pol, q.2.1, q.1.outs⟩), by rw [List.map_map]; rfl, ?_, ?_, ?_, ?_⟩
  · rw [← hp1, List.map_map, List.map_map]
    rfl
  · rw [List.flatMap_map]; exact hp2
  · rw [List.flatMap_map, ← hdel.output, ← hp1, List.flatMap_map]
  · intro g hg
    obtain ⟨q, hq, rfl⟩ := List.mem_map.1 hg
    obtain ⟨hins, hrel⟩ := hp3 q hq
    have hseg : q.1 ∈ segs := by rw [← hp1]; exact List.mem_map.2 ⟨q, hq, rfl⟩
    have hall : List.Forall₂ (fun x m => Alert q.1.pol x m ∧ Processor.isEvent x.2 = true)
        (q.2.1.filter (fun x => decide (Want q.1.pol x))) (q.1.ins.filterMap (S.proc q.1.pol)) := by
      rw [hins, List.filterMap_map]
      refine forall₂_filterMap (Want q.1.pol) _ hrel ?_ ?_
      · intro x y hxy hn
        exact (hstep q.1.pol x y hxy).1 hn
      · intro x y hxy hl
        obtain ⟨m, h1, h2⟩ := (hstep q.1.pol x y hxy).2 hl
        exact ⟨m, h1, h2, hxy.1⟩
    have heach := hdel.each q.1 hseg
    rw [hproc] at heach
    obtain ⟨picked, w1, w2⟩ := forall₂_perm heach hall
    by_cases h1 : S.workers = 1
    · refine ⟨_, .refl _, fun _ => rfl, ?_⟩
      have : q.1.outs = q.1.ins.filterMap (cfg.proc q.1.pol) := hdel.order (hn.trans h1) q.1 hseg
      show List.Forall₂ _ _ q.1.outs
      rw [this, hproc]
      exact hall
    · exact ⟨picked, w1, fun h => absurd h h1, w2⟩

open Classical in
/-- What reaches the exporter, whatever it is, `tr1` being what the policy engine has done, if the reader stage emits the records of the events `evs`. -/
theorem alerts_delivered_along {X D : Type} (S : Setup P) (hwork : 0 < S.workers) (hcap : 0 < S.cap) (Want : P → Event → Prop) (Alert : P → Event → Msg → Prop)
    (hstep : ∀ p x fr, StoresEvent S.F x fr → (¬ Want p x → S.proc p (.flat fr) = none) ∧ (Want p x → ∃ m, S.proc p (.flat fr) = some m ∧ Alert p x m))
    (C : Exporter.Codec Msg D) (T : Exporter.Transport X D) (x0 : X)
    (tr : List (Drain.Obs Msg)) (s : Drain.St (S.netWith C T x0)) (h : Exec (S.netWith C T x0) tr s) (hw : Waited s) {tr1 : List (Engine.Swap.Obs P Msg)}
    (hx : Engine.Swap.Exec S.cfg S.policies S.start S.pending tr1 (show Engine.Swap.St P Msg from s.st 1)) (hi : Engine.Swap.inputs tr1 = Drain.takes (Drain.acts 1 tr))
    (hs : Engine.Swap.delivered 0 tr1 = Drain.sends 0 (Drain.acts 1 tr))
    (evs : List Event) (frs : List FlatRec) (hem : emitted (readerStep S.F S.fuel S.clock) S.reader0 (driven tr) = frs.map Msg.flat)
    (hstore : List.Forall₂ (StoresEvent S.F) evs frs) :
    ∃ (gs : List (Handled P)) (es : List (Exporter.Ev Msg)), gs.map Handled.pol = S.policies :: Engine.Swap.adoptions tr1 ∧ gs.flatMap Handled.events = evs ∧
      gs.flatMap Handled.alerts = Exporter.received es ∧ Exporter.closed es = true ∧
      (show Exporter.State X Msg D × Bool from s.st 2).1 = Exporter.run C T S.buffer (Exporter.init x0 S.start) es ∧ ∀ g ∈ gs, g.As S Want Alert := by
  obtain ⟨segs, es, hpol, hdel, hclosed, hfin⟩ := three_stages_along _ _ S.cfg hwork rfl S.policies S.start S.pending _ _ _ _ _ S.cap hcap tr s h hw hx hi hs
  rw [hem] at hdel
  obtain ⟨parts, hp1, hp2, hp3⟩ := split_along Msg.flat Segment.ins segs hstore hdel.input
  obtain ⟨gs, -, g1, g2, g3, g4⟩ := handled_of_segments S S.cfg rfl rfl Want Alert hstep hdel hp1 hp2 hp3
  exact ⟨gs, es, g1.trans hpol, g2, g3, hclosed, hfin, g4⟩

open Classical in
/-- What reaches the exporter, whatever it is, if the reader stage emits the records of the events `evs`. -/
theorem alerts_delivered_as {X D : Type} (S : Setup P) (hwork : 0 < S.workers) (hcap : 0 < S.cap) (Want : P → Event → Prop) (Alert : P → Event → Msg → Prop)
    (hstep : ∀ p x fr, StoresEvent S.F x fr → (¬ Want p x → S.proc p (.flat fr) = none) ∧ (Want p x → ∃ m, S.proc p (.flat fr) = some m ∧ Alert p x m))
    (C : Exporter.Codec Msg D) (T : Exporter.Transport X D) (x0 : X)
    (tr : List (Drain.Obs Msg)) (s : Drain.St (S.netWith C T x0)) (h : Exec (S.netWith C T x0) tr s) (hw : Waited s)
    (evs : List Event) (frs : List FlatRec) (hem : emitted (readerStep S.F S.fuel S.clock) S.reader0 (driven tr) = frs.map Msg.flat)
    (hstore : List.Forall₂ (StoresEvent S.F) evs frs) :
    ∃ (gs : List (Handled P)) (es : List (Exporter.Ev Msg)), (∃ rest, gs.map Handled.pol = S.policies :: rest) ∧ gs.flatMap Handled.events = evs ∧
      gs.flatMap Handled.alerts = Exporter.received es ∧ Exporter.closed es = true ∧
      (show Exporter.State X Msg D × Bool from s.st 2).1 = Exporter.run C T S.buffer (Exporter.init x0 S.start) es ∧ ∀ g ∈ gs, g.As S Want Alert := by
  obtain ⟨tr1, k1, k2, k3⟩ := three_engine _ _ S.cfg hwork rfl S.policies S.start S.pending _ _ _ _ _ S.cap hcap tr s h hw
  obtain ⟨gs, es, h1, h2⟩ := alerts_delivered_along S hwork hcap Want Alert hstep C T x0 tr s h hw k1 k2 k3 evs frs hem hstore
  exact ⟨gs, es, ⟨_, h1⟩, h2⟩

/-- The same for Falco policies. -/
theorem alerts_delivered {X D : Type} (S : Setup P) (dss : P → List (List Decl)) (ok : S.Core dss) (C : Exporter.Codec Msg D) (T : Exporter.Transport X D) (x0 : X)
    (tr : List (Drain.Obs Msg)) (s : Drain.St (S.netWith C T x0)) (h : Exec (S.netWith C T x0) tr s) (hw : Waited s)
    (evs : List Event) (frs : List FlatRec) (hem : emitted (readerStep S.F S.fuel S.clock) S.reader0 (driven tr) = frs.map Msg.flat)
    (hstore : List.Forall₂ (StoresEvent S.F) evs frs) :
    ∃ (gs : List (Handled P)) (es : List (Exporter.Ev Msg)), (∃ rest, gs.map Handled.pol = S.policies :: rest) ∧ gs.flatMap Handled.events = evs ∧
      gs.flatMap Handled.alerts = Exporter.received es ∧ Exporter.closed es = true ∧
      (show Exporter.State X Msg D × Bool from s.st 2).1 = Exporter.run C T S.buffer (Exporter.init x0 S.start) es ∧ ∀ g ∈ gs, g.Right S dss :=
  alerts_delivered_as S ok.workers ok.cap _ _ (engine_step S dss ok) C T x0 tr s h hw evs frs hem hstore

open Classical in
/-- A log is complete for the events `evs` under the policy sets `pols`, the line of an event being described by `Line`: the events fall into consecutive stretches, one for each of
these policy sets; the log is made of lines; those of a stretch are one for each of its events that its policies want logged, in the order of the events if there is one worker. -/
def CompleteUnder (S : Setup P) (pols : List P) (Want : P → Event → Prop) (Line : P → Event → Bytes → Prop) (evs : List Event) (log : Bytes) : Prop :=
  ∃ ss : List (Stretch P), ss.map Stretch.pol = pols ∧
    ss.flatMap Stretch.events = evs ∧
    log = (ss.flatMap Stretch.lines).flatMap (fun l => l ++ [Exporter.newline]) ∧
    Exporter.linesOf [] log = ss.flatMap Stretch.lines ∧
    ∀ g ∈ ss, ∃ picked, List.Perm picked (g.events.filter (fun x => decide (Want g.pol x))) ∧
      (S.workers = 1 → picked = g.events.filter (fun x => decide (Want g.pol x))) ∧
      List.Forall₂ (Line g.pol) picked g.lines

open Classical in
/-- A log is complete for the events `evs`, the line of an event being described by `Line`: the events fall into consecutive stretches, one for each
policy set in force, from the first one on; the log is made of lines; those of a stretch are one for each of its events that its policies want logged, in the order of the
events if there is one worker. -/
def Complete (S : Setup P) (Want : P → Event → Prop) (Line : P → Event → Bytes → Prop) (evs : List Event) (log : Bytes) : Prop :=
  ∃ ss : List (Stretch P), (∃ rest, ss.map Stretch.pol = S.policies :: rest) ∧
    ss.flatMap Stretch.events = evs ∧
    log = (ss.flatMap Stretch.lines).flatMap (fun l => l ++ [Exporter.newline]) ∧
    Exporter.linesOf [] log = ss.flatMap Stretch.lines ∧
    ∀ g ∈ ss, ∃ picked, List.Perm picked (g.events.filter (fun x => decide (Want g.pol x))) ∧
      (S.workers = 1 → picked = g.events.filter (fun x => decide (Want g.pol x))) ∧
      List.Forall₂ (Line g.pol) picked g.lines

/-- The same for Falco policies. -/
def CompleteFor (S : Setup P) (dss : P → List (List Decl)) (Line : List (List Decl) → Event → Bytes → Prop) (evs : List Event) (log : Bytes) : Prop :=
  Complete S (fun p => Logged S (dss p)) (fun p => Line (dss p)) evs log

open Classical in
/-- What an encoder that makes of every alert a datum that `Q` holds of makes of the alerts of stretches. -/
theorem data_of_handled (S : Setup P) (Want : P → Event → Prop) (Alert : P → Event → Msg → Prop) (enc : Msg → Option Exporter.Datum) (Line : P → Event → Bytes → Prop) (Q : Exporter.Datum → Prop)
    (henc : ∀ p x m, Processor.isEvent x.2 = true → Alert p x m → ∃ d, enc m = some d ∧ Line p x d.text ∧ Q d) (gs : List (Handled P)) (g4 : ∀ g ∈ gs, g.As S Want Alert) :
    ∃ (ss : List (Stretch P)) (ds : List Exporter.Datum), ss.map (fun g => (g.pol, g.events)) = gs.map (fun g => (g.pol, g.events)) ∧ ss.flatMap Stretch.lines = ds.map Exporter.Datum.text ∧ (∀ d ∈ ds, Q d) ∧
      (∀ g ∈ ss, ∃ picked, List.Perm picked (g.events.filter (fun x => decide (Want g.pol x))) ∧
        (S.workers = 1 → picked = g.events.filter (fun x => decide (Want g.pol x))) ∧
        List.Forall₂ (Line g.pol) picked g.lines) ∧
      (gs.flatMap Handled.alerts).map enc = ds.map some ∧ (gs.flatMap Handled.alerts).filterMap enc = ds ∧ ∀ m ∈ gs.flatMap Handled.alerts, enc m ≠ none := by
  have hlines : ∀ g ∈ gs, ∃ ds : List Exporter.Datum, g.alerts.map enc = ds.map some ∧ (∀ d ∈ ds, Q d) ∧
      ∃ picked, List.Perm picked (g.events.filter (fun x => decide (Want g.pol x))) ∧
      (S.workers = 1 → picked = g.events.filter (fun x => decide (Want g.pol x))) ∧
      List.Forall₂ (Line g.pol) picked (ds.map Exporter.Datum.text) := by
    intro g hg
    obtain ⟨picked, w1, w2, w3⟩ := g4 g hg
    generalize g.alerts = outs at w3
    have : ∃ ds : List Exporter.Datum, outs.map enc = ds.map some ∧ (∀ d ∈ ds, Q d) ∧
        List.Forall₂ (Line g.pol) picked (ds.map Exporter.Datum.text) := by
      clear w1 w2
      induction w3 with
      | nil => exact ⟨[], rfl, fun d hd => (by cases hd), .nil⟩
      | @cons x m xs ms h1 _ ih =>
        obtain ⟨ds, i1, i2, i3⟩ := ih
        obtain ⟨d, d1, d2, d3⟩ := henc _ x m h1.2 h1.1
        refine ⟨d :: ds, by simp [d1, i1], ?_, .cons d2 i3⟩
        intro y hy
        rcases List.mem_cons.1 hy with rfl | hy
        · exact d3
        · exact i2 y hy
    obtain ⟨ds, d1, d2, d3⟩ := this
    exact ⟨ds, d1, d2, picked, w1, w2, d3⟩
  have hss : ∃ (ss : List (Stretch P)) (ds : List Exporter.Datum), ss.map (fun g => (g.pol, g.events)) = gs.map (fun g => (g.pol, g.events)) ∧
      (gs.flatMap Handled.alerts).map enc = ds.map some ∧ (∀ d ∈ ds, Q d) ∧ ss.flatMap Stretch.lines = ds.map Exporter.Datum.text ∧
      ∀ g ∈ ss, ∃ picked, List.Perm picked (g.events.filter (fun x => decide (Want g.pol x))) ∧
        (S.workers = 1 → picked = g.events.filter (fun x => decide (Want g.pol x))) ∧
        List.Forall₂ (Line g.pol) picked g.lines := by
    clear g4
    induction gs with
    | nil => exact ⟨[], [], rfl, rfl, fun d hd => (by cases hd), rfl, fun g hg => (by cases hg)⟩
    | cons g gs ih =>
      obtain ⟨ss, ds, s1, s3, s4, s5, s6⟩ := ih (fun x hx => hlines x (by simp [hx]))
      obtain ⟨d1, w1, w2, picked, w3, w4, w5⟩ := hlines g (by simp)
      refine ⟨⟨g.pol, g.events, d1.map Exporter.Datum.text⟩ :: ss, d1 ++ ds, by simp [s1], ?_, ?_, ?_, ?_⟩
      · rw [List.flatMap_cons, List.map_append, w1, s3, List.map_append]
      · intro d hd
        rcases List.mem_append.1 hd with hd | hd
        · exact w2 d hd
        · exact s4 d hd
      · rw [List.flatMap_cons, s5, List.map_append]
      · intro x hx
        rcases List.mem_cons.1 hx with rfl | hx
        · exact ⟨picked, w3, w4, w5⟩
        · exact s6 x hx
  obtain ⟨ss, ds, s1, s3, s4, s5, s6⟩ := hss
  have hnone : ∀ m ∈ gs.flatMap Handled.alerts, enc m ≠ none := by
    intro m hm hn
    have : enc m ∈ (gs.flatMap Handled.alerts).map enc := List.mem_map.2 ⟨m, hm, rfl⟩
    rw [s3, hn] at this
    obtain ⟨_, _, h⟩ := List.mem_map.1 this
    cases h
  have hfm : (gs.flatMap Handled.alerts).filterMap enc = ds := by
    have : (gs.flatMap Handled.alerts).filterMap enc = ((gs.flatMap Handled.alerts).map enc).filterMap id := by rw [List.filterMap_map]; rfl
    rw [this, s3, List.filterMap_map]
    exact (List.filterMap_congr (fun _ _ => rfl)).trans List.filterMap_some
  exact ⟨ss, ds, s1, s5, s4, s6, s3, hfm, hnone⟩

open Classical in
/-- What reaches the transport, whatever it is, of an exporter whose encoder makes of every alert a datum that `Q` holds of, `tr1` being what the policy engine has done. -/
theorem data_delivered_along {X : Type} (S : Setup P) (hwork : 0 < S.workers) (hcap : 0 < S.cap) (Want : P → Event → Prop) (Alert : P → Event → Msg → Prop)
    (hstep : ∀ p x fr, StoresEvent S.F x fr → (¬ Want p x → S.proc p (.flat fr) = none) ∧ (Want p x → ∃ m, S.proc p (.flat fr) = some m ∧ Alert p x m))
    (enc : Msg → Option Exporter.Datum) (T : Exporter.Transport X Exporter.Datum) (x0 : X) (Line : P → Event → Bytes → Prop) (Q : Exporter.Datum → Prop)
    (henc : ∀ p x m, Processor.isEvent x.2 = true → Alert p x m → ∃ d, enc m = some d ∧ Line p x d.text ∧ Q d)
    (tr : List (Drain.Obs Msg)) (s : Drain.St (S.netWith (Exporter.allOrNone enc) T x0))
    (h : Exec (S.netWith (Exporter.allOrNone enc) T x0) tr s) (hw : Waited s) {tr1 : List (Engine.Swap.Obs P Msg)}
    (hx : Engine.Swap.Exec S.cfg S.policies S.start S.pending tr1 (show Engine.Swap.St P Msg from s.st 1)) (hi : Engine.Swap.inputs tr1 = Drain.takes (Drain.acts 1 tr))
    (hs : Engine.Swap.delivered 0 tr1 = Drain.sends 0 (Drain.acts 1 tr))
    (evs : List Event) (frs : List FlatRec) (hem : emitted (readerStep S.F S.fuel S.clock) S.reader0 (driven tr) = frs.map Msg.flat)
    (hstore : List.Forall₂ (StoresEvent S.F) evs frs) :
    ∃ (ss : List (Stretch P)) (ds : List Exporter.Datum) (es : List (Exporter.Ev Msg)), ss.map Stretch.pol = S.policies :: Engine.Swap.adoptions tr1 ∧ ss.flatMap Stretch.events = evs ∧
      ss.flatMap Stretch.lines = ds.map Exporter.Datum.text ∧ (∀ d ∈ ds, Q d) ∧
      (∀ g ∈ ss, ∃ picked, List.Perm picked (g.events.filter (fun x => decide (Want g.pol x))) ∧
        (S.workers = 1 → picked = g.events.filter (fun x => decide (Want g.pol x))) ∧
        List.Forall₂ (Line g.pol) picked g.lines) ∧
      (Exporter.received es).map enc = ds.map some ∧ (Exporter.received es).filterMap enc = ds ∧ Exporter.closed es = true ∧
      (show Exporter.State X Msg Exporter.Datum × Bool from s.st 2).1 = Exporter.run (Exporter.perRecord enc) T S.buffer (Exporter.init x0 S.start) es := by
  obtain ⟨gs, es, g1, g2, g3, hclosed, hfin, g4⟩ := alerts_delivered_along S hwork hcap Want Alert hstep _ _ _ tr s h hw hx hi hs evs frs hem hstore
  obtain ⟨ss, ds, s1, s5, s4, s6, s3, hfm, hnone⟩ := data_of_handled S Want Alert enc Line Q henc gs g4
  rw [g3] at s3 hfm hnone
  have e1 : ss.map Stretch.pol = gs.map Handled.pol := by
    have := congrArg (List.map Prod.fst) s1
    simpa [List.map_map, Function.comp_def] using this
  have e2 : ss.flatMap Stretch.events = gs.flatMap Handled.events := by
    have := congrArg (List.flatMap Prod.snd) s1
    simpa [List.flatMap_map] using this
  exact ⟨ss, ds, es, e1.trans g1, e2.trans g2, s5, s4, s6, s3, hfm, hclosed, hfin.trans (run_allOrNone enc _ _ es _ (fun r hr => (by cases hr)) hnone)⟩

open Classical in
/-- The log file of an exporter whose encoder makes of every alert a text without newline, `tr1` being what the policy engine has done. -/
theorem log_complete_along (S : Setup P) (hwork : 0 < S.workers) (hcap : 0 < S.cap) (Want : P → Event → Prop) (Alert : P → Event → Msg → Prop)
    (hstep : ∀ p x fr, StoresEvent S.F x fr → (¬ Want p x → S.proc p (.flat fr) = none) ∧ (Want p x → ∃ m, S.proc p (.flat fr) = some m ∧ Alert p x m))
    (enc : Msg → Option Exporter.Datum) (Line : P → Event → Bytes → Prop)
    (henc : ∀ p x m, Processor.isEvent x.2 = true → Alert p x m → ∃ d, enc m = some d ∧ Line p x d.text ∧ Exporter.newline ∉ d.text)
    (tr : List (Drain.Obs Msg)) (s : Drain.St (S.netWith (Exporter.allOrNone enc) (Exporter.fileTransport (fun _ => none)) Exporter.newFile))
    (h : Exec (S.netWith (Exporter.allOrNone enc) (Exporter.fileTransport (fun _ => none)) Exporter.newFile) tr s) (hw : Waited s) {tr1 : List (Engine.Swap.Obs P Msg)}
    (hx : Engine.Swap.Exec S.cfg S.policies S.start S.pending tr1 (show Engine.Swap.St P Msg from s.st 1)) (hi : Engine.Swap.inputs tr1 = Drain.takes (Drain.acts 1 tr))
    (hs : Engine.Swap.delivered 0 tr1 = Drain.sends 0 (Drain.acts 1 tr))
    (evs : List Event) (frs : List FlatRec) (hem : emitted (readerStep S.F S.fuel S.clock) S.reader0 (driven tr) = frs.map Msg.flat)
    (hstore : List.Forall₂ (StoresEvent S.F) evs frs) :
    CompleteUnder S (S.policies :: Engine.Swap.adoptions tr1) Want Line evs (show Exporter.State Exporter.OutFile Msg Exporter.Datum × Bool from s.st 2).1.tr.contents := by
  obtain ⟨ss, ds, es, s1, s2, s5, s4, s6, -, hfm, hclosed, hfin⟩ := data_delivered_along S hwork hcap Want Alert hstep enc _ _ Line (fun d => Exporter.newline ∉ d.text) henc tr s h hw hx hi hs evs frs hem hstore
  have hlog : (show Exporter.State Exporter.OutFile Msg Exporter.Datum × Bool from s.st 2).1.tr.contents = Exporter.logOf ds := by
    rw [hfin]
    exact (Exporter.file_log enc (fun _ => none) (fun _ => rfl) _ _ es hclosed).trans (by rw [hfm])
  refine ⟨ss, s1, s2, ?_, ?_, s6⟩
  · rw [hlog, s5, List.flatMap_map]; rfl
  · rw [hlog, s5]; exact Exporter.linesOf_log ds s4

open Classical in
/-- The log file of an exporter whose encoder makes of every alert a text without newline. -/
theorem log_complete_as (S : Setup P) (hwork : 0 < S.workers) (hcap : 0 < S.cap) (Want : P → Event → Prop) (Alert : P → Event → Msg → Prop)
    (hstep : ∀ p x fr, StoresEvent S.F x fr → (¬ Want p x → S.proc p (.flat fr) = none) ∧ (Want p x → ∃ m, S.proc p (.flat fr) = some m ∧ Alert p x m))
    (enc : Msg → Option Exporter.Datum) (Line : P → Event → Bytes → Prop)
    (henc : ∀ p x m, Processor.isEvent x.2 = true → Alert p x m → ∃ d, enc m = some d ∧ Line p x d.text ∧ Exporter.newline ∉ d.text)
    (tr : List (Drain.Obs Msg)) (s : Drain.St (S.netWith (Exporter.allOrNone enc) (Exporter.fileTransport (fun _ => none)) Exporter.newFile))
    (h : Exec (S.netWith (Exporter.allOrNone enc) (Exporter.fileTransport (fun _ => none)) Exporter.newFile) tr s) (hw : Waited s)
    (evs : List Event) (frs : List FlatRec) (hem : emitted (readerStep S.F S.fuel S.clock) S.reader0 (driven tr) = frs.map Msg.flat)
    (hstore : List.Forall₂ (StoresEvent S.F) evs frs) :
    Complete S Want Line evs (show Exporter.State Exporter.OutFile Msg Exporter.Datum × Bool from s.st 2).1.tr.contents := by
  obtain ⟨tr1, k1, k2, k3⟩ := three_engine _ _ S.cfg hwork rfl S.policies S.start S.pending _ _ _ _ _ S.cap hcap tr s h hw
  obtain ⟨ss, h1, h2⟩ := log_complete_along S hwork hcap Want Alert hstep enc Line henc tr s h hw k1 k2 k3 evs frs hem hstore
  exact ⟨ss, ⟨_, h1⟩, h2⟩

/-- The same for Falco policies. -/
theorem log_complete (S : Setup P) (dss : P → List (List Decl)) (ok : S.Core dss) (enc : Msg → Option Exporter.Datum)
    (Line : List (List Decl) → Event → Bytes → Prop)
    (henc : ∀ ds x m, Processor.isEvent x.2 = true → AlertFor S ds x m → ∃ d, enc m = some d ∧ Line ds x d.text ∧ Exporter.newline ∉ d.text)
    (tr : List (Drain.Obs Msg)) (s : Drain.St (S.netWith (Exporter.allOrNone enc) (Exporter.fileTransport (fun _ => none)) Exporter.newFile))
    (h : Exec (S.netWith (Exporter.allOrNone enc) (Exporter.fileTransport (fun _ => none)) Exporter.newFile) tr s) (hw : Waited s)
    (evs : List Event) (frs : List FlatRec) (hem : emitted (readerStep S.F S.fuel S.clock) S.reader0 (driven tr) = frs.map Msg.flat)
    (hstore : List.Forall₂ (StoresEvent S.F) evs frs) :
    CompleteFor S dss Line evs (show Exporter.State Exporter.OutFile Msg Exporter.Datum × Bool from s.st 2).1.tr.contents :=
  log_complete_as S ok.workers ok.cap _ _ (engine_step S dss ok) enc (fun p => Line (dss p)) (fun p x m h1 h2 => henc (dss p) x m h1 h2) tr s h hw evs frs hem hstore

/-- The reader stage without duplicate filter. -/
theorem reader_all (S : Setup P) (hdedup : S.dedup = false) (rs : List Rec) (rd : Processor.State) (cs : List HCall)
    (hrun : Processor.run false S.fuel .init rs = some (rd, cs)) :
    emitted (readerStep S.F S.fuel S.clock) S.reader0 (rs.map Msg.sf) = (cs.filterMap (Flattener.recOf S.F)).map Msg.flat ∧
    List.Forall₂ (StoresEvent S.F) (eventsAfter [] rs) (cs.filterMap (Flattener.recOf S.F)) :=
  ⟨reader_emits S.F S.fuel S.clock rs .init rd cs _ 0 (by simp [Flattener.init, hdedup]) hrun, Flattener.calls_store S.F S.fuel rs [] .init rd [] cs rfl hrun⟩

/-- The JSON encoder's texts. -/
theorem json_lines_with (S : Setup P) (hlib : Json.Spec.LibOk S.L) (hver : Json.Spec.VersionOk S.version) (V : List (Str × FVal) → List RuleInfo) (x : Event) (m : Msg)
    (hev : Processor.isEvent x.2 = true) (h : AlertWith S V x m) : ∃ d, S.enc m = some d ∧ LineWith S V x d.text ∧ Exporter.newline ∉ d.text := by
  obtain ⟨line, h1, h2⟩ := alert_line S hlib hver V x hev m h
  refine ⟨_, h1, h2, fun hc => ?_⟩
  obtain ⟨_, r, _, _, _, _, _, he, _⟩ := h2
  exact absurd (Json.json_single_line S.env hlib (fun c hc => numChar_noCtl c (hver.1 c hc)) r line he _ hc) (by decide)

/-- The same under Falco policies. -/
theorem json_lines (S : Setup P) (hlib : Json.Spec.LibOk S.L) (hver : Json.Spec.VersionOk S.version) (ds : List (List Decl)) (x : Event) (m : Msg) (hev : Processor.isEvent x.2 = true)
    (h : AlertFor S ds x m) : ∃ d, S.enc m = some d ∧ LineFor S ds x d.text ∧ Exporter.newline ∉ d.text := json_lines_with S hlib hver _ x m hev h

open Classical in
/-- **C76** The whole program: for every stream the driver delivers, every schedule of the goroutines, every moment at which policy sets are
replaced, and every firing of the exporter's timer — when `Wait` returns, the log consists of complete lines; the stream's events can be cut into
consecutive stretches, one per policy set in force, beginning with the initial one, such that the lines are, stretch by stretch, one for each
event that the policies in force let pass, and nothing else; in the order of the events if there is one worker. -/
theorem whole_program (S : Setup P) (dss : P → List (List Decl)) (ok : S.Ok dss) (rs : List Rec) (rd : Processor.State) (cs : List HCall)
    (hrun : Processor.run false S.fuel .init rs = some (rd, cs))
    (tr : List (Drain.Obs Msg)) (s : Drain.St S.net) (h : Exec S.net tr s) (hw : Waited s) (hd : driven tr = rs.map Msg.sf) :
    ∃ ss : List (Stretch P), (∃ rest, ss.map Stretch.pol = S.policies :: rest) ∧
      ss.flatMap Stretch.events = eventsAfter [] rs ∧
      S.log s = (ss.flatMap Stretch.lines).flatMap (fun l => l ++ [Exporter.newline]) ∧
      Exporter.linesOf [] (S.log s) = ss.flatMap Stretch.lines ∧
      ∀ g ∈ ss, ∃ picked, List.Perm picked (g.events.filter (fun x => decide (Logged S (dss g.pol) x))) ∧
        (S.workers = 1 → picked = g.events.filter (fun x => decide (Logged S (dss g.pol) x))) ∧
        List.Forall₂ (LineFor S (dss g.pol)) picked g.lines := by
  obtain ⟨h1, h2⟩ := reader_all S ok.dedup rs rd cs hrun
  exact log_complete S dss ok.toCore S.enc (LineFor S) (json_lines S ok.lib ok.version) tr s h hw _ _ (by rw [hd]; exact h1) h2

end Verif.Whole
