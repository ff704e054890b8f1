import Verif.Engine.Swap
import Verif.Engine.PoolProps
/-! C08, C09: replacing policies at run time. -/
namespace Verif.Engine.Swap
open Verif.Engine
variable {P R : Type u}

/-! ### specification-level projections of a trace -/

/-- Records taken from the input channel. -/
def inputs (tr : List (Obs P R)) : List R := tr.filterMap (fun | .input r => some r | _ => none)
/-- Policy sets adopted, in order. -/
def adoptions (tr : List (Obs P R)) : List P := tr.filterMap (fun | .adopted p => some p | _ => none)
/-- Policy sets queued by the monitor, in order. -/
def queued (tr : List (Obs P R)) : List P := tr.filterMap (fun | .queued p => some p | _ => none)
/-- Times of the policy checks. -/
def checks (tr : List (Obs P R)) : List Int := tr.filterMap (fun | .checked t => some t | _ => none)
/-- What the worker pools did, each event tagged with the policy set of the pool. -/
def poolEvents (tr : List (Obs P R)) : List (P × Pool.Obs R) := tr.filterMap (fun | .pool p o => some (p, o) | _ => none)
/-- Everything delivered on output channel `k`, under whatever policy. -/
def delivered (k : Nat) (tr : List (Obs P R)) : List R := Pool.sends k ((poolEvents tr).map Prod.snd)

/-- An epoch: a policy set and everything the pools did while it was in force. -/
abbrev Epoch (P R : Type u) := P × List (Pool.Obs R)

/-- An epoch is complete: every record accepted in it has been evaluated under its policy set exactly
once and the results delivered to every output channel. -/
def Complete (cfg : Cfg P R) (e : Epoch P R) : Prop :=
  (Pool.evals e.2).Perm (Pool.accepts e.2) ∧
  ∀ k, k < cfg.nOut → (Pool.sends k e.2).Perm ((Pool.accepts e.2).filterMap (cfg.proc e.1))

/-- An epoch that is over: its events are those of a worker pool running under its policy set that has stopped. -/
def Ended (cfg : Cfg P R) (e : Epoch P R) : Prop :=
  ∃ ps, Pool.Exec (cfg.proc e.1) cfg.nOut cfg.n e.2 ps ∧ Pool.Stopped ps

/-- Consecutive check times are more than `d` apart, starting from `t0`. -/
def Spaced (d : Int) : Int → List Int → Prop
  | _, [] => True
  | t0, t :: ts => t0 + d < t ∧ Spaced d t ts

/-! ### simp lemmas -/
section
variable (a b : List (Obs P R))
@[simp] theorem inputs_append : inputs (a ++ b) = inputs a ++ inputs b := by simp [inputs]
@[simp] theorem adoptions_append : adoptions (a ++ b) = adoptions a ++ adoptions b := by simp [adoptions]
@[simp] theorem queued_append : queued (a ++ b) = queued a ++ queued b := by simp [queued]
@[simp] theorem checks_append : checks (a ++ b) = checks a ++ checks b := by simp [checks]
@[simp] theorem poolEvents_append : poolEvents (a ++ b) = poolEvents a ++ poolEvents b := by simp [poolEvents]
end
theorem pool_map_proj (p : P) (os : List (Pool.Obs R)) :
    inputs (os.map (Obs.pool p)) = [] ∧ adoptions (os.map (Obs.pool p)) = [] ∧ queued (os.map (Obs.pool p)) = [] ∧
    checks (os.map (Obs.pool p)) = [] ∧ poolEvents (os.map (Obs.pool p)) = os.map (fun o => (p, o)) := by
  induction os with
  | nil => simp [inputs, adoptions, queued, checks, poolEvents]
  | cons o os ih => 
    simp [inputs, adoptions, queued, checks, poolEvents] at ih ⊢
    exact ih

/-- Record held by the main goroutine. -/
def inHand : Phase P R → List R
  | .check r => [r]
  | .stopping r _ => [r]
  | .submit r => [r]
  | _ => []

/-- Policy set held by the main goroutine while it waits for the old pool. -/
def taken : Phase P R → List P
  | .stopping _ p => [p]
  | _ => []

/-- Phases in which the pool's channel has been closed. -/
def isClosed : Phase P R → Bool
  | .stopping _ _ => true
  | .cleanup => true
  | .finished => true
  | _ => false

structure Inv (cfg : Cfg P R) (p0 : P) (start : Int) (pend0 : List P) (tr : List (Obs P R)) (s : St P R) : Prop where
  main : ∃ (old : List (Epoch P R)) (cur : List (Pool.Obs R)),
    Pool.Exec (cfg.proc s.pol) cfg.nOut cfg.n cur s.pool ∧
    poolEvents tr = old.flatMap (fun e => e.2.map (fun o => (e.1, o))) ++ cur.map (fun o => (s.pol, o)) ∧
    old.map Prod.fst ++ [s.pol] = p0 :: adoptions tr ∧
    old.flatMap (fun e => Pool.accepts e.2) ++ Pool.accepts cur ++ inHand s.phase = inputs tr ∧
    (∀ e ∈ old, Ended cfg e)
  clo : s.pool.closed = isClosed s.phase
  fin : (match s.phase with | .finished => True | _ => False) → Pool.Stopped s.pool
  pend : adoptions tr ++ taken s.phase ++ s.pending = pend0 ++ queued tr
  nchk : (adoptions tr).length + (taken s.phase).length ≤ (checks tr).length
  spc : ∀ ts, Spaced cfg.interval (s.expiration - cfg.interval) ts → Spaced cfg.interval start (checks tr ++ ts)
  nomon : cfg.monitor = false → checks tr = []

theorem all_done_iff (ws : List (Pool.W R)) :
    ws.all Pool.W.isDone = true ↔ ∀ w ∈ ws, w = .done := by
  rw [List.all_eq_true]
  constructor
  · intro h w hw; have := h w hw; cases w <;> simp_all [Pool.W.isDone]
  · intro h w hw; rw [h w hw]; rfl

theorem worker_closed {proc : R → Option R} {nOut n : Nat} {s s' : Pool.St R} {l : Pool.Label R} {os : List (Pool.Obs R)}
    (hl : l ≠ .close) (hs : Pool.step proc nOut n s l = some (s', os)) : s'.closed = s.closed := by
  cases l <;> simp only [Pool.step] at hs <;> (try split at hs) <;> (try split at hs) <;> (try split at hs) <;>
    first | (cases hs; done) | (cases hs; rfl) | (exact absurd rfl hl)

theorem worker_stopped {proc : R → Option R} {nOut n : Nat} {s s' : Pool.St R} {l : Pool.Label R} {os : List (Pool.Obs R)}
    (h : Pool.Stopped s) (hs : Pool.step proc nOut n s l = some (s', os)) : False := by
  have hw : ∀ (i : Nat) w, s.workers[i]? = some w → w = .done := fun i w hi => h.2 w (List.mem_of_getElem? hi)
  cases l with
  | submit r => simp [Pool.step, h.1] at hs
  | close => simp [Pool.step, h.1] at hs
  | recv i =>
    simp only [Pool.step] at hs; split at hs
    · rename_i h1 _; cases hw i _ h1
    · cases hs
  | eval i =>
    simp only [Pool.step] at hs; split at hs
    · rename_i h1; cases hw i _ h1
    · cases hs
  | send i =>
    simp only [Pool.step] at hs; split at hs
    · rename_i h1; cases hw i _ h1
    · cases hs
  | exit i =>
    simp only [Pool.step] at hs; split at hs
    · rename_i h1 _; cases hw i _ h1
    · cases hs

theorem ended_complete {cfg : Cfg P R} {e : Epoch P R} (h : Ended cfg e) : Complete cfg e := by
  obtain ⟨ps, hx, hs⟩ := h
  exact Pool.pool_exactly_once _ _ _ _ _ hx hs

theorem inv_init (cfg : Cfg P R) (p0 : P) (start : Int) (pend0 : List P) :
    Inv cfg p0 start pend0 [] (init cfg p0 start pend0) := by
  refine ⟨⟨[], [], .nil, ?_, ?_, ?_, ?_⟩, ?_, ?_, ?_, ?_, ?_, ?_⟩ <;>
    simp [poolEvents, adoptions, inputs, inHand, init, isClosed, taken, queued, checks, Pool.init]

theorem inv_step (cfg : Cfg P R) (p0 : P) (start : Int) (pend0 : List P) (tr : List (Obs P R)) (s : St P R)
    (l : Label P R) (s' : St P R) (os : List (Obs P R))
    (hI : Inv cfg p0 start pend0 tr s) (hs : step cfg s l = some (s', os)) : Inv cfg p0 start pend0 (tr ++ os) s' := by
  obtain ⟨⟨old, cur, hx, hp, ha, hi, hc⟩, hclo, hfin, hpend, hn, hsp, hnm⟩ := hI
  have poolstep : ∀ (pl : Pool.Label R) pool' pos ph', pl ≠ .close → Pool.step (cfg.proc s.pol) cfg.nOut cfg.n s.pool pl = some (pool', pos) →
      isClosed ph' = isClosed s.phase → taken ph' = taken s.phase → (Pool.accepts pos ++ inHand ph' = inHand s.phase) →
      ((match ph' with | .finished => True | _ => False) → (match s.phase with | .finished => True | _ => False)) →
      Inv cfg p0 start pend0 (tr ++ pos.map (Obs.pool s.pol)) { s with pool := pool', phase := ph' } := by
    intro pl pool' pos ph' hpl hps h1 h2 h3 h4
    obtain ⟨k1, k2, k3, k4, k5⟩ := pool_map_proj s.pol pos
    refine ⟨⟨old, cur ++ pos, .snoc hx hps, ?_, ?_, ?_, hc⟩, ?_, ?_, ?_, ?_, ?_, ?_⟩
    · simp [hp, k5]
    · simpa [k2] using ha
    · simp [k1] at hi ⊢; rw [← hi]; simp [← h3]
    · simp [worker_closed hpl hps, hclo, h1]
    · intro h; exact absurd (worker_stopped (hfin (h4 h)) hps) id
    · simpa [k2, k3, h2] using hpend
    · simpa [k2, k4, h2] using hn
    · simpa [k4] using hsp
    · simpa [k4] using hnm
  have closestep : s.pool.closed = false → Pool.Exec (cfg.proc s.pol) cfg.nOut cfg.n (cur ++ [.closing]) { s.pool with closed := true } := by
    intro h; exact .snoc hx (l := .close) (by simp [Pool.step, h])
  cases l with
  | input r =>
    simp only [step] at hs
    split at hs
    · rename_i hph
      cases hs
      rw [hph] at hi hclo hpend hn
      refine ⟨⟨old, cur, hx, ?_, ?_, ?_, hc⟩, ?_, ?_, ?_, ?_, ?_, ?_⟩
      · simpa [poolEvents] using hp
      · simpa [adoptions] using ha
      · simp [inputs, inHand] at hi ⊢; rw [← hi]; simp
      · simpa [isClosed] using hclo
      · simp
      · simpa [adoptions, queued, taken] using hpend
      · simpa [adoptions, checks, taken] using hn
      · simpa [checks] using hsp
      · simpa [checks] using hnm
    · cases hs
  | close =>
    simp only [step] at hs
    split at hs
    · rename_i hph
      cases hs
      rw [hph] at hi hclo hpend hn
      refine ⟨⟨old, cur, hx, ?_, ?_, ?_, hc⟩, ?_, ?_, ?_, ?_, ?_, ?_⟩
      · simpa using hp
      · simpa using ha
      · simpa [inHand] using hi
      · simpa [isClosed] using hclo
      · simp
      · simpa [taken] using hpend
      · simpa [taken] using hn
      · simpa using hsp
      · simpa using hnm
    · cases hs
  | clock t =>
    simp only [step] at hs
    split at hs
    · rename_i r hph
      rw [hph] at hi hclo hpend hn
      have skip : Inv cfg p0 start pend0 (tr ++ []) { s with phase := .submit r } := by
        refine ⟨⟨old, cur, hx, ?_, ?_, ?_, hc⟩, ?_, ?_, ?_, ?_, ?_, ?_⟩
        · simpa using hp
        · simpa using ha
        · simpa [inHand] using hi
        · simpa [isClosed] using hclo
        · simp
        · simpa [taken] using hpend
        · simpa [taken] using hn
        · simpa using hsp
        · simpa using hnm
      split at hs
      · rename_i hmon
        split at hs
        · rename_i hexp
          have hsp' : ∀ ts, Spaced cfg.interval (t + cfg.interval - cfg.interval) ts → Spaced cfg.interval start (checks tr ++ (t :: ts)) := by
            intro ts hts
            apply hsp
            refine ⟨by omega, ?_⟩
            have e : t + cfg.interval - cfg.interval = t := by omega
            rwa [e] at hts
          split at hs
          · rename_i p ps hpp
            cases hs
            rw [hpp] at hpend
            refine ⟨⟨old, cur ++ [.closing], closestep (by simpa [isClosed] using hclo), ?_, ?_, ?_, hc⟩, ?_, ?_, ?_, ?_, ?_, ?_⟩
            · simp [poolEvents] at hp ⊢; rw [hp]; simp
            · simpa [adoptions] using ha
            · simpa [inHand, inputs] using hi
            · simp [isClosed]
            · simp
            · simp [taken, adoptions, queued] at hpend ⊢; exact hpend
            · simp [taken, adoptions, checks] at hn ⊢; omega
            · simpa [checks] using hsp'
            · simp [hmon]
          · rename_i hpp
            cases hs
            refine ⟨⟨old, cur, hx, ?_, ?_, ?_, hc⟩, ?_, ?_, ?_, ?_, ?_, ?_⟩
            · simpa [poolEvents] using hp
            · simpa [adoptions] using ha
            · simpa [inHand, inputs] using hi
            · simpa [isClosed] using hclo
            · simp
            · simpa [taken, adoptions, queued] using hpend
            · simp [taken, adoptions, checks] at hn ⊢; omega
            · simpa [checks] using hsp'
            · simp [hmon]
        · cases hs; exact skip
      · cases hs; exact skip
    · cases hs
  | stopReturn =>
    simp only [step] at hs
    split at hs
    · rename_i r p hph
      split at hs
      · rename_i hst
        cases hs
        rw [hph] at hi hclo hpend hn
        have hstop : Pool.Stopped s.pool := ⟨hst.1, (all_done_iff _).1 hst.2⟩
        have hcomp : Ended cfg (s.pol, cur) := ⟨_, hx, hstop⟩
        refine ⟨⟨old ++ [(s.pol, cur)], [], .nil, ?_, ?_, ?_, ?_⟩, ?_, ?_, ?_, ?_, ?_, ?_⟩
        · simp [poolEvents] at hp ⊢; exact hp
        · simp [adoptions] at ha ⊢
          rw [← List.cons_append, ← ha]; simp
        · simpa [inHand, inputs] using hi
        · intro e he
          simp at he
          rcases he with he | rfl
          · exact hc e he
          · exact hcomp
        · simp [isClosed, Pool.init]
        · simp
        · simpa [taken, adoptions, queued] using hpend
        · simpa [taken, adoptions, checks] using hn
        · simpa [checks] using hsp
        · simpa [checks] using hnm
      · cases hs
    · cases hs
  | submit =>
    simp only [step] at hs
    split at hs
    · rename_i r hph
      split at hs
      · rename_i pool' pos hps
        cases hs
        refine poolstep (.submit r) pool' pos .recv (by simp) hps (by rw [hph]; rfl) (by rw [hph]; rfl) ?_ (by simp)
        simp only [Pool.step] at hps
        split at hps
        · cases hps; simp [hph, inHand]
        · cases hps
      · cases hs
    · cases hs
  | worker pl =>
    have gen : ∀ pl : Pool.Label R, pl.isWorker = true → ∀ pool' pos, Pool.step (cfg.proc s.pol) cfg.nOut cfg.n s.pool pl = some (pool', pos) →
        Inv cfg p0 start pend0 (tr ++ pos.map (Obs.pool s.pol)) { s with pool := pool' } := by
      intro pl hw pool' pos hps
      have hne : pl ≠ .close := by intro e; subst e; simp [Pool.Label.isWorker] at hw
      refine poolstep pl pool' pos s.phase hne hps rfl rfl ?_ id
      have : Pool.accepts pos = [] := by
        cases pl <;> simp only [Pool.step] at hps <;> (try split at hps) <;> (try split at hps) <;> (try split at hps) <;>
          first | (cases hps; done) | (cases hps; rfl) | (simp [Pool.Label.isWorker] at hw; done)
      simp [this]
    cases pl with
    | submit r => simp [step] at hs
    | close => simp [step] at hs
    | _ =>
      simp only [step] at hs
      split at hs
      · rename_i pool' pos hps
        cases hs
        exact gen _ rfl _ _ hps
      · cases hs
  | push p =>
    simp only [step] at hs
    split at hs
    · cases hs
      refine ⟨⟨old, cur, hx, ?_, ?_, ?_, hc⟩, hclo, hfin, ?_, ?_, ?_, ?_⟩
      · simpa [poolEvents] using hp
      · simpa [adoptions] using ha
      · simpa [inputs] using hi
      · simp [adoptions, queued] at hpend ⊢; rw [← List.append_assoc pend0, ← hpend]; simp
      · simpa [adoptions, checks] using hn
      · simpa [checks] using hsp
      · simpa [checks] using hnm
    · cases hs
  | cleanup =>
    simp only [step] at hs
    split at hs
    · rename_i hph
      cases hs
      rw [hph] at hi hclo hpend hn
      refine ⟨⟨old, cur ++ [.closing], closestep (by simpa [isClosed] using hclo), ?_, ?_, ?_, hc⟩, ?_, ?_, ?_, ?_, ?_, ?_⟩
      · simp [poolEvents] at hp ⊢; rw [hp]; simp
      · simpa [adoptions] using ha
      · simpa [inHand, inputs] using hi
      · simp [isClosed]
      · simp
      · simpa [taken, adoptions, queued] using hpend
      · simpa [taken, adoptions, checks] using hn
      · simpa [checks] using hsp
      · simpa [checks] using hnm
    · cases hs
  | cleanupReturn =>
    simp only [step] at hs
    split at hs
    · rename_i hph
      split at hs
      · rename_i hst
        cases hs
        rw [hph] at hi hclo hpend hn
        refine ⟨⟨old, cur, hx, ?_, ?_, ?_, hc⟩, ?_, ?_, ?_, ?_, ?_, ?_⟩
        · simpa [poolEvents] using hp
        · simpa [adoptions] using ha
        · simpa [inHand, inputs] using hi
        · simpa [isClosed] using hclo
        · intro _; exact ⟨by simpa [isClosed] using hclo, (all_done_iff _).1 hst⟩
        · simpa [taken, adoptions, queued] using hpend
        · simpa [taken, adoptions, checks] using hn
        · simpa [checks] using hsp
        · simpa [checks] using hnm
      · cases hs
    · cases hs

theorem inv_exec {cfg : Cfg P R} {p0 : P} {start : Int} {pend0 : List P} {tr : List (Obs P R)} {s : St P R}
    (h : Exec cfg p0 start pend0 tr s) : Inv cfg p0 start pend0 tr s :=
  Machine.Exec.invariant _ (inv_init cfg p0 start pend0) (inv_step cfg p0 start pend0) h

/-! ### property theorems -/

/-- **C08** Policy replacement is atomic per record, under every schedule, clock and arrival
pattern, at every moment: the pools' activity is a sequence of epochs, one per policy set adopted so
far (starting with the initial one); records enter epochs in input order (one may still be in the
engine's hands); every epoch but the current one is complete — each of its records was evaluated
exactly once, under that epoch's policy set, and delivered, before anything of the next epoch. -/
theorem swap_atomic (cfg : Cfg P R) (p0 : P) (start : Int) (pend0 : List P) (tr : List (Obs P R)) (s : St P R)
    (h : Exec cfg p0 start pend0 tr s) :
    ∃ (old : List (Epoch P R)) (cur : Epoch P R) (hand : List R),
      (old ++ [cur]).map Prod.fst = p0 :: adoptions tr ∧
      poolEvents tr = (old ++ [cur]).flatMap (fun e => e.2.map (fun o => (e.1, o))) ∧
      (old ++ [cur]).flatMap (fun e => Pool.accepts e.2) ++ hand = inputs tr ∧ hand.length ≤ 1 ∧
      (∀ e ∈ old, Complete cfg e) ∧
      (∃ rest, (Pool.evals cur.2 ++ rest).Perm (Pool.accepts cur.2)) := by
  obtain ⟨⟨old, cur, hx, hp, ha, hi, hc⟩, _, _, _, _, _, _⟩ := inv_exec h
  refine ⟨old, (s.pol, cur), inHand s.phase, ?_, ?_, ?_, ?_, fun e he => ended_complete (hc e he), ?_⟩
  · simpa using ha
  · simpa using hp
  · simpa using hi
  · cases s.phase <;> simp [inHand]
  · exact (Pool.pool_no_invention _ _ _ _ _ hx).1

/-- **C08** At shutdown nothing is lost or duplicated: the input splits into consecutive segments,
one per adopted policy set, and each segment was evaluated and delivered exactly once under its set. -/
theorem swap_shutdown_complete (cfg : Cfg P R) (p0 : P) (start : Int) (pend0 : List P) (tr : List (Obs P R)) (s : St P R)
    (h : Exec cfg p0 start pend0 tr s) (hf : s.phase = .finished) :
    ∃ es : List (Epoch P R),
      es.map Prod.fst = p0 :: adoptions tr ∧
      poolEvents tr = es.flatMap (fun e => e.2.map (fun o => (e.1, o))) ∧
      es.flatMap (fun e => Pool.accepts e.2) = inputs tr ∧
      ∀ e ∈ es, Complete cfg e := by
  obtain ⟨⟨old, cur, hx, hp, ha, hi, hc⟩, _, hfin, _, _, _, _⟩ := inv_exec h
  have hstop := hfin (by rw [hf]; trivial)
  refine ⟨old ++ [(s.pol, cur)], by simpa using ha, by simpa using hp, ?_, ?_⟩
  · rw [hf] at hi; simpa [inHand] using hi
  · intro e he
    simp at he
    rcases he with he | rfl
    · exact ended_complete (hc e he)
    · exact Pool.pool_exactly_once _ _ _ _ _ hx hstop

/-- **C08**, **C12** With a single worker, policy replacement also preserves the order: at shutdown the input splits into
consecutive segments, one per adopted policy set, and every output channel received exactly the results of these
segments, in input order. -/
theorem swap_single_worker_order (cfg : Cfg P R) (h1 : cfg.n = 1) (p0 : P) (start : Int) (pend0 : List P) (tr : List (Obs P R)) (s : St P R)
    (h : Exec cfg p0 start pend0 tr s) (hf : s.phase = .finished) :
    ∃ segs : List (P × List R),
      segs.map Prod.fst = p0 :: adoptions tr ∧ segs.flatMap Prod.snd = inputs tr ∧
      ∀ k, k < cfg.nOut → delivered k tr = segs.flatMap (fun g => g.2.filterMap (cfg.proc g.1)) := by
  obtain ⟨⟨old, cur, hx, hp, ha, hi, hc⟩, _, hfin, _, _, _, _⟩ := inv_exec h
  have hstop := hfin (by rw [hf]; trivial)
  have hall : ∀ e ∈ old ++ [(s.pol, cur)], Ended cfg e := by
    intro e he
    rcases List.mem_append.1 he with he | he
    · exact hc e he
    · rw [List.mem_singleton.1 he]; exact ⟨_, hx, hstop⟩
  refine ⟨(old ++ [(s.pol, cur)]).map (fun e => (e.1, Pool.accepts e.2)), ?_, ?_, ?_⟩
  · rw [List.map_map]; simpa [Function.comp_def] using ha
  · rw [hf] at hi; rw [List.flatMap_map]; simpa [inHand] using hi
  · intro k hk
    have hp' : poolEvents tr = (old ++ [(s.pol, cur)]).flatMap (fun e => e.2.map (fun o => (e.1, o))) := by simpa using hp
    rw [delivered, hp', List.flatMap_map]
    generalize old ++ [(s.pol, cur)] = es at hall
    clear hp hp' ha hi
    induction es with
    | nil => rfl
    | cons e es ih =>
      obtain ⟨ps, he, hs⟩ := hall e (by simp)
      rw [h1] at he
      have := (Pool.single_worker_order _ _ _ _ he).2.2 hs
      simp only [List.flatMap_cons, List.map_append, List.map_map, Pool.sends_append]
      rw [ih (fun x hx => hall x (by simp [hx]))]
      have e2 : List.map (Prod.snd ∘ fun o => (e.1, o)) e.2 = e.2 := by simp [Function.comp_def]
      rw [e2, this.2 k hk]

/-- **C08** When all policy sets treat records alike (or never change), replacement is invisible:
each output channel gets exactly the expected records. -/
theorem swap_delivery (cfg : Cfg P R) (p0 : P) (start : Int) (pend0 : List P) (tr : List (Obs P R)) (s : St P R)
    (h : Exec cfg p0 start pend0 tr s) (hf : s.phase = .finished)
    (f : R → Option R) (hsame : ∀ p, cfg.proc p = f) (k : Nat) (hk : k < cfg.nOut) :
    (delivered k tr).Perm ((inputs tr).filterMap f) := by
  obtain ⟨es, h1, h2, h3, h4⟩ := swap_shutdown_complete cfg p0 start pend0 tr s h hf
  rw [delivered, h2, ← h3]
  clear h1 h2 h3
  induction es with
  | nil => simp
  | cons e es ih =>
    have h1 := (h4 e (by simp)).2 k hk
    rw [hsame] at h1
    have ih' := ih (fun x hx => h4 x (by simp [hx]))
    simp only [List.flatMap_cons, List.map_append, List.map_map, Pool.sends_append, List.filterMap_append]
    refine List.Perm.append ?_ ih'
    have : List.map (Prod.snd ∘ fun o => (e.1, o)) e.2 = e.2 := by simp [Function.comp_def]
    rw [this]; exact h1

/-- **C09** Policy checks are more than one interval apart; policy sets are adopted in the order in
which they were queued, at most one per check; without a monitor they never change. -/
theorem refresh_discipline (cfg : Cfg P R) (p0 : P) (start : Int) (pend0 : List P) (tr : List (Obs P R)) (s : St P R)
    (h : Exec cfg p0 start pend0 tr s) :
    Spaced cfg.interval start (checks tr) ∧
    adoptions tr <+: pend0 ++ queued tr ∧
    (adoptions tr).length ≤ (checks tr).length ∧
    (cfg.monitor = false → adoptions tr = []) := by
  obtain ⟨_, _, _, hpend, hn, hsp, hnm⟩ := inv_exec h
  refine ⟨by simpa using hsp [] trivial, ⟨taken s.phase ++ s.pending, by rw [← hpend]; simp⟩, by omega, ?_⟩
  intro hm
  have := hnm hm
  rw [this] at hn
  exact List.eq_nil_of_length_eq_zero (by simp only [List.length_nil] at hn; omega)

/-- **C09** A pending policy set *is* adopted at the next record processed after the interval has
expired: from a state holding a record, with a monitor, an expired interval and a pending set, the
engine's next step stops the old pool and takes the oldest pending set. -/
theorem refresh_takes_oldest (cfg : Cfg P R) (s : St P R) (r : R) (t : Int) (p : P) (ps : List P)
    (hph : s.phase = .check r) (hm : cfg.monitor = true) (ht : s.expiration < t) (hp : s.pending = p :: ps) :
    ∃ s' os, step cfg s (.clock t) = some (s', os) ∧ s'.phase = .stopping r p ∧ s'.pending = ps ∧
      s'.pool.closed = true ∧ s'.expiration = t + cfg.interval := by
  simp [step, hph, hm, ht, hp]

/-- **C08** No deadlock during a swap or shutdown: with at least one worker, whenever the engine
holds a record, is stopping a pool or is cleaning up, some step of the program is enabled. -/
theorem swap_no_deadlock (cfg : Cfg P R) (p0 : P) (start : Int) (pend0 : List P) (tr : List (Obs P R)) (s : St P R)
    (h : Exec cfg p0 start pend0 tr s) (hn : 0 < cfg.n)
    (hph : s.phase ≠ .recv) (hnf : s.phase ≠ .finished) :
    ∃ l s' os, step cfg s l = some (s', os) ∧ (∀ p, l ≠ .push p) := by
  obtain ⟨⟨old, cur, hx, _, _, _, _⟩, hclo, _, _, _, _, _⟩ := inv_exec h
  have wk : ∀ (pl : Pool.Label R) pool' pos, pl.isWorker = true →
      Pool.step (cfg.proc s.pol) cfg.nOut cfg.n s.pool pl = some (pool', pos) →
      ∃ l s' os, step cfg s l = some (s', os) ∧ (∀ p, l ≠ .push p) := by
    intro pl pool' pos hw hps
    refine ⟨.worker pl, { s with pool := pool' }, pos.map (.pool s.pol), ?_, by simp⟩
    cases pl <;> simp_all [step, Pool.Label.isWorker]
  cases hp : s.phase with
  | recv => exact absurd hp hph
  | finished => exact absurd hp hnf
  | check r =>
    by_cases hm : cfg.monitor = true
    · by_cases ht : s.expiration < s.expiration
      · omega
      · exact ⟨.clock s.expiration, { s with phase := .submit r }, [], by simp [step, hp], by simp⟩
    · exact ⟨.clock 0, { s with phase := .submit r }, [], by simp [step, hp, hm], by simp⟩
  | eof => exact ⟨.cleanup, _, _, by simp only [step, hp]; rfl, by simp⟩
  | submit r =>
    rw [hp] at hclo
    rcases Pool.submit_no_deadlock _ _ _ _ _ hx hn (by simpa [isClosed] using hclo) r with ⟨s', os, e⟩ | ⟨l, s', os, e1, e2, _⟩
    · exact ⟨.submit, { s with pool := s', phase := .recv }, os.map (.pool s.pol), by simp [step, hp, e], by simp⟩
    · exact wk l s' os e1 e2
  | stopping r p =>
    rw [hp] at hclo
    rcases Pool.stop_no_deadlock _ _ _ _ _ hx (by simpa [isClosed] using hclo) with hst | ⟨l, s', os, e1, e2⟩
    · exact ⟨.stopReturn, { s with pol := p, pool := Pool.init R cfg.n, phase := .submit r }, [.adopted p], by
        have := (all_done_iff s.pool.workers).2 hst.2
        simp only [step, hp, hst.1, true_and]; rw [if_pos this], by simp⟩
    · exact wk l s' os e1 e2
  | cleanup =>
    rw [hp] at hclo
    rcases Pool.stop_no_deadlock _ _ _ _ _ hx (by simpa [isClosed] using hclo) with hst | ⟨l, s', os, e1, e2⟩
    · exact ⟨.cleanupReturn, { s with phase := .finished }, [.finished], by
        have := (all_done_iff s.pool.workers).2 hst.2
        simp only [step, hp]; rw [if_pos this], by simp⟩
    · exact wk l s' os e1 e2

/-! ### non-vacuity: two records under policy 0, a swap, one record under policy 1, shutdown -/

/-- Sample configuration: policy `p` forwards a record multiplied by `10 ^ p`. -/
def demo : Cfg Nat Nat := { proc := fun p r => some (r * 10 ^ p), nOut := 1, n := 1, monitor := true, interval := 30 }

example : ∃ tr s, Exec demo 0 0 [1] tr s ∧ s.phase = .finished ∧ inputs tr = [7, 8] ∧ adoptions tr = [1] ∧
    delivered 0 tr = [7, 80] ∧ checks tr = [31] ∧ queued tr = [2] := by
  refine ⟨_, _, Machine.exec_of_run (ls := [.input 7, .clock 10, .submit, .worker (.recv 0), .worker (.eval 0), .input 8, .clock 31,
    .push 2, .worker (.send 0), .worker (.exit 0), .stopReturn, .submit, .close, .cleanup, .worker (.recv 0), .worker (.eval 0), .worker (.send 0),
    .worker (.exit 0), .cleanupReturn]) rfl, ?_, ?_, ?_, ?_, ?_, ?_⟩ <;> rfl

end Verif.Engine.Swap
