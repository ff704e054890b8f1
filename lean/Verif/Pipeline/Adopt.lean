import Verif.Pipeline.Reload
/-
C103: new policies can always take effect: as long as the policy engine still has a record to take, the run can go on so that
the policies that are waiting are taken before it.
Sources: /repo/core/policyengine/policyengine.go:136-166, /repo/core/policyengine/monitor/localpolicymonitor.go:222-228
-/
namespace Verif.Pipeline.Reload
open Verif.Pipeline.Drain
open Verif.Monitor (Str FileEnt)
open Verif.Monitor.Joint (shared pushing monOf engOf JSt)
open Verif.Engine

variable {B C P R : Type}

/-- The stage reads the clock as the engine's machine does (policyengine.go:141-156). -/
structure Ticks {N : Net R} {cfg : Swap.Cfg P R} {p0 : P} {start : Int} (V : EngineIn N cfg p0 start) where
  clock : Int → (N.comp V.i).L
  lab : ∀ t, V.lab (clock t) = .clock t
  accepts : ∀ s t u os, Swap.step cfg (V.st s) (.clock t) = some (u, os) → ∃ v, (N.comp V.i).step s (clock t) = some (v, .tau) ∧ V.st v = u

/-- Nothing but the engine taking what the monitor pushed. -/
structure OnlyTaken (m m' : Monitor.Live.LSt B C P) (ms : List (Monitor.Live.Obs B P)) : Prop where
  rest : m' = { m with chan := m'.chan }
  chan : m'.chan.length ≤ m.chan.length
  obs : ∀ o ∈ ms, ∃ p, o = .taken p

theorem OnlyTaken.refl (m : Monitor.Live.LSt B C P) : OnlyTaken m m [] := ⟨rfl, Nat.le_refl _, fun o h => by cases h⟩

theorem OnlyTaken.trans {m m' m'' : Monitor.Live.LSt B C P} {ms ms' : List (Monitor.Live.Obs B P)} (h : OnlyTaken m m' ms) (h' : OnlyTaken m' m'' ms') : OnlyTaken m m'' (ms ++ ms') := by
  refine ⟨?_, Nat.le_trans h'.chan h.chan, ?_⟩
  · rw [h'.rest, h.rest]
  · intro o ho
    rcases List.mem_append.1 ho with ho | ho
    · exact h.obs o ho
    · exact h'.obs o ho

/-- Only receiving a record takes one. -/
theorem act_takes {l : Swap.Label P R} {os : List (Swap.Obs P R)} : (∃ r, l = .input r) ∨ takes [engineAct l os] = [] := by
  cases l with
  | input r => exact .inl ⟨r, rfl⟩
  | worker l =>
    right
    unfold engineAct
    split <;> first | rfl | (rename_i h; cases h)
  | _ => exact .inr rfl

/-- After it the policies are looked for. -/
theorem input_checks {cfg : Swap.Cfg P R} {s s' : Swap.St P R} {r : R} {os : List (Swap.Obs P R)} (h : Swap.step cfg s (.input r) = some (s', os)) : s'.phase = .check r := by
  unfold Swap.step at h
  dsimp only at h
  split at h
  · cases h; rfl
  · cases h

section
variable [DecidableEq C] {N : Net R} {cfg : Swap.Cfg P R} {p0 : P} {start : Int} {V : EngineIn N cfg p0 start} {sha : B → C} {compile : List (Str × Option B) → Option P}

/-- A step of the pipeline beside the monitor, with what it means for the monitor. -/
theorem lift_taken {d : List (FileEnt B)} {tr : List (Drain.Obs R)} {mo : List (Monitor.Live.Obs B P)} {x : Drain.St N × Monitor.Live.LSt B C P} (h : Exec V sha compile d tr mo x)
    {l : Drain.Label N} {o : Drain.Obs R} {s' : Drain.St N} (hs : Drain.Step N x.1 l o s') (hl : ∀ k, l = .stage V.i k → pushing (V.lab k) = false) :
    ∃ ms m', Exec V sha compile d (tr ++ [o]) (mo ++ ms) (s', m') ∧ OnlyTaken x.2 m' ms := by
  by_cases hp : (V.st (s'.st V.i)).pending.length = (V.st (x.1.st V.i)).pending.length
  · exact ⟨[], x.2, .snoc h (.net hs hl hp), .refl _⟩
  · obtain ⟨-, hc, -⟩ := run_engine h
    have : ∃ r rs, x.2.chan = r :: rs := by
      rw [hc]
      rcases step_at hs V.i with ⟨h1, -, -⟩ | ⟨k, a, h1, h2, -⟩
      · rw [h1] at hp; exact absurd rfl hp
      · obtain ⟨os, hst, -⟩ := engineStep_some (V.step _ _ _ _ h2)
        cases hq : (V.st (x.1.st V.i)).pending with
        | cons r rs => exact ⟨r, rs, rfl⟩
        | nil =>
          exfalso
          obtain ⟨-, hz⟩ := Monitor.Joint.swap_pending (hl k h1) hst
          rcases hz with hz | ⟨q, hz⟩
          · exact hp (congrArg List.length hz.1)
          · rw [hq] at hz; cases hz.1
    obtain ⟨r, rs, hc⟩ := this
    refine ⟨[.taken r], { x.2 with chan := rs }, .snoc h (.take hs hl hp ?_), ⟨rfl, ?_, ?_⟩⟩
    · unfold Monitor.Live.step
      dsimp only
      rw [hc]
    · rw [hc, List.length_cons]; exact Nat.le_succ _
    · intro o ho
      exact ⟨r, List.mem_singleton.1 ho⟩

/-- Along the schedule that lets the program run: the program and the monitor after `k` steps; whether the engine has taken a record by then, and if so the moment it had just done so. -/
theorem along (hT : Tree N) (hC : ∀ i, i < N.n → Contract (N.comp i)) {d : List (FileEnt B)} {tr : List (Drain.Obs R)} {mo : List (Monitor.Live.Obs B P)} {x : Drain.St N × Monitor.Live.LSt B C P}
    (h : Exec V sha compile d tr mo x) (hr : rootClosed tr = true) (k : Nat) :
    ∃ tr' ms m, Exec V sha compile d tr' (mo ++ ms) (busy N x.1 k, m) ∧ rootClosed tr' = true ∧ driven tr' = driven tr ∧ OnlyTaken x.2 m ms ∧
      (takes (acts V.i tr') = takes (acts V.i tr) ∨
        ∃ tr2 ms2 y, Exec V sha compile d tr2 (mo ++ ms2) y ∧ rootClosed tr2 = true ∧ driven tr2 = driven tr ∧ OnlyTaken x.2 y.2 ms2 ∧ y.1.panicked = false ∧
          ∃ r, (V.st (y.1.st V.i)).phase = .check r) := by
  classical
  obtain ⟨hS, hf⟩ := fair_schedule_exists N x.1
  induction k with
  | zero => exact ⟨tr, [], x.2, by rw [List.append_nil]; exact h, hr, rfl, .refl _, .inl rfl⟩
  | succ k ih =>
    obtain ⟨tr', ms, m, i1, i2, i3, i4, i5⟩ := ih
    cases ho : decide (CanStep N (busy N x.1 k)) with
    | false =>
      have e : busy N x.1 (k + 1) = busy N x.1 k := by
        change next N _ = _
        unfold next
        rw [dif_neg (of_decide_eq_false ho)]
      exact ⟨tr', ms, m, by rw [e]; exact i1, i2, i3, i4, i5⟩
    | true =>
      obtain ⟨l, o, hs, hl⟩ := hS.yes k ho
      have hnp : ∀ j, l = .stage V.i j → pushing (V.lab j) = false := by
        intro j hj
        rw [hj] at hl
        refine V.owns j ?_
        unfold Drain.Label.own at hl
        simpa using hl
      obtain ⟨ms', m', g1, g2⟩ := lift_taken i1 hs hnp
      have hc : (busy N x.1 k).closed 0 = true := (inv_exec hT hC (run_net i1)).closed0.trans i2
      have hdr : driven [o] = [] := by
        clear g1
        generalize busy N x.1 (k + 1) = b1 at hs
        generalize busy N x.1 k = b at hs hc
        cases hs with
        | drive r hp hcl hroom => rw [hc] at hcl; cases hcl
        | closeRoot => rfl
        | tau => rfl
        | take => rfl
        | eof => rfl
        | send => rfl
        | sendPanic => rfl
        | close => rfl
        | closePanic => rfl
      have e1 : Exec V sha compile d (tr' ++ [o]) (mo ++ (ms ++ ms')) (busy N x.1 (k + 1), m') := by rw [← List.append_assoc]; exact g1
      have e2 : rootClosed (tr' ++ [o]) = true := by rw [rootClosed_append, i2]; rfl
      have e3 : driven (tr' ++ [o]) = driven tr := by rw [driven_append, hdr, List.append_nil, i3]
      have e4 : OnlyTaken x.2 m' (ms ++ ms') := i4.trans g2
      refine ⟨tr' ++ [o], ms ++ ms', m', e1, e2, e3, e4, ?_⟩
      rcases i5 with i5 | i5
      · rcases step_at hs V.i with ⟨-, h2, -⟩ | ⟨k', a, h1, h2, h3⟩
        · exact .inl (by rw [acts_append, takes_append, h2, List.append_nil, i5])
        · obtain ⟨os, hst, ha⟩ := engineStep_some (V.step _ _ _ _ h2)
          rcases act_takes (l := V.lab k') (os := os) with ⟨r, hlab⟩ | hz
          · rw [hlab] at hst
            exact .inr ⟨tr' ++ [o], ms ++ ms', (busy N x.1 (k + 1), m'), e1, e2, e3, e4, (inv_exec hT hC (run_net e1)).ok, r, input_checks hst⟩
          · refine .inl ?_
            rw [acts_append, takes_append, h3, ha, hz, List.append_nil, i5]
      · exact .inr i5

/-- The pipeline can finish beside the monitor with nothing happening there but the engine taking policies. -/
theorem can_finish_taken (hT : Tree N) (hC : ∀ i, i < N.n → Contract (N.comp i)) {d : List (FileEnt B)} {tr : List (Drain.Obs R)} {mo : List (Monitor.Live.Obs B P)} {x : Drain.St N × Monitor.Live.LSt B C P}
    (h : Exec V sha compile d tr mo x) (hr : rootClosed tr = true) :
    ∃ tr' ms y, Exec V sha compile d tr' (mo ++ ms) y ∧ Waited y.1 ∧ driven tr' = driven tr ∧ OnlyTaken x.2 y.2 ms := by
  obtain ⟨hS, hf⟩ := fair_schedule_exists N x.1
  obtain ⟨k, hw, -⟩ := wait_returns hT hC hS (run_net h) hr hf
  obtain ⟨tr', ms, m, i1, i2, i3, i4, -⟩ := along hT hC h hr k
  exact ⟨tr', ms, _, i1, hw, i3, i4⟩

/-- **C103** New policies can take effect whenever the engine still has a record to take: if the driver has closed the channel, one policy set is waiting and every end of the run has the engine take more
records than it has so far, then the run can end with the policy set taken, without the directory or the monitor doing anything more. -/
theorem can_adopt (hT : Tree N) (hC : ∀ i, i < N.n → Contract (N.comp i)) (K : Ticks V) (hmon : cfg.monitor = true) {d : List (FileEnt B)} {tr : List (Drain.Obs R)} {mo : List (Monitor.Live.Obs B P)}
    {x : Drain.St N × Monitor.Live.LSt B C P} (h : Exec V sha compile d tr mo x) (hr : rootClosed tr = true) (hone : x.2.chan.length ≤ 1)
    (hmore : ∀ tr' s', Drain.Exec N tr' s' → Waited s' → driven tr' = driven tr → takes (acts V.i tr') ≠ takes (acts V.i tr)) :
    ∃ tr' ms y, Exec V sha compile d tr' (mo ++ ms) y ∧ Waited y.1 ∧ driven tr' = driven tr ∧ OnlyTaken x.2 y.2 ms ∧ y.2.chan = [] := by
  obtain ⟨hS, hf⟩ := fair_schedule_exists N x.1
  obtain ⟨k, hw, -⟩ := wait_returns hT hC hS (run_net h) hr hf
  obtain ⟨tr', ms, m, i1, i2, i3, i4, i5⟩ := along hT hC h hr k
  rcases i5 with i5 | ⟨tr2, ms2, y, e1, e2, e3, e4, hnp, r, hph⟩
  · exact absurd i5 (hmore _ _ (run_net i1) hw i3)
  · have fin : ∀ {tr3 : List (Drain.Obs R)} {ms3 : List (Monitor.Live.Obs B P)} {z : Drain.St N × Monitor.Live.LSt B C P}, Exec V sha compile d tr3 (mo ++ ms3) z → rootClosed tr3 = true →
        driven tr3 = driven tr → OnlyTaken x.2 z.2 ms3 → z.2.chan = [] →
        ∃ tr' ms y, Exec V sha compile d tr' (mo ++ ms) y ∧ Waited y.1 ∧ driven tr' = driven tr ∧ OnlyTaken x.2 y.2 ms ∧ y.2.chan = [] := by
      intro tr3 ms3 z f1 f2 f3 f4 f5
      obtain ⟨tr4, ms4, w, g1, g2, g3, g4⟩ := can_finish_taken hT hC f1 f2
      refine ⟨tr4, ms3 ++ ms4, w, by rw [← List.append_assoc]; exact g1, g2, g3.trans f3, f4.trans g4, ?_⟩
      have := g4.chan
      rw [f5] at this
      exact List.eq_nil_of_length_eq_zero (Nat.le_zero.1 this)
    obtain ⟨-, hc, -⟩ := run_engine e1
    cases hq : (V.st (y.1.st V.i)).pending with
    | nil => exact fin e1 e2 e3 e4 (hc.trans hq)
    | cons p ps =>
      have hst : ∃ u os, Swap.step cfg (V.st (y.1.st V.i)) (.clock ((V.st (y.1.st V.i)).expiration + 1)) = some (u, os) ∧ u.pending = ps := by
        unfold Swap.step
        dsimp only
        rw [hph]
        dsimp only
        rw [if_pos hmon, if_pos (by omega), hq]
        exact ⟨_, _, rfl, rfl⟩
      obtain ⟨u, os, hst, hu⟩ := hst
      obtain ⟨v, hv, hvu⟩ := K.accepts _ _ _ _ hst
      obtain ⟨ms3, m3, g1, g2⟩ := lift_taken e1 (.tau y.1 V.i _ v hnp V.stage hv) (fun j hj => by
        cases hj
        rw [K.lab]; rfl)
      refine fin (ms3 := ms2 ++ ms3) (by rw [← List.append_assoc]; exact g1) ?_ ?_ (e4.trans g2) ?_
      · rw [rootClosed_append, e2]; rfl
      · rw [driven_append, driven_stage, List.append_nil, e3]
      · obtain ⟨-, hc3, -⟩ := run_engine g1
        have hm3 : m3.chan = u.pending := by
          rw [show m3.chan = _ from hc3]
          change (V.st (Function.update y.1.st V.i v V.i)).pending = _
          rw [Function.update_self, hvu]
        have hlen := e4.chan
        rw [hc, hq, List.length_cons] at hlen
        rw [hm3, hu]
        exact List.eq_nil_of_length_eq_zero (by omega)

/-- The driver's steps take nothing in any stage, and leave the monitor as it is. -/
theorem drive_close_only {d : List (FileEnt B)} {tr : List (Drain.Obs R)} {mo : List (Monitor.Live.Obs B P)} {x : Drain.St N × Monitor.Live.LSt B C P} (h : Exec V sha compile d tr mo x)
    (hn : x.1.panicked = false) (hcl : x.1.closed 0 = false) (rs : List R) (hr : (x.1.buf 0).length + rs.length ≤ N.cap) :
    ∃ tr' s', Exec V sha compile d (tr ++ tr') mo (s', x.2) ∧ rootClosed (tr ++ tr') = true ∧ driven tr' = rs ∧ ∀ i, takes (acts i tr') = [] := by
  induction rs generalizing tr mo x with
  | nil =>
    have := Exec.snoc h (.net (.closeRoot _ hn hcl) (fun k hk => by cases hk) rfl)
    rw [List.append_nil] at this
    exact ⟨[.rootClosed], _, this, by simp only [Drain.rootClosed_append, Drain.root_root, Bool.or_true], rfl, fun _ => rfl⟩
  | cons r rs ih =>
    rw [List.length_cons] at hr
    have e := Exec.snoc h (.net (.drive _ r hn hcl (Nat.lt_of_lt_of_le (by omega : (x.1.buf 0).length < (x.1.buf 0).length + (rs.length + 1)) hr)) (fun k hk => by cases hk) rfl)
    rw [List.append_nil] at e
    obtain ⟨tr', s', e', k1, k2, k3⟩ := ih e hn hcl (by
      dsimp only
      rw [Function.update_self, List.length_append, List.length_singleton]
      omega)
    refine ⟨.driven r :: tr', s', by rw [List.append_cons]; exact e', by rw [List.append_cons]; exact k1, ?_, fun i => ?_⟩
    · rw [← List.singleton_append, Drain.driven_append, k2]; rfl
    · rw [← List.singleton_append, Drain.acts_append, Drain.takes_append, k3]; rfl

end

end Verif.Pipeline.Reload
