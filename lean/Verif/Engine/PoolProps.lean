import Verif.Engine.PoolSpec
/-! C05, C06, C07 and the fan-out part of C12: the worker pool under every schedule. -/
namespace Verif.Engine.Pool
variable {R : Type u}

/-! ### helper definitions and lemmas -/

/-- Record held by a worker before evaluation. -/
def heldW : W R → List R
  | .busy r => [r]
  | _ => []

/-- Record a worker still has to deliver on channel `k`. -/
def pendW (k : Nat) : W R → List R
  | .sending r j => if j ≤ k then [r] else []
  | _ => []

@[simp] theorem heldW_idle : heldW (.idle : W R) = [] := rfl
@[simp] theorem heldW_busy (r : R) : heldW (.busy r) = [r] := rfl
@[simp] theorem heldW_sending (r : R) (j : Nat) : heldW (.sending r j) = [] := rfl
@[simp] theorem heldW_done : heldW (.done : W R) = [] := rfl
@[simp] theorem pendW_idle (k : Nat) : pendW k (.idle : W R) = [] := rfl
@[simp] theorem pendW_busy (k : Nat) (r : R) : pendW k (.busy r) = [] := rfl
@[simp] theorem pendW_sending (k : Nat) (r : R) (j : Nat) : pendW k (.sending r j) = if j ≤ k then [r] else [] := rfl
@[simp] theorem pendW_done (k : Nat) : pendW k (.done : W R) = [] := rfl

theorem split_at {α : Type v} {l : List α} {i : Nat} {a : α} (h : l[i]? = some a) :
    ∃ pre post, l = pre ++ a :: post ∧ pre.length = i ∧ ∀ b, (pre ++ a :: post).set i b = pre ++ b :: post := by
  induction l generalizing i with
  | nil => simp at h
  | cons x xs ih =>
    cases i with
    | zero => simp at h; subst h; exact ⟨[], xs, by simp⟩
    | succ i =>
      simp at h
      obtain ⟨pre, post, h1, h2, h3⟩ := ih h
      exact ⟨x :: pre, post, by simp [h1], by simp [h2], fun b => by simp [← h2]⟩

/-- The pool invariant. -/
structure Inv (proc : R → Option R) (nOut n : Nat) (tr : List (Obs R)) (s : St R) : Prop where
  acc : ∃ deq, accepts tr = deq ++ s.queue ∧ deq.Perm (evals tr ++ s.workers.flatMap heldW)
  out : ∀ k, k < nOut → ((evals tr).filterMap proc).Perm (sends k tr ++ s.workers.flatMap (pendW k))
  idx : ∀ r j, W.sending r j ∈ s.workers → j < nOut
  fin : W.done ∈ s.workers → s.closed = true ∧ s.queue = []
  cap : s.queue.length ≤ n
  len : s.workers.length = n

theorem inv_init (proc : R → Option R) (nOut n : Nat) : Inv proc nOut n [] (init R n) := by
  have h : ∀ (f : W R → List R), f .idle = [] → (List.replicate n W.idle).flatMap f = [] := by
    intro f hf; simp [List.flatMap_eq_nil_iff, hf]
  refine ⟨⟨[], ?_, ?_⟩, ?_, ?_, ?_, ?_, ?_⟩
  · simp [accepts, init]
  · simp [evals, init, h heldW rfl]
  · intro k _; simp [evals, sends, init, h (pendW k) rfl]
  · intro r j hm; simp [init] at hm
  · intro hm; simp [init] at hm
  · simp [init]
  · simp [init]

open Classical in
theorem inv_step (proc : R → Option R) (nOut n : Nat) (tr : List (Obs R)) (s : St R) (l : Label R) (s' : St R) (os : List (Obs R))
    (hI : Inv proc nOut n tr s) (hs : step proc nOut n s l = some (s', os)) : Inv proc nOut n (tr ++ os) s' := by
  obtain ⟨⟨deq, ha, hd⟩, ho, hi, hf, hc, hl⟩ := hI
  cases l with
  | submit r =>
    simp only [step] at hs
    split at hs
    · rename_i h
      cases hs
      refine ⟨⟨deq, ?_, ?_⟩, ?_, hi, ?_, ?_, hl⟩
      · simp [ha]
      · simpa using hd
      · intro k hk; simpa using ho k hk
      · intro hm; simp [(hf hm).1] at h
      · simp; omega
    · cases hs
  | close =>
    simp only [step] at hs
    split at hs
    · cases hs
      refine ⟨⟨deq, ?_, ?_⟩, ?_, hi, ?_, hc, hl⟩
      · simp [ha]
      · simpa using hd
      · intro k hk; simpa using ho k hk
      · intro hm; exact ⟨rfl, (hf hm).2⟩
    · cases hs
  | recv i =>
    simp only [step] at hs
    split at hs
    · rename_i r q hw hq
      cases hs
      obtain ⟨pre, post, h1, _, h3⟩ := split_at hw
      refine ⟨⟨deq ++ [r], ?_, ?_⟩, ?_, ?_, ?_, ?_, ?_⟩
      · simp [ha, hq]
      · rw [List.perm_iff_count] at hd ⊢
        intro a
        have := hd a
        simp [h1, h3, List.flatMap_append, List.count_append, List.count_cons] at this ⊢
        omega
      · intro k hk
        have := ho k hk
        simp [h1, h3] at this ⊢
        exact this
      · intro r' j hm
        simp [h1, h3] at hm
        exact hi r' j (by rw [h1]; simpa using hm)
      · intro hm
        simp [h1, h3] at hm
        have := hf (by rw [h1]; simpa using hm)
        simp [hq] at this
      · simp [hq] at hc; simp; omega
      · simpa using hl
    · cases hs
  | eval i =>
    simp only [step] at hs
    split at hs
    · rename_i r hw
      obtain ⟨pre, post, h1, _, h3⟩ := split_at hw
      have gen : ∀ (w' : W R), (heldW w' = []) → (∀ k, k < nOut → pendW k w' = (proc r).toList) →
          (∀ r' j, w' = .sending r' j → j < nOut) → w' ≠ .done →
          Inv proc nOut n (tr ++ [.evaluated r]) { s with workers := s.workers.set i w' } := by
        intro w' hh hp hj hdn
        refine ⟨⟨deq, ?_, ?_⟩, ?_, ?_, ?_, hc, ?_⟩
        · simp [ha]
        · rw [List.perm_iff_count] at hd ⊢
          intro a
          have := hd a
          simp [h1, h3, hh, List.flatMap_append, List.count_append, List.count_cons] at this ⊢
          omega
        · intro k hk
          have hk' := ho k hk
          rw [List.perm_iff_count] at hk' ⊢
          intro a
          have := hk' a
          simp [h1, h3, hp k hk, List.flatMap_append, List.count_append, List.count_cons] at this ⊢
          cases hpr : proc r <;> simp [hpr, List.count_cons] at this ⊢ <;> omega
        · intro r' j hm
          simp [h1, h3] at hm
          rcases hm with hm | hm | hm
          · exact hi r' j (by rw [h1]; simp [hm])
          · exact hj r' j hm.symm
          · exact hi r' j (by rw [h1]; simp [hm])
        · intro hm
          simp [h1, h3] at hm
          rcases hm with hm | hm | hm
          · exact hf (by rw [h1]; simp [hm])
          · exact absurd hm.symm hdn
          · exact hf (by rw [h1]; simp [hm])
        · simpa using hl
      split at hs
      · rename_i r' hp
        split at hs
        · rename_i hn
          cases hs
          refine gen _ rfl ?_ ?_ (by simp)
          · intro k _; simp [hp]
          · intro a j e; cases e; exact hn
        · rename_i hn
          cases hs
          refine gen _ rfl ?_ (by simp) (by simp)
          intro k hk; omega
      · rename_i hp
        cases hs
        refine gen _ rfl ?_ (by simp) (by simp)
        intro k _; simp [hp]
    · cases hs
  | send i =>
    simp only [step] at hs
    split at hs
    · rename_i r j hw
      obtain ⟨pre, post, h1, _, h3⟩ := split_at hw
      have hj : j < nOut := hi r j (by rw [h1]; simp)
      have gen : ∀ (w' : W R), (heldW w' = []) → (∀ k, k < nOut → pendW k w' = if j + 1 ≤ k then [r] else []) →
          (∀ r' j, w' = .sending r' j → j < nOut) → w' ≠ .done →
          Inv proc nOut n (tr ++ [.sent j r]) { s with workers := s.workers.set i w' } := by
        intro w' hh hp hj hdn
        refine ⟨⟨deq, ?_, ?_⟩, ?_, ?_, ?_, hc, ?_⟩
        · simp [ha]
        · rw [List.perm_iff_count] at hd ⊢
          intro a
          have := hd a
          simp [h1, h3, hh, List.flatMap_append, List.count_append, List.count_cons] at this ⊢
          omega
        · intro k hk
          have hk' := ho k hk
          rw [List.perm_iff_count] at hk' ⊢
          intro a
          have := hk' a
          by_cases e : j = k
          · subst e
            have e2 : ¬ (j + 1 ≤ j) := by omega
            simp [h1, h3, hp j hk, e2, List.flatMap_append, List.count_append, List.count_cons] at this ⊢
            omega
          · by_cases e2 : j + 1 ≤ k
            · have e3 : j ≤ k := by omega
              simp [h1, h3, hp k hk, e, e2, e3, List.flatMap_append, List.count_append, List.count_cons] at this ⊢
              omega
            · have e3 : ¬ j ≤ k := by omega
              simp [h1, h3, hp k hk, e, e2, e3, List.flatMap_append, List.count_append, List.count_cons] at this ⊢
              omega
        · intro r' j hm
          simp [h1, h3] at hm
          rcases hm with hm | hm | hm
          · exact hi r' j (by rw [h1]; simp [hm])
          · exact hj r' j hm.symm
          · exact hi r' j (by rw [h1]; simp [hm])
        · intro hm
          simp [h1, h3] at hm
          rcases hm with hm | hm | hm
          · exact hf (by rw [h1]; simp [hm])
          · exact absurd hm.symm hdn
          · exact hf (by rw [h1]; simp [hm])
        · simpa using hl
      split at hs
      · rename_i hn
        cases hs
        refine gen _ rfl ?_ ?_ (by simp)
        · intro k _; simp
        · intro a j e; cases e; exact hn
      · rename_i hn
        cases hs
        refine gen _ rfl ?_ (by simp) (by simp)
        intro k hk
        have : ¬ (j + 1 ≤ k) := by omega
        simp [this]
    · cases hs
  | exit i =>
    simp only [step] at hs
    split at hs
    · rename_i hw hq
      split at hs
      · rename_i hcl
        cases hs
        obtain ⟨pre, post, h1, _, h3⟩ := split_at hw
        refine ⟨⟨deq, ?_, ?_⟩, ?_, ?_, ?_, hc, ?_⟩
        · simp [ha]
        · simpa [h1, h3] using hd
        · intro k hk; simpa [h1, h3] using ho k hk
        · intro r' j hm
          simp [h1, h3] at hm
          exact hi r' j (by rw [h1]; simpa using hm)
        · intro _; exact ⟨hcl, hq⟩
        · simpa using hl
      · cases hs
    · cases hs

theorem inv_exec {proc : R → Option R} {nOut n : Nat} {tr : List (Obs R)} {s : St R}
    (h : Exec proc nOut n tr s) : Inv proc nOut n tr s :=
  Machine.Exec.invariant _ (inv_init proc nOut n) (inv_step proc nOut n) h

theorem stopped_flatMap {f : W R → List R} (hf : f .done = []) {s : St R} (h : Stopped s) : s.workers.flatMap f = [] := by
  rw [List.flatMap_eq_nil_iff]; intro w hw; rw [h.2 w hw, hf]

theorem stopped_queue {proc : R → Option R} {nOut n : Nat} {tr : List (Obs R)} {s : St R}
    (hI : Inv proc nOut n tr s) (h : Stopped s) : s.queue = [] := by
  cases hw : s.workers with
  | nil =>
    have h1 := hI.len; have h2 := hI.cap
    rw [hw] at h1; simp at h1; subst h1
    exact List.eq_nil_of_length_eq_zero (by omega)
  | cons w ws => exact (hI.fin (by rw [← h.2 w (by simp [hw]), hw]; simp)).2

/-! ### property theorems -/

/-- **C05** Exactly once under every schedule: when `StopWorkers` has returned, the records
evaluated are exactly the records accepted (as multisets), and every output channel has received
exactly the records the worker body emits for them. -/
theorem pool_exactly_once (proc : R → Option R) (nOut n : Nat) (tr : List (Obs R)) (s : St R)
    (h : Exec proc nOut n tr s) (hstop : Stopped s) :
    (evals tr).Perm (accepts tr) ∧
    ∀ k, k < nOut → (sends k tr).Perm ((accepts tr).filterMap proc) := by
  have hI := inv_exec h
  obtain ⟨deq, ha, hd⟩ := hI.acc
  rw [stopped_queue hI hstop, List.append_nil] at ha
  rw [stopped_flatMap rfl hstop, List.append_nil] at hd
  subst ha
  refine ⟨hd.symm, fun k hk => ?_⟩
  have := hI.out k hk
  rw [stopped_flatMap rfl hstop, List.append_nil] at this
  exact this.symm.trans (hd.symm.filterMap proc)

/-- **C05** At every moment of every schedule: no record is evaluated that was not accepted, none
more often than accepted, and no channel receives anything that is not emitted for an accepted
record (sub-multisets). -/
theorem pool_no_invention (proc : R → Option R) (nOut n : Nat) (tr : List (Obs R)) (s : St R)
    (h : Exec proc nOut n tr s) :
    (∃ rest, (evals tr ++ rest).Perm (accepts tr)) ∧
    ∀ k, k < nOut → ∃ rest, (sends k tr ++ rest).Perm ((accepts tr).filterMap proc) := by
  have hI := inv_exec h
  obtain ⟨deq, ha, hd⟩ := hI.acc
  have h1 : ((evals tr ++ s.workers.flatMap heldW) ++ s.queue).Perm (accepts tr) := by
    rw [ha]; exact (hd.symm).append_right _
  rw [List.append_assoc] at h1
  refine ⟨⟨_, h1⟩, fun k hk => ?_⟩
  have h2 := h1.filterMap proc
  rw [List.filterMap_append] at h2
  have h3 := (hI.out k hk).symm.append_right (List.filterMap proc (s.workers.flatMap heldW ++ s.queue))
  exact ⟨_, by rw [← List.append_assoc]; exact h3.trans h2⟩

/-- **C05** The number of records in the pool's channel never exceeds the concurrency. -/
theorem pool_bounded (proc : R → Option R) (nOut n : Nat) (tr : List (Obs R)) (s : St R)
    (h : Exec proc nOut n tr s) : s.queue.length ≤ n ∧ (accepts tr).length ≤ (evals tr).length + 2 * n := by
  have hI := inv_exec h
  refine ⟨hI.cap, ?_⟩
  obtain ⟨deq, ha, hd⟩ := hI.acc
  have h1 := hd.length_eq
  have hb : ∀ ws : List (W R), (ws.flatMap heldW).length ≤ ws.length := by
    intro ws
    induction ws with
    | nil => simp
    | cons w ws ih => rw [List.flatMap_cons, List.length_append]; cases w <;> simp [-List.length_flatMap] <;> omega
  have h2 := hb s.workers
  have h3 := hI.cap
  have h4 := hI.len
  rw [ha]; simp [-List.length_flatMap] at h1 ⊢; omega

/-- One-worker invariant: everything stays in order. -/
structure Inv1 (proc : R → Option R) (nOut : Nat) (tr : List (Obs R)) (s : St R) : Prop where
  one : ∃ w, s.workers = [w] ∧ accepts tr = evals tr ++ heldW w ++ s.queue ∧
    ∀ k, k < nOut → (evals tr).filterMap proc = sends k tr ++ pendW k w

theorem inv1_exec {proc : R → Option R} {nOut : Nat} {tr : List (Obs R)} {s : St R}
    (h : Exec proc nOut 1 tr s) : Inv1 proc nOut tr s := by
  have key : Inv proc nOut 1 tr s ∧ Inv1 proc nOut tr s := by
    refine Machine.Exec.invariant (fun tr s => Inv proc nOut 1 tr s ∧ Inv1 proc nOut tr s)
      ⟨inv_init proc nOut 1, ⟨.idle, by simp [init]⟩⟩ ?_ h
    intro tr s l s' os ⟨hI, ⟨w, hw, ha, ho⟩⟩ hs
    refine ⟨inv_step _ _ _ _ _ _ _ _ hI hs, ?_⟩
    have hidx := hI.idx
    cases l with
    | submit r =>
      simp only [step] at hs
      split at hs
      · cases hs
        exact ⟨w, hw, by simp at ha ⊢; simp [ha], fun k hk => by simpa using ho k hk⟩
      · cases hs
    | close =>
      simp only [step] at hs
      split at hs
      · cases hs
        exact ⟨w, hw, by simpa using ha, fun k hk => by simpa using ho k hk⟩
      · cases hs
    | recv i =>
      simp only [step, hw] at hs
      cases i with
      | succ i => simp at hs
      | zero =>
        cases w <;> simp at hs
        split at hs
        · rename_i r q _ hq
          cases hs
          refine ⟨.busy r, by simp, ?_, ?_⟩
          · simp [hq] at ha ⊢; exact ha
          · intro k hk; simpa using ho k hk
        · cases hs
    | eval i =>
      simp only [step, hw] at hs
      cases i with
      | succ i => simp at hs
      | zero =>
        cases w with
        | busy r =>
          simp at hs
          split at hs
          · rename_i r' hp
            split at hs
            · cases hs
              refine ⟨.sending r' 0, by simp, ?_, ?_⟩
              · simpa using ha
              · intro k hk; have := ho k hk; simp [hp] at this ⊢; exact this
            · rename_i hn
              cases hs
              refine ⟨.idle, by simp, ?_, ?_⟩
              · simpa using ha
              · intro k hk; omega
          · rename_i hp
            cases hs
            refine ⟨.idle, by simp, ?_, ?_⟩
            · simpa using ha
            · intro k hk; have := ho k hk; simp [hp] at this ⊢; exact this
        | _ => simp at hs
    | send i =>
      simp only [step, hw] at hs
      cases i with
      | succ i => simp at hs
      | zero =>
        cases w with
        | sending r j =>
          simp at hs
          have hj := hidx r j (by simp [hw])
          have fin : ∀ w', heldW w' = [] → (∀ k, k < nOut → pendW k w' = if j + 1 ≤ k then [r] else []) →
              Inv1 proc nOut (tr ++ [.sent j r]) { s with workers := [w'] } := by
            intro w' h1 h2
            refine ⟨w', rfl, ?_, ?_⟩
            · simpa [h1] using ha
            · intro k hk
              have := ho k hk
              rw [h2 k hk]
              by_cases e : j = k
              · subst e
                have e2 : ¬ (j + 1 ≤ j) := by omega
                simp [e2] at this ⊢; exact this
              · by_cases e2 : j + 1 ≤ k
                · have e3 : j ≤ k := by omega
                  simp [e, e2, e3] at this ⊢; exact this
                · have e3 : ¬ j ≤ k := by omega
                  simp [e, e2, e3] at this ⊢; exact this
          split at hs
          · cases hs; exact fin _ rfl (by intro k _; simp)
          · rename_i hn; cases hs
            refine fin _ rfl ?_
            intro k hk
            have : ¬ (j + 1 ≤ k) := by omega
            simp [this]
        | _ => simp at hs
    | exit i =>
      simp only [step, hw] at hs
      cases i with
      | succ i => simp at hs
      | zero =>
        cases w <;> simp at hs
        split at hs
        · rename_i _ hq
          split at hs
          · cases hs
            refine ⟨.done, by simp, ?_, ?_⟩
            · simpa using ha
            · intro k hk; simpa using ho k hk
          · cases hs
        · cases hs
  exact key.2

/-- **C06** With one worker order is preserved: at any time each output channel has received a
prefix of what the sequential worker emits for the accepted records in order, and once stopped
exactly that; records are evaluated in submission order. -/
theorem single_worker_order (proc : R → Option R) (nOut : Nat) (tr : List (Obs R)) (s : St R)
    (h : Exec proc nOut 1 tr s) :
    evals tr <+: accepts tr ∧
    (∀ k, k < nOut → sends k tr <+: (accepts tr).filterMap proc) ∧
    (Stopped s → evals tr = accepts tr ∧ ∀ k, k < nOut → sends k tr = (accepts tr).filterMap proc) := by
  obtain ⟨w, hw, ha, ho⟩ := inv1_exec h
  refine ⟨⟨heldW w ++ s.queue, by simp [ha]⟩, ?_, ?_⟩
  · intro k hk
    refine ⟨pendW k w ++ (heldW w ++ s.queue).filterMap proc, ?_⟩
    rw [← List.append_assoc, ← ho k hk, ← List.filterMap_append, ha, List.append_assoc]
  · intro hst
    have hq := stopped_queue (inv_exec h) hst
    have hd : w = .done := hst.2 w (by simp [hw])
    subst hd
    rw [hq] at ha
    simp at ha
    refine ⟨ha.symm, fun k hk => ?_⟩
    have := ho k hk
    simp at this
    rw [ha, this]

/-- **C12** (fan-out) When the pool has stopped, all output channels have received the same records
(as multisets) … -/
theorem fanout_same_records (proc : R → Option R) (nOut n : Nat) (tr : List (Obs R)) (s : St R)
    (h : Exec proc nOut n tr s) (hstop : Stopped s) (j k : Nat) (hj : j < nOut) (hk : k < nOut) :
    (sends j tr).Perm (sends k tr) :=
  ((pool_exactly_once proc nOut n tr s h hstop).2 j hj).trans ((pool_exactly_once proc nOut n tr s h hstop).2 k hk).symm

/-- **C12** … but with two workers and two channels *not* necessarily in the same order: the
"same sequence on every channel" reading of the claim is false of the code for concurrency > 1. -/
theorem fanout_order_can_differ :
    ∃ (tr : List (Obs Nat)) (s : St Nat), Exec some 2 2 tr s ∧ Stopped s ∧ sends 0 tr ≠ sends 1 tr := by
  refine ⟨_, _, Machine.exec_of_run (ls := [.submit 1, .submit 2, .recv 0, .recv 1, .eval 0, .eval 1, .send 0, .send 1,
      .send 1, .send 0, .close, .exit 0, .exit 1]) rfl, ?_, ?_⟩
  · refine ⟨rfl, ?_⟩; decide
  · decide

/-! ### progress (C07) -/

/-- Remaining work: an upper bound on the worker steps still possible. -/
def measureW (nOut : Nat) : W R → Nat
  | .idle => 1
  | .busy _ => nOut + 2
  | .sending _ k => (nOut - k) + 1
  | .done => 0

/-- Remaining work of the pool. -/
def work (nOut : Nat) (s : St R) : Nat := (nOut + 2) * s.queue.length + (s.workers.map (measureW nOut)).sum

/-- Labels executed by workers (not by the producer). -/
def Label.isWorker : Label R → Bool
  | .submit _ => false
  | .close => false
  | _ => true

theorem work_decreases {proc : R → Option R} {nOut n : Nat} {tr : List (Obs R)} {s s' : St R} {l : Label R} {os : List (Obs R)}
    (hI : Inv proc nOut n tr s) (hl : l.isWorker = true) (hs : step proc nOut n s l = some (s', os)) :
    work nOut s' < work nOut s := by
  cases l with
  | submit r => simp [Label.isWorker] at hl
  | close => simp [Label.isWorker] at hl
  | recv i =>
    simp only [step] at hs
    split at hs
    · rename_i r q hw hq
      cases hs
      obtain ⟨pre, post, h1, _, h3⟩ := split_at hw
      simp [work, h3, h1, hq, measureW, Nat.mul_add]; omega
    · cases hs
  | eval i =>
    simp only [step] at hs
    split at hs
    · rename_i r hw
      obtain ⟨pre, post, h1, _, h3⟩ := split_at hw
      split at hs
      · split at hs
        · cases hs; simp [work, h3, h1, measureW]
        · cases hs; simp [work, h3, h1, measureW]
      · cases hs; simp [work, h3, h1, measureW]
    · cases hs
  | send i =>
    simp only [step] at hs
    split at hs
    · rename_i r j hw
      obtain ⟨pre, post, h1, _, h3⟩ := split_at hw
      have hj : j < nOut := hI.idx r j (by rw [h1]; simp)
      split at hs
      · cases hs; simp [work, h3, h1, measureW]; omega
      · cases hs; simp [work, h3, h1, measureW]; omega
    · cases hs
  | exit i =>
    simp only [step] at hs
    split at hs
    · rename_i hw hq
      obtain ⟨pre, post, h1, _, h3⟩ := split_at hw
      split at hs
      · cases hs; simp [work, h3, h1, measureW]
      · cases hs
    · cases hs

theorem worker_can_step {proc : R → Option R} {nOut n : Nat} {s : St R}
    (w : W R) (hw : w ∈ s.workers) (hd : w ≠ .done) (hq : s.queue ≠ [] ∨ s.closed = true ) :
    ∃ l s' os, Label.isWorker l = true ∧ step proc nOut n s l = some (s', os) := by
  obtain ⟨i, hi⟩ := List.getElem?_of_mem hw
  cases w with
  | idle =>
    cases hqq : s.queue with
    | cons r q => exact ⟨.recv i, { s with queue := q, workers := s.workers.set i (.busy r) }, [], rfl, by simp [step, hi, hqq]⟩
    | nil =>
      have hc : s.closed = true := by rcases hq with h | h; exact absurd hqq h; exact h
      exact ⟨.exit i, { s with workers := s.workers.set i .done }, [], rfl, by simp [step, hi, hqq, hc]⟩
  | busy r =>
    cases hp : proc r with
    | none => exact ⟨.eval i, { s with workers := s.workers.set i .idle }, [.evaluated r], rfl, by simp [step, hi, hp]⟩
    | some r' =>
      by_cases hn : 0 < nOut
      · exact ⟨.eval i, { s with workers := s.workers.set i (.sending r' 0) }, [.evaluated r], rfl, by simp [step, hi, hp, hn]⟩
      · exact ⟨.eval i, { s with workers := s.workers.set i .idle }, [.evaluated r], rfl, by simp [step, hi, hp, hn]⟩
  | sending r k =>
    by_cases hn : k + 1 < nOut
    · exact ⟨.send i, { s with workers := s.workers.set i (.sending r (k + 1)) }, [.sent k r], rfl, by simp [step, hi, hn]⟩
    · exact ⟨.send i, { s with workers := s.workers.set i .idle }, [.sent k r], rfl, by simp [step, hi, hn]⟩
  | done => exact absurd rfl hd

/-- **C07** Shutdown never deadlocks: after close, in every reachable state either `StopWorkers`
returns or some worker can take a step … -/
theorem stop_no_deadlock (proc : R → Option R) (nOut n : Nat) (tr : List (Obs R)) (s : St R)
    (_h : Exec proc nOut n tr s) (hc : s.closed = true) :
    Stopped s ∨ ∃ l s' os, Label.isWorker l = true ∧ step proc nOut n s l = some (s', os) := by
  by_cases hs : ∀ w ∈ s.workers, w = .done
  · exact .inl ⟨hc, hs⟩
  · right
    simp only [Classical.not_forall] at hs
    obtain ⟨w, hw, hd⟩ := hs
    exact worker_can_step w hw hd (.inr hc)

/-- **C07** … and every schedule of steps from there is finite, with an explicit bound: each step
possible after close strictly decreases the remaining work. -/
theorem stop_terminates (proc : R → Option R) (nOut n : Nat) (tr : List (Obs R)) (s : St R)
    (h : Exec proc nOut n tr s) (hc : s.closed = true) (ls : List (Label R)) (s' : St R) (tr' : List (Obs R))
    (hr : Machine.run (step proc nOut n) s ls = some (s', tr')) :
    ls.length ≤ (nOut + 2) * (s.queue.length + n) := by
  have bound : work nOut s ≤ (nOut + 2) * (s.queue.length + n) := by
    have hl := (inv_exec h).len
    have : ∀ ws : List (W R), (ws.map (measureW nOut)).sum ≤ (nOut + 2) * ws.length := by
      intro ws
      induction ws with
      | nil => simp
      | cons w ws ih => simp [Nat.mul_add]; cases w <;> simp [measureW] <;> omega
    have := this s.workers
    rw [hl] at this
    simp only [work, Nat.mul_add]; omega
  refine Nat.le_trans ?_ bound
  clear bound
  induction ls generalizing tr s tr' s' with
  | nil => simp
  | cons l ls ih =>
    unfold Machine.run at hr
    split at hr
    · cases hr
    · rename_i s1 os hstep
      split at hr
      · cases hr
      · rename_i s2 os' hr2
        have hw : l.isWorker = true := by
          cases l with
          | submit r => simp [step, hc] at hstep
          | close => simp [step, hc] at hstep
          | _ => rfl
        have hdec := work_decreases (inv_exec h) hw hstep
        have hc1 : s1.closed = true := by
          cases l <;> simp only [step] at hstep <;> (try split at hstep) <;> (try split at hstep) <;> (try split at hstep) <;>
            first | (cases hstep; done) | (cases hstep; exact hc) | (cases hstep; rfl)
        have := ih (tr ++ os) s1 (.snoc h hstep) hc1 _ _ hr2
        simp; omega

/-- **C07** Submission is never blocked forever: with at least one worker and the channel open,
either the next record is accepted now or a worker can take a step (and by `work_decreases` only
finitely many worker steps can precede acceptance). -/
theorem submit_no_deadlock (proc : R → Option R) (nOut n : Nat) (tr : List (Obs R)) (s : St R)
    (h : Exec proc nOut n tr s) (hn : 0 < n) (hc : s.closed = false) (r : R) :
    (∃ s' os, step proc nOut n s (.submit r) = some (s', os)) ∨
    ∃ l s' os, Label.isWorker l = true ∧ step proc nOut n s l = some (s', os) ∧ work nOut s' < work nOut s := by
  have hI := inv_exec h
  by_cases hq : s.queue.length < n
  · left; exact ⟨_, _, by simp only [step]; rw [if_pos ⟨hc, hq⟩]⟩
  · right
    have hne : s.queue ≠ [] := by intro e; simp [e] at hq; omega
    have hlen := hI.len
    cases hw : s.workers with
    | nil => simp [hw] at hlen; omega
    | cons w ws =>
      have hm : w ∈ s.workers := by simp [hw]
      have hd : w ≠ .done := by
        intro e; have := (hI.fin (e ▸ hm)).1; simp [hc] at this
      obtain ⟨l, s', os, h1, h2⟩ := worker_can_step (proc := proc) (nOut := nOut) (n := n) w hm hd (.inl hne)
      exact ⟨l, s', os, h1, h2, work_decreases hI h1 h2⟩

/-- **C07** With concurrency 0 (which `CreateConfig` produces for an unparsable value, see C50) no
record is ever accepted: `ProcessAsync` blocks forever. -/
theorem zero_workers_never_accept (proc : R → Option R) (nOut : Nat) (tr : List (Obs R)) (s : St R)
    (h : Exec proc nOut 0 tr s) (r : R) : step proc nOut 0 s (.submit r) = none ∧ accepts tr = [] := by
  refine ⟨by simp [step], ?_⟩
  have hb := pool_bounded proc nOut 0 tr s h
  have hI := inv_exec h
  have hw : s.workers = [] := List.eq_nil_of_length_eq_zero hI.len
  have key : evals tr = [] := by
    have : evals tr = [] ∧ s.workers = [] := by
      refine Machine.Exec.invariant (fun tr (s : St R) => evals tr = [] ∧ s.workers = []) ⟨rfl, rfl⟩ ?_ h
      intro tr s l s' os ⟨h1, h2⟩ hs
      cases l <;> simp [step, h2] at hs
      obtain ⟨_, rfl, rfl⟩ := hs
      simp [h1, h2]
    exact this.1
  rw [key] at hb
  exact List.eq_nil_of_length_eq_zero (by simpa using hb.2)

/-! ### non-vacuity: a run of three records through two workers, ending stopped -/

example : ∃ tr s, Exec (fun (r : Nat) => if r = 2 then none else some (r * 10)) 1 2 tr s ∧ Stopped s ∧
    accepts tr = [1, 2, 3] ∧ sends 0 tr = [30, 10] ∧ evals tr = [2, 3, 1] := by
  refine ⟨_, _, Machine.exec_of_run (ls := [.submit 1, .submit 2, .recv 0, .recv 1, .eval 1, .submit 3, .recv 1, .eval 1, .send 1,
      .eval 0, .send 0, .close, .exit 0, .exit 1]) rfl, ⟨rfl, ?_⟩, ?_, ?_, ?_⟩ <;> decide

example : ∃ tr s, Exec (fun (r : Nat) => some r) 1 1 tr s ∧ Stopped s ∧ sends 0 tr = [1, 2] := by
  refine ⟨_, _, Machine.exec_of_run (ls := [.submit 1, .recv 0, .eval 0, .submit 2, .send 0, .recv 0, .eval 0, .send 0,
      .close, .exit 0]) rfl, ⟨rfl, ?_⟩, ?_⟩ <;> decide

end Verif.Engine.Pool
