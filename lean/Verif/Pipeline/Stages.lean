import Verif.Pipeline.DrainProps
/-
C53: the stages of the code base meet the stage contract, and what they do to the records; end-to-end delivery.
-/
namespace Verif.Pipeline.Drain
open Verif.Engine

/-- Induction over the runs of a stage. -/
theorem run_induct {R : Type} {C : Comp R} (I : List (Act R) → C.S → Prop) (h0 : I [] C.init)
    (hstep : ∀ tr s l s' a, I tr s → C.step s l = some (s', a) → I (tr ++ [a]) s') {tr : List (Act R)} {s : C.S} (h : C.Run tr s) : I tr s := by
  induction h with
  | nil => exact h0
  | snoc _ hs ih => exact hstep _ _ _ _ _ ih hs

/-! ### One record at a time -/

section
variable {σ R : Type}

/-- Handler state after handling records. -/
def handled (f : σ → R → σ × List R) : σ → List R → σ
  | h, [] => h
  | h, r :: rs => handled f (f h r).1 rs
/-- Everything the handler outputs for a sequence of records. -/
def emitted (f : σ → R → σ × List R) : σ → List R → List R
  | _, [] => []
  | h, r :: rs => (f h r).2 ++ emitted f (f h r).1 rs

theorem handled_snoc (f : σ → R → σ × List R) (h : σ) (rs : List R) (r : R) : handled f h (rs ++ [r]) = (f (handled f h rs) r).1 := by
  induction rs generalizing h with
  | nil => rfl
  | cons x rs ih => simp [handled, ih]

theorem emitted_snoc (f : σ → R → σ × List R) (h : σ) (rs : List R) (r : R) :
    emitted f h (rs ++ [r]) = emitted f h rs ++ (f (handled f h rs) r).2 := by
  induction rs generalizing h with
  | nil => simp [emitted, handled]
  | cons x rs ih => simp [emitted, handled, ih]

/-- Sends still to do on output `k`. -/
def pendingOn (k : Nat) (todo : List (Nat × R)) : List R := todo.filterMap (fun p => if p.1 = k then some p.2 else none)

theorem pendingOn_fan (k n : Nat) (hk : k < n) (xs : List R) :
    pendingOn k (xs.flatMap (fun x => (List.range n).map (fun k => (k, x)))) = xs := by
  induction xs with
  | nil => rfl
  | cons x xs ih =>
    unfold pendingOn at ih ⊢
    rw [List.flatMap_cons, List.filterMap_append, ih]
    have : ((List.range n).map (fun k => (k, x))).filterMap (fun p => if p.1 = k then some p.2 else none) = [x] := by
      rw [List.filterMap_map]
      clear ih
      induction n with
      | zero => omega
      | succ n ihn =>
        rw [List.range_succ, List.filterMap_append]
        by_cases e : k = n
        · subst e
          have : (List.range k).filterMap ((fun p : Nat × R => if p.1 = k then some p.2 else none) ∘ fun k => (k, x)) = [] := by
            rw [List.filterMap_eq_nil_iff]
            intro a ha
            have := List.mem_range.1 ha
            simp only [Function.comp_apply]
            rw [if_neg (by omega)]
          rw [this]
          simp
        · rw [ihn (by omega)]
          simp [Ne.symm e]
    rw [this]
    rfl

structure SyncInv (f : σ → R → σ × List R) (h0 : σ) (nOut : Nat) (tr : List (Act R)) (s : SyncSt σ R) : Prop where
  hs : s.hs = handled f h0 (takes tr)
  out : ∀ k, k < nOut → sends k tr ++ pendingOn k s.todo = emitted f h0 (takes tr)
  todo : ∀ p ∈ s.todo, p.1 < nOut
  idle : s.returned = true → s.todo = []
  clean : s.cleaned = true → s.returned = true

theorem sync_inv (f : σ → R → σ × List R) (h0 : σ) (nOut : Nat) {tr : List (Act R)} {s : SyncSt σ R}
    (h : (sync f h0 nOut).Run tr s) : SyncInv f h0 nOut tr s := by
  refine run_induct (C := sync f h0 nOut) (SyncInv f h0 nOut) ?_ ?_ h
  · exact ⟨rfl, fun _ _ => rfl, by simp [sync], by simp [sync], by simp [sync]⟩
  · intro tr s l s' a ih hs
    replace hs : syncStep f nOut s l = some (s', a) := hs
    cases l with
    | take r =>
      simp only [sync, syncStep] at hs
      split at hs
      · rename_i hc
        cases hs
        have ht : s.todo = [] := List.isEmpty_iff.1 hc.2
        refine ⟨?_, ?_, ?_, ?_, ih.clean⟩
        · simp [takes, handled_snoc, ← ih.hs]
          rw [ih.hs]; rfl
        · intro k hk
          have := ih.out k hk
          rw [ht] at this
          simp only [pendingOn, List.filterMap_nil, List.append_nil] at this
          rw [pendingOn_fan k nOut hk, takes_append, sends_append]
          show sends k tr ++ [] ++ _ = emitted f h0 (takes tr ++ [r])
          rw [List.append_nil, this, emitted_snoc, ih.hs]
        · intro p hp
          obtain ⟨x, _, hx⟩ := List.mem_flatMap.1 hp
          obtain ⟨k, hk, rfl⟩ := List.mem_map.1 hx
          exact List.mem_range.1 hk
        · intro hr; rw [hc.1] at hr; cases hr
      · cases hs
    | eof =>
      simp only [sync, syncStep] at hs
      split at hs
      · rename_i hc
        cases hs
        refine ⟨by simpa [takes] using ih.hs, ?_, ih.todo, fun _ => List.isEmpty_iff.1 hc.2, fun _ => rfl⟩
        intro k hk
        simpa [takes, sends] using ih.out k hk
      · cases hs
    | send =>
      simp only [sync, syncStep] at hs
      split at hs
      · rename_i k x rest ht
        cases hs
        refine ⟨by simpa [takes] using ih.hs, ?_, ?_, ?_, ih.clean⟩
        · intro m hm
          have := ih.out m hm
          rw [ht] at this
          rw [takes_append, sends_append, show takes ([.send k x] : List (Act R)) = [] from rfl, List.append_nil, ← this]
          by_cases e : k = m
          · subst e; simp [sends, pendingOn]
          · simp [sends, pendingOn, e]
        · intro p hp; exact ih.todo p (by rw [ht]; simp [hp])
        · intro hr; have := ih.idle hr; rw [ht] at this; cases this
      · cases hs
    | close =>
      simp only [sync, syncStep] at hs
      split at hs
      · rename_i hc
        cases hs
        refine ⟨by simpa [takes] using ih.hs, ?_, ih.todo, ih.idle, fun _ => hc.1⟩
        intro k hk
        simpa [takes, sends] using ih.out k hk
      · cases hs

/-- Remaining steps of such a stage by itself. -/
def syncWork (s : SyncSt σ R) : Nat := s.todo.length + (!s.cleaned).toNat

theorem sync_contract (f : σ → R → σ × List R) (h0 : σ) (nOut : Nat) : Contract (sync f h0 nOut) where
  init := ⟨rfl, rfl⟩
  effect tr s l s' a h hs := by
    have hI := sync_inv f h0 nOut h
    cases l <;> simp only [sync, syncStep] at hs ⊢ <;> split at hs <;> first | (cases hs; done) | (cases hs; simp_all [Act.isEof, Act.isClose])
  input tr s l s' a h hs ha := by
    cases l <;> simp only [sync, syncStep] at hs ⊢ <;> split at hs <;> first | (cases hs; done) | (cases hs; cases ha; done) | (rename_i hc; exact hc.1)
  output tr s l s' k r h hs := by
    have hI := sync_inv f h0 nOut h
    cases l with
    | take r => simp only [sync, syncStep] at hs; split at hs <;> cases hs
    | eof => simp only [sync, syncStep] at hs; split at hs <;> cases hs
    | close => simp only [sync, syncStep] at hs; split at hs <;> cases hs
    | send =>
      simp only [sync, syncStep] at hs
      split at hs
      · rename_i k x rest ht
        cases hs
        refine ⟨?_, hI.todo (k, r) (by rw [ht]; simp)⟩
        cases hc : s.cleaned with
        | false => exact hc
        | true => have := hI.idle (hI.clean hc); rw [ht] at this; cases this
      · cases hs
  closing tr s l s' h hs := by
    cases l <;> simp only [sync, syncStep] at hs ⊢ <;> split at hs <;> first | (cases hs; done) | (rename_i hc; exact hc)
  live tr s h hc := by
    have hI := sync_inv f h0 nOut h
    have hc' : s.cleaned = false := hc
    cases ht : s.todo with
    | cons p rest => exact .inl ⟨.send, { s with todo := rest }, .send p.1 p.2, rfl, by simp [sync, syncStep, ht], rfl⟩
    | nil =>
      cases hr : s.returned with
      | true => exact .inl ⟨.close, { s with cleaned := true }, .close, rfl, by simp [sync, syncStep, hr, hc'], rfl⟩
      | false =>
        have hte : s.todo.isEmpty = true := by simp [ht]
        exact .inr ⟨hr, fun r => ⟨.take r, _, rfl, if_pos ⟨hr, hte⟩⟩, .eof, _, rfl, if_pos ⟨hr, hte⟩⟩
  finite := by
    refine ⟨syncWork, fun tr s l s' a h hs => ⟨fun he => (by cases he), fun _ ha => ?_⟩⟩
    cases l with
    | take r => simp only [sync, syncStep] at hs; split at hs <;> cases hs; cases ha
    | eof => simp only [sync, syncStep] at hs; split at hs <;> cases hs; cases ha
    | send =>
      simp only [sync, syncStep] at hs
      split at hs
      · rename_i k x rest ht
        cases hs
        simp [syncWork, ht]
      · cases hs
    | close =>
      simp only [sync, syncStep] at hs
      split at hs
      · rename_i hc
        cases hs
        simp [syncWork, hc.2]
      · cases hs

/-- What a finished one-at-a-time stage has sent: exactly the handler's outputs for the records received, in order, on
every output. -/
theorem sync_delivers (f : σ → R → σ × List R) (h0 : σ) (nOut : Nat) {tr : List (Act R)} {s : SyncSt σ R}
    (h : (sync f h0 nOut).Run tr s) (hret : s.returned = true) (k : Nat) (hk : k < nOut) :
    sends k tr = emitted f h0 (takes tr) := by
  have hI := sync_inv f h0 nOut h
  have := hI.out k hk
  rwa [hI.idle hret, show pendingOn k ([] : List (Nat × R)) = [] from rfl, List.append_nil] at this

end

/-! ### The exporter -/

section
variable {S R D : Type}
open Verif.Exporter

/-- The exporter's state after a run is the one of its loop on a history of events that receives the stage's input. -/
theorem exporter_run (C : Codec R D) (T : Transport S D) (eb : Int) (tr0 : S) (start : Int) {tr : List (Act R)} {s : State S R D × Bool}
    (h : (exporter C T eb tr0 start).Run tr s) :
    ∃ es, s.1 = run C T eb (init tr0 start) es ∧ received es = takes tr ∧ closed es = !s.1.running ∧ (s.2 = true → s.1.running = false) := by
  refine run_induct (C := exporter C T eb tr0 start) (fun tr s => ∃ es, s.1 = run C T eb (init tr0 start) es ∧ received es = takes tr ∧
    closed es = !s.1.running ∧ (s.2 = true → s.1.running = false)) ?_ ?_ h
  · exact ⟨[], rfl, rfl, rfl, by simp [exporter]⟩
  · intro tr s l s' a ih hs
    replace hs : expStep C T eb s l = some (s', a) := hs
    obtain ⟨es, h1, h2, h3, h4⟩ := ih
    have hrun : s.1.running = true → closed es = false := by intro hr; rw [h3, hr]; rfl
    cases l with
    | recv r t =>
      simp only [exporter, expStep] at hs
      split at hs
      · rename_i hr
        cases hs
        refine ⟨es ++ [.recv r t], by rw [run_snoc, ← h1], ?_, ?_, ?_⟩
        · rw [received_append, hrun hr]; simp [received, h2, takes]
        · rw [closed_append, hrun hr]
          have : (Exporter.step C T eb s.1 (.recv r t)).running = true := by
            unfold Exporter.step; rw [if_pos hr]; dsimp only; split
            · simp [clear, Exporter.process]; split <;> [exact hr; (split <;> exact hr)]
            · exact hr
          simp [closed, this]
        · intro hc; rw [h4 hc] at hr; cases hr
      · cases hs
    | tick now after =>
      simp only [exporter, expStep] at hs
      split at hs
      · rename_i hr
        cases hs
        refine ⟨es ++ [.tick now after], by rw [run_snoc, ← h1], ?_, ?_, ?_⟩
        · rw [received_append, hrun hr]; simp [received, h2, takes]
        · rw [closed_append, hrun hr]
          have : (Exporter.step C T eb s.1 (.tick now after)).running = true := by
            unfold Exporter.step; rw [if_pos hr]; dsimp only; split
            · simp [clear, Exporter.process]; split <;> [exact hr; (split <;> exact hr)]
            · exact hr
          simp [closed, this]
        · intro hc; rw [h4 hc] at hr; cases hr
      · cases hs
    | eof =>
      simp only [exporter, expStep] at hs
      split at hs
      · rename_i hr
        cases hs
        have hst : (Exporter.step C T eb s.1 .close).running = false := by
          unfold Exporter.step; rw [if_pos hr]; dsimp only; split <;> rfl
        refine ⟨es ++ [.close], by rw [run_snoc, ← h1], ?_, ?_, fun _ => hst⟩
        · rw [received_append, hrun hr]; simp [received, h2, takes]
        · rw [closed_append, hrun hr, hst]; rfl
      · cases hs
    | close =>
      simp only [exporter, expStep] at hs
      split at hs
      · rename_i hr
        cases hs
        exact ⟨es, h1, by simpa [takes] using h2, h3, fun _ => hr.1⟩
      · cases hs

theorem exporter_effect (C : Codec R D) (T : Transport S D) (eb : Int) (tr0 : S) (start : Int) (s s' : State S R D × Bool) (l : ExpL R) (a : Act R)
    (hs : (exporter C T eb tr0 start).step s l = some (s', a)) :
    (!s'.1.running) = (!s.1.running || a.isEof) ∧ s'.2 = (s.2 || a.isClose) := by
  cases l with
  | recv r t =>
    simp only [exporter, expStep] at hs
    split at hs
    · rename_i hr
      cases hs
      have : (Exporter.step C T eb s.1 (.recv r t)).running = true := by
        unfold Exporter.step; rw [if_pos hr]; dsimp only; split
        · simp [clear, Exporter.process]; split <;> [exact hr; (split <;> exact hr)]
        · exact hr
      simp [this, hr, Act.isEof, Act.isClose]
    · cases hs
  | tick now after =>
    simp only [exporter, expStep] at hs
    split at hs
    · rename_i hr
      cases hs
      have : (Exporter.step C T eb s.1 (.tick now after)).running = true := by
        unfold Exporter.step; rw [if_pos hr]; dsimp only; split
        · simp [clear, Exporter.process]; split <;> [exact hr; (split <;> exact hr)]
        · exact hr
      simp [this, hr, Act.isEof, Act.isClose]
    · cases hs
  | eof =>
    simp only [exporter, expStep] at hs
    split at hs
    · rename_i hr
      cases hs
      have hst : (Exporter.step C T eb s.1 .close).running = false := by
        unfold Exporter.step; rw [if_pos hr]; dsimp only; split <;> rfl
      simp [hst, Act.isEof, Act.isClose]
    · cases hs
  | close =>
    simp only [exporter, expStep] at hs
    split at hs
    · cases hs; simp [Act.isEof, Act.isClose]
    · cases hs

theorem exporter_contract (C : Codec R D) (T : Transport S D) (eb : Int) (tr0 : S) (start : Int) : Contract (exporter C T eb tr0 start) where
  init := ⟨rfl, rfl⟩
  effect tr s l s' a _ hs := exporter_effect C T eb tr0 start s s' l a hs
  input tr s l s' a h hs ha := by
    cases l <;> simp only [exporter, expStep] at hs ⊢ <;> split at hs <;>
      first | (cases hs; done) | (cases hs; cases ha; done) | (rename_i hc; simp [hc])
  output tr s l s' k r h hs := by
    cases l <;> simp only [exporter, expStep] at hs <;> split at hs <;> cases hs
  closing tr s l s' h hs := by
    cases l <;> simp only [exporter, expStep] at hs ⊢ <;> split at hs <;>
      first | (cases hs; done) | (rename_i hc; simp [hc.1, hc.2])
  live tr s h hc := by
    have hc' : s.2 = false := hc
    cases hr : s.1.running with
    | false => exact .inl ⟨.close, (s.1, true), .close, rfl, by simp [exporter, expStep, hr, hc'], rfl⟩
    | true =>
      exact .inr ⟨by simp [exporter, hr], fun r => ⟨.recv r 0, _, rfl, if_pos hr⟩, .eof, _, rfl, if_pos hr⟩
  finite := by
    refine ⟨fun s => (!s.2).toNat, fun tr s l s' a h hs => ⟨fun he => ?_, fun he ha => ?_⟩⟩
    · cases l with
      | tick now after => simp only [exporter, expStep] at hs; split at hs <;> cases hs; exact ⟨rfl, rfl⟩
      | recv r t => cases he
      | eof => cases he
      | close => cases he
    · cases l with
      | tick now after => cases he
      | recv r t => simp only [exporter, expStep] at hs; split at hs <;> cases hs; cases ha
      | eof => simp only [exporter, expStep] at hs; split at hs <;> cases hs; cases ha
      | close =>
        simp only [exporter, expStep] at hs
        split at hs
        · rename_i hc; cases hs; simp [hc.2]
        · cases hs

end
end Verif.Pipeline.Drain
