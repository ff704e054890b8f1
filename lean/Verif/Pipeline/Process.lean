import Verif.Pipeline.DrainProps
import Verif.Pipeline.DriverProps
/-
C78: the running process: the driver's `Run` on the main goroutine (pipeline.go:228-244, sysflow/filedriver.go:107-181) together with the goroutines of the stages.
-/
namespace Verif.Pipeline.Process
open Verif.Pipeline
open Verif.Pipeline.Drain (Net St Step Exec Obs Waited Tree Contract Label driven rootClosed)

/-! ### Model -/

/-- State of the process: what the driver still has to do, the pipeline, and what `Run` has returned (`some true`: an error), if it
has. `A` is the driver's type of records. -/
structure PSt (A : Type) {R : Type} (N : Net R) where
  todo : List (DAct A)
  net : St N
  status : Option Bool

/-- The process when the driver starts. -/
def PSt.start {A R : Type} (N : Net R) (prog : List (DAct A)) : PSt A N := ⟨prog, St.start N, none⟩

/-- One step of the process: the next action of the driver (sending waits for room, `Wait` waits for the stages), or a step of a stage. The Boolean says
whether it is a step of the program itself, as opposed to a timer or the policy monitor. Stages may go on after `Run` has returned, until the process has
exited. -/
inductive PStep {A R : Type} (inj : A → R) (N : Net R) : PSt A N → Bool → List (Obs R) → PSt A N → Prop where
  | check (b : Bool) (t : List (DAct A)) (n : St N) (e : Option Bool) : PStep inj N ⟨.check b :: t, n, e⟩ true [] ⟨t, n, e⟩
  | send (r : A) (t : List (DAct A)) (n n' : St N) (e : Option Bool) : Step N n (.drive (inj r)) (.driven (inj r)) n' →
      PStep inj N ⟨.send r :: t, n, e⟩ true [.driven (inj r)] ⟨t, n', e⟩
  | close (t : List (DAct A)) (n n' : St N) (e : Option Bool) : Step N n .closeRoot .rootClosed n' →
      PStep inj N ⟨.close :: t, n, e⟩ true [.rootClosed] ⟨t, n', e⟩
  | wait (t : List (DAct A)) (n : St N) (e : Option Bool) : Waited n → PStep inj N ⟨.wait :: t, n, e⟩ true [] ⟨t, n, e⟩
  | ret (err : Bool) (t : List (DAct A)) (n : St N) (e : Option Bool) : PStep inj N ⟨.ret err :: t, n, e⟩ true [] ⟨t, n, some err⟩
  | stage (i : Nat) (l : (N.comp i).L) (o : Obs R) (t : List (DAct A)) (n n' : St N) (e : Option Bool) : Step N n (.stage i l) o n' →
      PStep inj N ⟨t, n, e⟩ (Label.own (.stage i l : Label N)) [o] ⟨t, n', e⟩

/-- Executions of the process running driver program `prog`. -/
inductive PExec {A R : Type} (inj : A → R) (N : Net R) (prog : List (DAct A)) : List (Obs R) → PSt A N → Prop where
  | nil : PExec inj N prog [] (PSt.start N prog)
  | snoc {tr s own o s'} : PExec inj N prog tr s → PStep inj N s own o s' → PExec inj N prog (tr ++ o) s'

/-! ### Invariant -/

section
variable {A R : Type} {inj : A → R} {N : Net R}

theorem waited_keeps {N : Net R} (hT : Tree N) (hC : ∀ i, i < N.n → Contract (N.comp i)) {tr : List (Obs R)} {s s' : St N} {l : Label N} {o : Obs R}
    (h : Exec N tr s) (hs : Step N s l o s') (hw : Waited s) : Waited s' := by
  intro j hj
  have hI := Drain.inv_exec hT hC h
  have key : ∀ (i : Nat) (m : (N.comp i).L) (t : (N.comp i).S) (a : Drain.Act R), i < N.n → (N.comp i).step (s.st i) m = some (t, a) →
      (N.comp j).returned (Function.update s.st i t j) = true := by
    intro i m t a hi hst
    by_cases e : j = i
    · subst e
      rw [Function.update_self, ((hC j hj).effect _ _ _ _ _ (hI.run j hj) hst).1, hw j hj]
      rfl
    · rw [Function.update_of_ne e]
      exact hw j hj
  cases hs with
  | drive => exact hw j hj
  | closeRoot => exact hw j hj
  | tau i m t hp hi hst => exact key i m t _ hi hst
  | take i m t r q hp hi hst => exact key i m t _ hi hst
  | eof i m t hp hi hst => exact key i m t _ hi hst
  | send i m t k r hp hi hst => exact key i m t _ hi hst
  | sendPanic => exact hw j hj
  | close i m t c hp hi hst => exact key i m t _ hi hst
  | closePanic => exact hw j hj

structure PInv (inj : A → R) (N : Net R) (prog : List (DAct A)) (tr : List (Obs R)) (s : PSt A N) (done : List (DAct A)) : Prop where
  split : prog = done ++ s.todo
  net : Exec N tr s.net
  sentOk : driven tr = (sent done).map inj
  root : rootClosed tr = true ↔ .close ∈ done
  waited : .wait ∈ done → Waited s.net
  status : s.status = (done.filterMap (fun | .ret e => some e | _ => none)).getLast?

theorem rootClosed_stage {N : Net R} {s s' : St N} {i : Nat} {l : (N.comp i).L} {o : Obs R} (h : Step N s (.stage i l) o s') :
    driven [o] = [] ∧ rootClosed [o] = false := by
  cases h <;> exact ⟨rfl, rfl⟩

theorem pinv {prog : List (DAct A)} (hT : Tree N) (hC : ∀ i, i < N.n → Contract (N.comp i)) {tr : List (Obs R)} {s : PSt A N}
    (h : PExec inj N prog tr s) : ∃ done, PInv inj N prog tr s done := by
  induction h with
  | nil => exact ⟨[], rfl, .nil, rfl, by simp [rootClosed], fun h => (by cases h), rfl⟩
  | @snoc tr s own o s' _ hs ih =>
    obtain ⟨done, hI⟩ := ih
    obtain ⟨i1, i2, i3, i4, i5, i6⟩ := hI
    cases hs with
    | check b t n e =>
      refine ⟨done ++ [.check b], by simpa using i1, by simpa using i2, ?_, ?_, ?_, ?_⟩
      · rw [List.append_nil, i3, sent_append]; simp
      · rw [List.append_nil, i4]; simp
      · intro h; exact i5 (by simpa using h)
      · simpa using i6
    | send r t n n' e hst =>
      refine ⟨done ++ [.send r], by simpa using i1, .snoc i2 hst, ?_, ?_, ?_, ?_⟩
      · rw [Drain.driven_append, i3, sent_append]; simp [driven]
      · rw [Drain.rootClosed_append]; simp [rootClosed] at i4 ⊢; exact i4
      · intro h; exact waited_keeps hT hC i2 hst (i5 (by simpa using h))
      · simpa using i6
    | close t n n' e hst =>
      refine ⟨done ++ [.close], by simpa using i1, .snoc i2 hst, ?_, ?_, ?_, ?_⟩
      · rw [Drain.driven_append, i3, sent_append]; simp [driven]
      · rw [Drain.rootClosed_append]; simp [rootClosed]
      · intro h; exact waited_keeps hT hC i2 hst (i5 (by simpa using h))
      · simpa using i6
    | wait t n e hw =>
      refine ⟨done ++ [.wait], by simpa using i1, by simpa using i2, ?_, ?_, ?_, ?_⟩
      · rw [List.append_nil, i3, sent_append]; simp
      · rw [List.append_nil, i4]; simp
      · intro _; exact hw
      · simpa using i6
    | ret err t n e =>
      refine ⟨done ++ [.ret err], by simpa using i1, by simpa using i2, ?_, ?_, ?_, ?_⟩
      · rw [List.append_nil, i3, sent_append]; simp
      · rw [List.append_nil, i4]; simp
      · intro h; exact i5 (by simpa using h)
      · simp
    | stage i l o t n n' e hst =>
      obtain ⟨h1, h2⟩ := rootClosed_stage hst
      refine ⟨done, i1, .snoc i2 hst, ?_, ?_, ?_, i6⟩
      · rw [Drain.driven_append, h1, List.append_nil]; exact i3
      · rw [Drain.rootClosed_append, h2, Bool.or_false]; exact i4
      · intro h; exact waited_keeps hT hC i2 hst (i5 h)

/-! ### C78 -/

/-- A driver program that sends, then closes the channel, waits and returns (see `file_driver_delivers`, `stream_driver_delivers`). -/
structure Orderly (prog body : List (DAct A)) : Prop where
  eq : prog = body ++ [.close, .wait, .ret false]
  body : ∀ a ∈ body, a.isFinal = false

theorem orderly_ret {prog body done todo : List (DAct A)} (ho : Orderly prog body) (hs : prog = done ++ todo) {e : Bool} (h : .ret e ∈ done) :
    todo = [] ∧ e = false := by
  obtain ⟨d1, d2, rfl⟩ := List.append_of_mem h
  have heq := ho.eq
  rw [hs] at heq
  have hnot : DAct.ret e ∉ body := fun hb => (by have := ho.body _ hb; cases this)
  have : ∀ (xs : List (DAct A)), DAct.ret e ∉ xs → ∀ pre post, pre ++ DAct.ret e :: post = xs ++ [.close, .wait, .ret false] → post = [] ∧ e = false := by
    intro xs
    induction xs with
    | nil =>
      intro _ pre post h
      rcases pre with _ | ⟨x, _ | ⟨y, _ | ⟨z, pre⟩⟩⟩ <;> simp at h
      exact ⟨h.2.2.2, h.2.2.1⟩
    | cons x xs ih =>
      intro hn pre post h
      cases pre with
      | nil =>
        rw [List.nil_append, List.cons_append, List.cons.injEq] at h
        exact absurd (by rw [h.1]; exact List.mem_cons_self) hn
      | cons y pre =>
        rw [List.cons_append, List.cons_append, List.cons.injEq] at h
        exact ih (fun hm => hn (List.mem_cons_of_mem _ hm)) pre post h.2
  have h2 := this body hnot d1 (d2 ++ todo) (by rw [← heq]; simp)
  exact ⟨(List.append_eq_nil_iff.1 h2.1).2, h2.2⟩

/-- **C78** When `Run` has returned, it has returned no error, `Wait` has returned, and the driver has sent all it had to send. -/
theorem run_returned {prog body : List (DAct A)} (hT : Tree N) (hC : ∀ i, i < N.n → Contract (N.comp i)) (ho : Orderly prog body)
    {tr : List (Obs R)} {s : PSt A N} (h : PExec inj N prog tr s) {e : Bool} (he : s.status = some e) :
    e = false ∧ Exec N tr s.net ∧ Waited s.net ∧ driven tr = (sent prog).map inj := by
  obtain ⟨done, hI⟩ := pinv hT hC h
  have hmem : DAct.ret e ∈ done := by
    have := hI.status
    rw [he] at this
    obtain ⟨a, ha, hv⟩ := List.mem_filterMap.1 (List.mem_of_getLast? this.symm)
    cases a <;> cases hv
    exact ha
  obtain ⟨h1, h2⟩ := orderly_ret ho hI.split hmem
  have hd : prog = done := by rw [hI.split, h1, List.append_nil]
  subst hd
  exact ⟨h2, hI.net, hI.waited (by rw [ho.eq]; simp), hI.sentOk⟩

theorem sent_body {prog body : List (DAct A)} (ho : Orderly prog body) : sent prog = sent body := by
  rw [ho.eq, sent_append]; simp

/-- If no stage can move, all channels are empty. -/
theorem idle_empty (hT : Tree N) (hC : ∀ i, i < N.n → Contract (N.comp i)) {tr : List (Obs R)} {s : St N} (h : Exec N tr s)
    (hno : ∀ l o s', Step N s l o s' → l.own = false) (i : Nat) (hi : i < N.n) : s.buf i = [] := by
  have hI := Drain.inv_exec hT hC h
  have empty : ∀ d i, i < N.n → N.n - i ≤ d → s.buf i = [] := by
    intro d
    induction d with
    | zero => intro i hi hd; omega
    | succ d ih =>
      intro i hi hd
      cases hret : (N.comp i).returned (s.st i) with
      | true => exact (hI.ret i hi hret).1
      | false =>
        have hcl : (N.comp i).cleaned (s.st i) = false := by
          cases hc : (N.comp i).cleaned (s.st i) with
          | false => rfl
          | true => rw [hI.clean i hi hc] at hret; cases hret
        rcases Drain.blocked_down hT hC hI hno i hi hcl with hb | ⟨k, hk, hb⟩
        · exact hb.2.1
        · have := hT.down i k hi hk
          exact absurd (ih _ this.2 (by omega)) hb
  exact empty _ i hi (Nat.le_refl _)

theorem own_stage {s s' : St N} {l : Label N} {o : Obs R} (h : Step N s l o s') (ho : l.own = true) (t : List (DAct A)) (e : Option Bool) :
    ∃ os, PStep inj N ⟨t, s, e⟩ true os ⟨t, s', e⟩ := by
  cases l with
  | drive r => cases ho
  | closeRoot => cases ho
  | stage i l => exact ⟨[o], by rw [← ho]; exact .stage i l o t s s' e h⟩

/-- **C78** The process cannot get stuck before `Run` has returned: some step of the program itself is possible. -/
theorem run_no_deadlock {prog body : List (DAct A)} (hT : Tree N) (hC : ∀ i, i < N.n → Contract (N.comp i)) (ho : Orderly prog body)
    {tr : List (Obs R)} {s : PSt A N} (h : PExec inj N prog tr s) (hn : s.status = none) : ∃ os s', PStep inj N s true os s' := by
  obtain ⟨done, hI⟩ := pinv hT hC h
  obtain ⟨todo, net, status⟩ := s
  have hinv := Drain.inv_exec hT hC hI.net
  have hsplit : prog = done ++ todo := hI.split
  cases todo with
  | nil =>
    exfalso
    have hd : prog = done := by rw [hsplit, List.append_nil]
    have hn : status = none := hn
    have := hI.status
    rw [← hd, ho.eq, List.filterMap_append] at this
    change status = _ at this
    rw [hn] at this
    simp [List.filterMap] at this
  | cons a t =>
    cases a with
    | check b => exact ⟨_, _, .check b t net status⟩
    | ret e => exact ⟨_, _, .ret e t net status⟩
    | send r =>
      by_cases hown : ∃ l o s', Step N net l o s' ∧ l.own = true
      · obtain ⟨l, o, s', h1, h2⟩ := hown
        obtain ⟨os, hp⟩ := own_stage (inj := inj) h1 h2 (.send r :: t) status
        exact ⟨_, _, hp⟩
      · have hno : ∀ l o s', Step N net l o s' → l.own = false := by
          intro l o s' hs
          cases hl : l.own with
          | false => rfl
          | true => exact absurd ⟨l, o, s', hs, hl⟩ hown
        have hb := idle_empty hT hC hI.net hno 0 hT.pos
        have hclosed : net.closed 0 = false := by
          cases hc : net.closed 0 with
          | false => rfl
          | true =>
            exfalso
            have hcl : DAct.close ∈ done := hI.root.1 (by rw [← hinv.closed0]; exact hc)
            -- a send after the close is impossible
            obtain ⟨d1, d2, rfl⟩ := List.append_of_mem hcl
            have heq := ho.eq
            rw [hsplit] at heq
            have : ∀ (xs : List (DAct A)), (∀ a ∈ xs, a.isFinal = false) → ∀ pre post, pre ++ DAct.close :: post = xs ++ [.close, .wait, .ret false] →
                DAct.send r ∉ post := by
              intro xs
              induction xs with
              | nil =>
                intro _ pre post h
                rcases pre with _ | ⟨x, _ | ⟨y, _ | ⟨z, pre⟩⟩⟩ <;> simp at h
                rw [h]
                simp
              | cons x xs ih =>
                intro hx pre post h
                cases pre with
                | nil =>
                  rw [List.nil_append, List.cons_append, List.cons.injEq] at h
                  have := hx x List.mem_cons_self
                  rw [← h.1] at this
                  cases this
                | cons y pre =>
                  rw [List.cons_append, List.cons_append, List.cons.injEq] at h
                  exact ih (fun a ha => hx a (List.mem_cons_of_mem _ ha)) pre post h.2
            refine this body ho.body d1 (d2 ++ DAct.send r :: t) (by rw [← heq]; simp) ?_
            simp
        exact ⟨_, _, .send r t net _ status (.drive net (inj r) hinv.ok hclosed (by rw [hb]; exact hT.cap))⟩
    | close =>
      have hclosed : net.closed 0 = false := by
        cases hc : net.closed 0 with
        | false => rfl
        | true =>
          exfalso
          have hcl : DAct.close ∈ done := hI.root.1 (by rw [← hinv.closed0]; exact hc)
          obtain ⟨d1, d2, rfl⟩ := List.append_of_mem hcl
          have heq := ho.eq
          rw [hsplit] at heq
          have : ∀ (xs : List (DAct A)), (∀ a ∈ xs, a.isFinal = false) → ∀ pre post, pre ++ DAct.close :: post = xs ++ [.close, .wait, .ret false] →
              DAct.close ∉ post := by
            intro xs
            induction xs with
            | nil =>
              intro _ pre post h
              rcases pre with _ | ⟨x, _ | ⟨y, _ | ⟨z, pre⟩⟩⟩ <;> simp at h
              rw [h]
              simp
            | cons x xs ih =>
              intro hx pre post h
              cases pre with
              | nil =>
                rw [List.nil_append, List.cons_append, List.cons.injEq] at h
                have := hx x List.mem_cons_self
                rw [← h.1] at this
                cases this
              | cons y pre =>
                rw [List.cons_append, List.cons_append, List.cons.injEq] at h
                exact ih (fun a ha => hx a (List.mem_cons_of_mem _ ha)) pre post h.2
          refine this body ho.body d1 (d2 ++ DAct.close :: t) (by rw [← heq]; simp) ?_
          simp
      exact ⟨_, _, .close t net _ status (.closeRoot net hinv.ok hclosed)⟩
    | wait =>
      by_cases hw : Waited net
      · exact ⟨_, _, .wait t net status hw⟩
      · have hcl : DAct.close ∈ done := by
          have heq := ho.eq
          rw [hsplit] at heq
          have : ∀ (xs : List (DAct A)), (∀ a ∈ xs, a.isFinal = false) → ∀ pre post, pre ++ DAct.wait :: post = xs ++ [.close, .wait, .ret false] →
              DAct.close ∈ pre := by
            intro xs
            induction xs with
            | nil =>
              intro _ pre post h
              rcases pre with _ | ⟨x, _ | ⟨y, _ | ⟨z, pre⟩⟩⟩ <;> simp at h
              rw [h.1]
              simp
            | cons x xs ih =>
              intro hx pre post h
              cases pre with
              | nil =>
                rw [List.nil_append, List.cons_append, List.cons.injEq] at h
                have := hx x List.mem_cons_self
                rw [← h.1] at this
                cases this
              | cons y pre =>
                rw [List.cons_append, List.cons_append, List.cons.injEq] at h
                exact List.mem_cons_of_mem _ (ih (fun a ha => hx a (List.mem_cons_of_mem _ ha)) pre post h.2)
          exact this body ho.body done t heq
        obtain ⟨l, o, s', h1, h2⟩ := Drain.no_deadlock hT hC hI.net (hI.root.2 hcl)
          (fun hall => hw (fun i hi => hinv.clean i hi (hall i hi)))
        obtain ⟨os, hp⟩ := own_stage (inj := inj) h1 h2 (.wait :: t) status
        exact ⟨_, _, hp⟩

/-! Termination -/

/-- A schedule of the process: at each moment a step of the program itself (`own k`), or nothing, or a timer or the policy monitor. -/
structure PSchedule (inj : A → R) (N : Net R) (run : Nat → PSt A N) (own : Nat → Bool) : Prop where
  yes : ∀ k, own k = true → ∃ os, PStep inj N (run k) true os (run (k + 1))
  no : ∀ k, own k = false → run (k + 1) = run k ∨ ∃ os, PStep inj N (run k) false os (run (k + 1))

theorem pschedule_exec {prog : List (DAct A)} {run : Nat → PSt A N} {own : Nat → Bool} (hS : PSchedule inj N run own) (h0 : run 0 = PSt.start N prog) (k : Nat) :
    ∃ tr, PExec inj N prog tr (run k) := by
  induction k with
  | zero => exact ⟨[], by rw [h0]; exact .nil⟩
  | succ k ih =>
    obtain ⟨tr, h⟩ := ih
    cases ho : own k with
    | true => obtain ⟨os, hs⟩ := hS.yes k ho; exact ⟨_, .snoc h hs⟩
    | false =>
      rcases hS.no k ho with e | ⟨os, hs⟩
      · exact ⟨tr, by rw [e]; exact h⟩
      · exact ⟨_, .snoc h hs⟩

/-- What is left to do: driver actions first, then the stages. -/
noncomputable def left (s : PSt A N) : Nat × (Fin N.n → Nat × Nat) := (s.todo.length, Drain.remaining s.net)

def LeftLess : Nat × (Fin N.n → Nat × Nat) → Nat × (Fin N.n → Nat × Nat) → Prop := Prod.Lex (· < ·) (Drain.Less (N := N))

theorem leftLess_wf : WellFounded (LeftLess (N := N)) := WellFounded.prod_lex Nat.lt_wfRel.wf Drain.less_wf

theorem own_less {prog : List (DAct A)} (hT : Tree N) (hC : ∀ i, i < N.n → Contract (N.comp i)) {tr : List (Obs R)} {s s' : PSt A N} {os : List (Obs R)}
    (h : PExec inj N prog tr s) (hs : PStep inj N s true os s') : LeftLess (left s') (left s) := by
  obtain ⟨done, hI⟩ := pinv hT hC h
  generalize htrue : true = b at hs
  cases hs with
  | check => exact .left _ _ (Nat.lt_succ_self _)
  | send => exact .left _ _ (Nat.lt_succ_self _)
  | close => exact .left _ _ (Nat.lt_succ_self _)
  | wait => exact .left _ _ (Nat.lt_succ_self _)
  | ret => exact .left _ _ (Nat.lt_succ_self _)
  | stage i l o t n n' e hst => exact .right _ (Drain.own_step_less hT hC (Drain.inv_exec hT hC hI.net) hst htrue.symm)

theorem env_same {prog : List (DAct A)} (hT : Tree N) (hC : ∀ i, i < N.n → Contract (N.comp i)) {tr : List (Obs R)} {s s' : PSt A N} {os : List (Obs R)}
    (h : PExec inj N prog tr s) (hs : PStep inj N s false os s') : left s' = left s := by
  obtain ⟨done, hI⟩ := pinv hT hC h
  generalize hfalse : false = b at hs
  cases hs with
  | check => cases hfalse
  | send => cases hfalse
  | close => cases hfalse
  | wait => cases hfalse
  | ret => cases hfalse
  | stage i l o t n n' e hst =>
    show (t.length, _) = (t.length, _)
    rw [Drain.env_step_same hT hC (Drain.inv_exec hT hC hI.net) (.inr ⟨i, l, rfl⟩) hst hfalse.symm]

/-- **C78** `Run` returns, under every schedule that does not ignore the program forever while it can make a step; timers and the policy monitor may
do what they want. -/
theorem run_returns {prog body : List (DAct A)} (hT : Tree N) (hC : ∀ i, i < N.n → Contract (N.comp i)) (ho : Orderly prog body)
    {run : Nat → PSt A N} {own : Nat → Bool} (hS : PSchedule inj N run own) (h0 : run 0 = PSt.start N prog)
    (hfair : ∀ k, (∃ os s', PStep inj N (run k) true os s') → ∃ j, k ≤ j ∧ own j = true) : ∃ k, (run k).status = some false := by
  obtain ⟨K, hK⟩ := Verif.finitely_often (leftLess_wf (N := N)) (fun k => left (run k)) own
    (fun k hk => by
      obtain ⟨tr, h⟩ := pschedule_exec hS h0 k
      rcases hS.no k hk with e | ⟨os, hs⟩
      · rw [e]
      · exact env_same hT hC h hs)
    (fun k hk => by
      obtain ⟨tr, h⟩ := pschedule_exec hS h0 k
      obtain ⟨os, hs⟩ := hS.yes k hk
      exact own_less hT hC h hs)
  obtain ⟨tr, h⟩ := pschedule_exec hS h0 K
  cases hst : (run K).status with
  | none =>
    obtain ⟨j, hj, hown⟩ := hfair K (run_no_deadlock hT hC ho h hst)
    rw [hK j hj] at hown
    cases hown
  | some e =>
    have := (run_returned hT hC ho h hst).1
    subst this
    exact ⟨K, hst⟩

/-! Fair schedules exist -/

open Classical in
/-- Some step of the program itself if there is one, otherwise nothing. -/
noncomputable def pnext (inj : A → R) (N : Net R) (s : PSt A N) : PSt A N := if h : ∃ s' os, PStep inj N s true os s' then Classical.choose h else s

/-- The schedule that lets the program run. -/
noncomputable def pbusy (inj : A → R) (N : Net R) (prog : List (DAct A)) : Nat → PSt A N
  | 0 => PSt.start N prog
  | k + 1 => pnext inj N (pbusy inj N prog k)

open Classical in
theorem fair_run_exists (inj : A → R) (N : Net R) (prog : List (DAct A)) :
    PSchedule inj N (pbusy inj N prog) (fun k => decide (∃ s' os, PStep inj N (pbusy inj N prog k) true os s')) ∧
    ∀ k, (∃ os s', PStep inj N (pbusy inj N prog k) true os s') → ∃ j, k ≤ j ∧ decide (∃ s' os, PStep inj N (pbusy inj N prog j) true os s') = true := by
  refine ⟨⟨?_, ?_⟩, ?_⟩
  · intro k hk
    have hk := of_decide_eq_true hk
    show ∃ os, PStep inj N _ true os (pnext inj N _)
    unfold pnext
    rw [dif_pos hk]
    exact Classical.choose_spec hk
  · intro k hk
    have hk := of_decide_eq_false hk
    left
    show pnext inj N _ = _
    unfold pnext
    rw [dif_neg hk]
  · rintro k ⟨os, s', h⟩
    exact ⟨k, Nat.le_refl _, decide_eq_true ⟨s', os, h⟩⟩

/-- **C78** So every orderly program has a complete execution, however small the channels. -/
theorem complete_run {prog body : List (DAct A)} (hT : Tree N) (hC : ∀ i, i < N.n → Contract (N.comp i)) (ho : Orderly prog body) (inj : A → R) :
    ∃ tr s, PExec inj N prog tr s ∧ s.status = some false := by
  obtain ⟨hS, hf⟩ := fair_run_exists inj N prog
  obtain ⟨k, hk⟩ := run_returns hT hC ho hS rfl hf
  obtain ⟨tr, h⟩ := pschedule_exec hS rfl k
  exact ⟨tr, _, h, hk⟩

end
end Verif.Pipeline.Process
