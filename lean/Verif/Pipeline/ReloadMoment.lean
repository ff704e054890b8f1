import Verif.Pipeline.Adopt
import Verif.Pipeline.Moment
/-
C128: every moment of a run beside a changing policy directory can be continued to one where `Wait` returns, with no record, no change of the directory and no policy set more.
Sources: /repo/driver/pipeline/pipeline.go:199-200, 286-294, /repo/core/policyengine/policyengine.go:119-167
-/
namespace Verif.Pipeline.Reload
open Verif.Pipeline.Drain
open Verif.Monitor (Str FileEnt)

variable {B C P R : Type}

theorem pushed_taken {ms : List (Monitor.Live.Obs B P)} (h : ∀ o ∈ ms, ∃ p, o = .taken p) : Monitor.Live.pushed ms = [] := by
  induction ms with
  | nil => rfl
  | cons o ms ih =>
    obtain ⟨p, rfl⟩ := h o List.mem_cons_self
    exact ih (fun o ho => h o (List.mem_cons_of_mem _ ho))

theorem dirs_taken (d : List (FileEnt B)) (mo : List (Monitor.Live.Obs B P)) {ms : List (Monitor.Live.Obs B P)} (h : ∀ o ∈ ms, ∃ p, o = .taken p) : dirsOf d (mo ++ ms) = dirsOf d mo := by
  unfold dirsOf
  rw [List.filterMap_append]
  refine congrArg (d :: ·) (Eq.trans (congrArg (_ ++ ·) (List.filterMap_eq_nil_iff.2 ?_)) (List.append_nil _))
  intro o ho
  obtain ⟨p, rfl⟩ := h o ho
  rfl

/-- Along a schedule the stages only make steps. -/
theorem schedule_later {N : Net R} {run : Nat → Drain.St N} {own : Nat → Bool} (hS : Schedule N run own) (k : Nat) : ∀ i, Later (N.comp i) ((run 0).st i) ((run k).st i) := by
  induction k with
  | zero => exact fun i => .here _
  | succ k ih =>
    intro i
    refine (ih i).trans ?_
    cases ho : own k with
    | true => obtain ⟨l, o, hs, _⟩ := hS.yes k ho; exact step_later hs i
    | false =>
      rcases hS.no k ho with e | ⟨l, o, hs, _⟩
      · rw [e]; exact .here _
      · exact step_later hs i

/-- Every moment of a run beside a changing policy directory can be continued, without another record, another change of the directory or another policy set, to one where `Wait` returns. -/
theorem completes_beside [DecidableEq C] {N : Net R} {cfg : Engine.Swap.Cfg P R} {p0 : P} {start : Int} {V : EngineIn N cfg p0 start} {sha : B → C} {compile : List (Str × Option B) → Option P}
    (hT : Tree N) (hC : ∀ i, i < N.n → Contract (N.comp i)) {d : List (FileEnt B)} {tr : List (Drain.Obs R)} {mo : List (Monitor.Live.Obs B P)} {x : Drain.St N × Monitor.Live.LSt B C P}
    (h : Exec V sha compile d tr mo x) :
    ∃ tr' ms y, Exec V sha compile d tr' (mo ++ ms) y ∧ Waited y.1 ∧ driven tr' = driven tr ∧ OnlyTaken x.2 y.2 ms ∧ ∀ i, Later (N.comp i) (x.1.st i) (y.1.st i) := by
  have closed : ∀ {tr : List (Drain.Obs R)} {mo : List (Monitor.Live.Obs B P)} {x : Drain.St N × Monitor.Live.LSt B C P}, Exec V sha compile d tr mo x → rootClosed tr = true →
      ∃ tr' ms y, Exec V sha compile d tr' (mo ++ ms) y ∧ Waited y.1 ∧ driven tr' = driven tr ∧ OnlyTaken x.2 y.2 ms ∧ ∀ i, Later (N.comp i) (x.1.st i) (y.1.st i) := by
    intro tr mo x h hr
    obtain ⟨hS, hf⟩ := fair_schedule_exists N x.1
    obtain ⟨k, hw, -⟩ := wait_returns hT hC hS (run_net h) hr hf
    obtain ⟨tr', ms, m, i1, -, i3, i4, -⟩ := along hT hC h hr k
    exact ⟨tr', ms, _, i1, hw, i3, i4, schedule_later hS k⟩
  cases hr : rootClosed tr with
  | true => exact closed h hr
  | false =>
    have hI := inv_exec hT hC (run_net h)
    have hst : Drain.Step N x.1 .closeRoot .rootClosed _ := .closeRoot x.1 hI.ok (by rw [hI.closed0]; exact hr)
    obtain ⟨ms1, m1, g1, g2⟩ := lift_taken h hst (fun k hk => by cases hk)
    obtain ⟨tr', ms, y, h1, h2, h3, h4, h5⟩ := closed g1 (by rw [rootClosed_append]; simp [rootClosed])
    refine ⟨tr', ms1 ++ ms, y, by rw [← List.append_assoc]; exact h1, h2, ?_, g2.trans h4, h5⟩
    rw [h3, driven_append]
    simp [driven]

/-- Whatever has been driven in a run, there was a moment when only the first records of it had been. -/
theorem earlier [DecidableEq C] {N : Net R} {cfg : Engine.Swap.Cfg P R} {p0 : P} {start : Int} {V : EngineIn N cfg p0 start} {sha : B → C} {compile : List (Str × Option B) → Option P}
    {d : List (FileEnt B)} {tr : List (Drain.Obs R)} {mo : List (Monitor.Live.Obs B P)} {x : Drain.St N × Monitor.Live.LSt B C P} (h : Exec V sha compile d tr mo x) :
    ∀ pre suf, driven tr = pre ++ suf → ∃ tr' mo' y, Exec V sha compile d tr' mo' y ∧ driven tr' = pre := by
  induction h with
  | nil =>
    intro pre suf he
    have : pre = [] := (List.append_eq_nil_iff.1 (Eq.symm he)).1
    exact ⟨[], [], _, .nil, this.symm⟩
  | @snoc tr mo x os ms y h hst ih =>
    intro pre suf he
    have h1 : (driven os).length ≤ 1 := by
      cases hst <;> first | exact Nat.zero_le _ | (refine Nat.le_trans (List.length_filterMap_le _ _) ?_; exact Nat.le_refl 1)
    rw [driven_append] at he
    rcases Nat.lt_or_ge (driven tr).length pre.length with hlt | hge
    · have e := congrArg List.length he
      rw [List.length_append, List.length_append] at e
      have : suf = [] := List.eq_nil_of_length_eq_zero (by omega)
      subst this
      exact ⟨_, _, y, .snoc h hst, by rw [driven_append, he, List.append_nil]⟩
    · obtain ⟨t, ht⟩ := List.prefix_of_prefix_length_le (⟨suf, rfl⟩ : pre <+: pre ++ suf) (he ▸ ⟨driven os, rfl⟩) hge
      exact ih pre t ht.symm

end Verif.Pipeline.Reload
