import Verif.Policy.Model
/-! C01: the criteria combinators are Boolean logic. -/
namespace Verif.Policy
variable {R : Type u}

theorem foldl_and_eval (cs : List (Criterion R)) (a : Criterion R) (r : R) :
    (cs.foldl (fun acc c => acc.and c) a).eval r = true ↔ a.eval r = true ∧ ∀ c ∈ cs, c.eval r = true := by
  induction cs generalizing a with
  | nil => simp
  | cons c cs ih =>
    rw [List.foldl_cons, ih]
    simp [Criterion.and, Criterion.eval, and_assoc]

theorem foldl_or_eval (cs : List (Criterion R)) (a : Criterion R) (r : R) :
    (cs.foldl (fun acc c => acc.or c) a).eval r = true ↔ a.eval r = true ∨ ∃ c ∈ cs, c.eval r = true := by
  induction cs generalizing a with
  | nil => simp
  | cons c cs ih =>
    rw [List.foldl_cons, ih]
    simp [Criterion.or, Criterion.eval, or_assoc]

/-- **C01** (`All`): the conjunction over any slice, on any record. -/
theorem all_eval_iff (cs : List (Criterion R)) (r : R) :
    (Criterion.all cs).eval r = true ↔ ∀ c ∈ cs, c.pred r = true := by
  rw [Criterion.all, foldl_and_eval]; simp [Criterion.tt, Criterion.eval]

/-- **C01** (`Any`): the disjunction over any slice, on any record. -/
theorem any_eval_iff (cs : List (Criterion R)) (r : R) :
    (Criterion.any cs).eval r = true ↔ ∃ c ∈ cs, c.pred r = true := by
  rw [Criterion.any, foldl_or_eval]; simp [Criterion.ff, Criterion.eval]

/-- **C01** (`And`, `Or`, `Not`, `True`, `False`). -/
theorem and_or_not_eval_iff (c d : Criterion R) (r : R) :
    ((c.and d).eval r = true ↔ c.pred r = true ∧ d.pred r = true) ∧
    ((c.or d).eval r = true ↔ c.pred r = true ∨ d.pred r = true) ∧
    (c.not.eval r = true ↔ ¬ c.pred r = true) ∧
    ((Criterion.tt : Criterion R).eval r = true) ∧ ((Criterion.ff : Criterion R).eval r = false) := by
  simp [Criterion.and, Criterion.or, Criterion.not, Criterion.eval, Criterion.tt, Criterion.ff]

/-- **C01** (order and duplication of criteria do not matter, De Morgan): consequences a policy
author relies on when reordering or splitting clauses. -/
theorem all_any_set_semantics (cs ds : List (Criterion R)) (r : R)
    (h : ∀ c, c ∈ cs ↔ c ∈ ds) :
    (Criterion.all cs).eval r = (Criterion.all ds).eval r ∧
    (Criterion.any cs).eval r = (Criterion.any ds).eval r ∧
    (Criterion.any cs).not.eval r = (Criterion.all (ds.map Criterion.not)).eval r := by
  refine ⟨?_, ?_, ?_⟩
  · rw [Bool.eq_iff_iff, all_eval_iff, all_eval_iff]; simp [h]
  · rw [Bool.eq_iff_iff, any_eval_iff, any_eval_iff]; simp [h]
  · rw [Bool.eq_iff_iff, all_eval_iff, (and_or_not_eval_iff _ (Criterion.tt) r).2.2.1]
    have := any_eval_iff cs r
    rw [Criterion.eval] at this
    rw [this]
    simp [h, Criterion.not, Criterion.eval]

/- A non-trivial instance: three different criteria on natural numbers. -/
example : (Criterion.all [⟨fun n => n > 2⟩, ⟨fun n => n % 2 == 0⟩]).eval (4 : Nat) = true ∧
    (Criterion.all [⟨fun n => n > 2⟩, ⟨fun n => n % 2 == 0⟩]).eval (5 : Nat) = false ∧
    (Criterion.any [⟨fun n => n > 2⟩, ⟨fun n => n % 2 == 0⟩]).eval (5 : Nat) = true := by decide

end Verif.Policy
