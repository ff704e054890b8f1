import Verif.Engine.Spec
/-! C02, C03, C04 (and the engine part of C18). -/
namespace Verif.Engine
open Verif.Policy
variable {R : Type u} {V : Type v}

/-! ### helper lemmas -/

theorem evalFilters_iff (fs : List (Filter R)) (r : R) :
    Interp.evalFilters fs r = true ↔ ∃ f ∈ fs, f.enabled = true ∧ f.condition.pred r = true := by
  induction fs with
  | nil => simp [Interp.evalFilters]
  | cons f fs ih =>
    unfold Interp.evalFilters
    split
    · rename_i h; simp [Criterion.eval] at h; simp [h]
    · rename_i h; simp only [Criterion.eval, Bool.and_eq_true] at h; rw [ih]; simp [h]

theorem outs_append (a b : List (Event R)) : outs (a ++ b) = outs a ++ outs b := by
  induction a with
  | nil => rfl
  | cons e es ih => cases e <;> simp [outs, ih]

theorem annotated_append (a b : List (Event R)) : annotated (a ++ b) = annotated a ++ annotated b := by
  induction a with
  | nil => rfl
  | cons e es ih => cases e <;> simp [annotated, ih]

theorem actions_append (a b : List (Event R)) : actions (a ++ b) = actions a ++ actions b := by
  induction a with
  | nil => rfl
  | cons e es ih => cases e <;> simp [actions, ih]

/-- Lookup by name finds the registered action: built-in before user-defined. -/
theorem findAction_eq (pi : Interp R) (a : List Char) : pi.findAction a = registered pi a := by
  unfold Interp.findAction registered; cases pi.builtIn a <;> rfl

/-- Running actions appends one `act` event per known action, in order, and transforms the record
accordingly. -/
theorem runActions_spec (pi : Interp R) (as : List (List Char)) (r : R) (tr : List (Event R)) :
    ∃ es, pi.runActions as (r, tr) = (es.foldl (applyEvent pi) r, tr ++ es) ∧
      actions es = as.filter (fun a => (registered pi a).isSome) ∧ outs es = [] ∧ annotated es = [] := by
  induction as generalizing r tr with
  | nil => exact ⟨[], by simp [Interp.runActions, actions, outs, annotated]⟩
  | cons a as ih =>
    unfold Interp.runActions; rw [findAction_eq]
    cases h : registered pi a with
    | none =>
      obtain ⟨es, h1, h2, h3, h4⟩ := ih r tr
      exact ⟨es, by simpa using h1, by simp [h, h2], h3, h4⟩
    | some f =>
      obtain ⟨es, h1, h2, h3, h4⟩ := ih (f r).1 (tr ++ [.act a (f r).2])
      refine ⟨.act a (f r).2 :: es, ?_, ?_, ?_, ?_⟩
      · simp only [h1]; simp [applyEvent, h]
      · simp [actions, h, h2]
      · simpa [outs] using h3
      · simpa [annotated] using h4

theorem handleActions_spec (pi : Interp R) (rule : Rule R) (r : R) (tr : List (Event R)) :
    ∃ es, pi.handleActions rule (r, tr) = (es.foldl (applyEvent pi) r, tr ++ es) ∧
      actions es = rule.actions.filter (fun a => (registered pi a).isSome) ∧ outs es = [] ∧ annotated es = [] := by
  unfold Interp.handleActions
  split
  · rename_i h; exact ⟨[], by simp [h, actions, outs, annotated]⟩
  · exact runActions_spec pi rule.actions r tr

theorem foldl_view (pi : Interp R) (view : R → V)
    (hact : ∀ r a f, registered pi a = some f → view (f r).1 = view r)
    (es : List (Event R)) (r : R) (ha : annotated es = []) :
    view (es.foldl (applyEvent pi) r) = view r := by
  induction es generalizing r with
  | nil => rfl
  | cons e es ih =>
    cases e with
    | annotate x => simp [annotated] at ha
    | act a b =>
      simp only [List.foldl_cons]
      rw [ih _ (by simpa [annotated] using ha)]
      simp only [applyEvent]
      cases h : registered pi a with
      | none => rfl
      | some f => exact hact r a f h
    | out r' => simp only [List.foldl_cons]; rw [ih _ (by simpa [annotated] using ha)]; rfl

/-- Effects of the rules loop on stable conditions. -/
theorem applyRules_spec (pi : Interp R) (view : R → V) (rules : List (Rule R))
    (hsub : ∀ x ∈ rules, x ∈ pi.rules) (hs : Stable pi view)
    (r0 r : R) (hv : view r = view r0) (m : Bool) (tr : List (Event R)) :
    ∃ es, pi.applyRules rules (r, m, tr) =
        (es.foldl (applyEvent pi) r, m || (rules.any (fun x => decide (Fires pi r0 x))), tr ++ es) ∧
      annotated es = rules.filter (fun x => decide (Fires pi r0 x)) ∧
      actions es = (rules.filter (fun x => decide (Fires pi r0 x))).flatMap
        (fun x => x.actions.filter (fun a => (registered pi a).isSome)) ∧ outs es = [] := by
  induction rules generalizing r m tr with
  | nil => exact ⟨[], by simp [Interp.applyRules, actions, outs, annotated]⟩
  | cons x xs ih =>
    have hx := hsub x (by simp)
    have hiff : (x.enabled && pi.isApplicable r x && x.condition.eval r) = decide (Fires pi r0 x) := by
      rw [Bool.eq_iff_iff, decide_eq_true_iff]
      simp only [Bool.and_eq_true, Fires, Criterion.eval,
        hs.cond x hx r r0 hv, hs.appl x hx r r0 hv, and_assoc]
    unfold Interp.applyRules
    rw [hiff]
    by_cases hf : Fires pi r0 x
    · simp only [hf, decide_true, if_true]
      obtain ⟨es1, h1, h2, h3, h4⟩ := handleActions_spec pi x (pi.addRules r x) (tr ++ [.annotate x])
      have hv' : view (es1.foldl (applyEvent pi) (pi.addRules r x)) = view r0 := by
        rw [foldl_view pi view hs.act es1 _ h4, hs.add r x hx, hv]
      obtain ⟨es2, k1, k2, k3, k4⟩ := ih (fun y hy => hsub y (by simp [hy]))
        (es1.foldl (applyEvent pi) (pi.addRules r x)) hv' true (tr ++ [.annotate x] ++ es1)
      refine ⟨.annotate x :: (es1 ++ es2), ?_, ?_, ?_, ?_⟩
      · rw [h1]; simp only [k1]; simp [applyEvent, hf]
      · simp [annotated, annotated_append, h4, k2, hf]
      · simp [actions, actions_append, h2, k3, hf]
      · simp [outs, outs_append, h3, k4]
    · simp only [hf, decide_false]
      obtain ⟨es2, k1, k2, k3, k4⟩ := ih (fun y hy => hsub y (by simp [hy])) r hv m tr
      refine ⟨es2, ?_, ?_, ?_, k4⟩
      · simpa [hf] using k1
      · simpa [hf] using k2
      · simpa [hf] using k3

/-! ### property theorems -/

/-- Complete description of the work done on one record (basis of C02-C04): a dropped record has
no effects; otherwise the firing rules are attached in policy order, each followed by its known
actions in the listed order, and the record is passed on last iff the mode is enrich or a rule fired. -/
theorem work_spec (pi : Interp R) (view : R → V) (hs : Stable pi view) (r : R) :
    (Dropped pi r → pi.work r = (r, [])) ∧
    (¬ Dropped pi r → ∃ es,
      annotated es = fired pi r ∧
      actions es = (fired pi r).flatMap (fun x => x.actions.filter (fun a => (registered pi a).isSome)) ∧
      outs es = [] ∧
      pi.work r = (es.foldl (applyEvent pi) r,
        es ++ if pi.hasOut = true ∧ (pi.enrich = true ∨ ∃ x ∈ pi.rules, Fires pi r x)
              then [.out (es.foldl (applyEvent pi) r)] else [])) := by
  constructor
  · intro h
    have := (evalFilters_iff pi.filters r).2 h
    simp [Interp.work, this]
  · intro h
    have hf : ¬ Interp.evalFilters pi.filters r = true := fun c => h ((evalFilters_iff _ _).1 c)
    obtain ⟨es, h1, h2, h3, h4⟩ := applyRules_spec pi view pi.rules (fun _ h => h) hs r r rfl pi.enrich []
    refine ⟨es, h2, h3, h4, ?_⟩
    unfold Interp.work
    simp only [hf]
    rw [h1]
    by_cases hc : pi.hasOut = true ∧ (pi.enrich = true ∨ ∃ x ∈ pi.rules, Fires pi r x)
    · rw [if_pos hc]; obtain ⟨ho, hc⟩ := hc
      have : (pi.enrich || pi.rules.any (fun x => decide (Fires pi r x))) = true := by
        simpa using hc
      simp [this, ho]
    · rw [if_neg hc]
      have : ¬ ((pi.enrich || pi.rules.any (fun x => decide (Fires pi r x))) && pi.hasOut) = true := by
        intro c; apply hc; simp at c; exact ⟨c.2, c.1⟩
      simp [this]

/-- **C02** Disposition: a record is forwarded at most once, and exactly when it is not dropped by
a filter and (the mode is enrich or some rule fires on it). The forwarded record is its final state. -/
theorem record_disposition (pi : Interp R) (view : R → V) (hs : Stable pi view) (ho : pi.hasOut = true) (r : R) :
    ((¬ Dropped pi r ∧ (pi.enrich = true ∨ ∃ x ∈ pi.rules, Fires pi r x)) →
        outs (pi.work r).2 = [(pi.work r).1]) ∧
    (¬ (¬ Dropped pi r ∧ (pi.enrich = true ∨ ∃ x ∈ pi.rules, Fires pi r x)) → outs (pi.work r).2 = []) := by
  obtain ⟨hd, hn⟩ := work_spec pi view hs r
  by_cases h : Dropped pi r
  · simp [h, hd h, outs]
  · obtain ⟨es, _, _, h3, h4⟩ := hn h
    constructor
    · rintro ⟨_, hc⟩
      rw [h4, if_pos ⟨ho, hc⟩]; simp [outs_append, h3, outs]
    · intro hc
      rw [h4, if_neg (fun c => hc ⟨h, c.2⟩)]; simp [h3]

/-- **C02** (no assumption on conditions): for *every* interpreter, even when conditions read what
earlier rules or actions wrote into the record, a dropped record is not forwarded, and a record that
is not dropped is forwarded exactly once if the mode is enrich or a rule was attached to it, else not. -/
theorem record_disposition_general (pi : Interp R) (ho : pi.hasOut = true) (r : R) :
    outs (pi.work r).2 =
      if ¬ Dropped pi r ∧ (pi.enrich = true ∨ annotated (pi.work r).2 ≠ []) then [(pi.work r).1] else [] := by
  have key : ∀ (rules : List (Rule R)) (r : R) (m : Bool) (tr : List (Event R)),
      ∃ es, (pi.applyRules rules (r, m, tr)).2.2 = tr ++ es ∧ outs es = [] ∧
        ((pi.applyRules rules (r, m, tr)).2.1 = true ↔ m = true ∨ annotated es ≠ []) := by
    intro rules
    induction rules with
    | nil => intro r m tr; exact ⟨[], by simp [Interp.applyRules, outs, annotated]⟩
    | cons x xs ih =>
      intro r m tr
      unfold Interp.applyRules
      split
      · obtain ⟨es1, h1, _, h3, h4⟩ := handleActions_spec pi x (pi.addRules r x) (tr ++ [.annotate x])
        simp only [h1]
        obtain ⟨es2, k1, k2, k3⟩ := ih (es1.foldl (applyEvent pi) (pi.addRules r x)) true (tr ++ [.annotate x] ++ es1)
        refine ⟨.annotate x :: (es1 ++ es2), ?_, ?_, ?_⟩
        · rw [k1]; simp
        · simp [outs, outs_append, h3, k2]
        · rw [k3]; simp [annotated]
      · exact ih r m tr
  by_cases h : Dropped pi r
  · have := (evalFilters_iff pi.filters r).2 h
    simp [Interp.work, this, h, outs]
  · have hf : ¬ Interp.evalFilters pi.filters r = true := fun c => h ((evalFilters_iff _ _).1 c)
    obtain ⟨es, k1, k2, k3⟩ := key pi.rules r pi.enrich []
    unfold Interp.work
    simp only [hf, Bool.false_eq_true, if_false, ho, Bool.and_true, h, not_false_eq_true, true_and]
    by_cases hm : (pi.applyRules pi.rules (r, pi.enrich, [])).2.1 = true
    · simp only [hm, if_true]
      rw [k1]
      have := k3.1 hm
      simp [outs_append, annotated_append, k2, outs, annotated]
      intro a; rcases this with t | t
      · simp [a] at t
      · exact t
    · simp only [hm]
      have hn : ¬ (pi.enrich = true ∨ annotated es ≠ []) := fun c => hm (k3.2 c)
      simp only [k1, Bool.false_eq_true, if_false, List.nil_append, k2]
      simp [not_or] at hn
      simp [hn]

/-- **C03** The rules attached to a record that is not dropped are exactly the firing ones, in
policy order; a dropped record gets none and runs no action. -/
theorem attached_rules_exact (pi : Interp R) (view : R → V) (hs : Stable pi view) (r : R) :
    annotated (pi.work r).2 =
      if Dropped pi r then [] else pi.rules.filter (fun x => decide (Fires pi r x)) := by
  obtain ⟨hd, hn⟩ := work_spec pi view hs r
  by_cases h : Dropped pi r
  · simp [h, hd h, annotated]
  · obtain ⟨es, h1, _, _, h4⟩ := hn h
    rw [h4, if_neg h]
    show annotated (es ++ _) = _
    rw [annotated_append, h1]
    split <;> simp [annotated, fired]

/-- **C03** Read back through the record: if attaching a rule appends its data to what `getRules`
returns and actions leave it alone, then after processing the record's rules are the old ones
followed by exactly the firing rules in policy order. -/
theorem record_rules_after (pi : Interp R) (view : R → V) (hs : Stable pi view)
    (getRules : R → List RuleInfo)
    (hadd : ∀ r x, getRules (pi.addRules r x) = getRules r ++ [x.toRuleInfo])
    (hact : ∀ r a f, registered pi a = some f → getRules (f r).1 = getRules r) (r : R) :
    getRules (pi.work r).1 = getRules r ++
      (if Dropped pi r then [] else (pi.rules.filter (fun x => decide (Fires pi r x))).map (·.toRuleInfo)) := by
  have key : ∀ (es : List (Event R)) (r : R), getRules (es.foldl (applyEvent pi) r) =
      getRules r ++ (annotated es).map (·.toRuleInfo) := by
    intro es
    induction es with
    | nil => simp [annotated]
    | cons e es ih =>
      intro r
      cases e with
      | annotate x => simp [annotated, ih, applyEvent, hadd]
      | act a b =>
        simp only [List.foldl_cons, ih, applyEvent, annotated]
        cases h : registered pi a with
        | none => rfl
        | some f => simp [hact r a f h]
      | out r' => simp [annotated, ih, applyEvent]
  obtain ⟨hd, hn⟩ := work_spec pi view hs r
  by_cases h : Dropped pi r
  · simp [h, hd h]
  · obtain ⟨es, h1, _, _, h4⟩ := hn h
    rw [h4, if_neg h]
    simp [key, h1, fired]

/-- **C04** The actions invoked are, for each firing rule in policy order, the known actions it
lists in order; failures change nothing about which actions run. -/
theorem actions_exact (pi : Interp R) (view : R → V) (hs : Stable pi view) (r : R) :
    actions (pi.work r).2 = if Dropped pi r then [] else
      (pi.rules.filter (fun x => decide (Fires pi r x))).flatMap
        (fun x => x.actions.filter (fun a => (registered pi a).isSome)) := by
  obtain ⟨hd, hn⟩ := work_spec pi view hs r
  by_cases h : Dropped pi r
  · simp [h, hd h, actions]
  · obtain ⟨es, _, h2, _, h4⟩ := hn h
    rw [h4, if_neg h]
    show actions (es ++ _) = _
    rw [actions_append, h2]
    split <;> simp [actions, fired]

/-- **C04** Whether actions fail or not has no influence on the rules attached, the actions run or
whether the record is forwarded: two registries whose functions have the same effect on the record
but fail differently give the same behaviour. -/
theorem action_errors_irrelevant (pi pi' : Interp R) (view : R → V) (hs : Stable pi view)
    (hsame : pi' = { pi with builtIn := pi'.builtIn, user := pi'.user })
    (hdom : ∀ a, (registered pi a).isSome = (registered pi' a).isSome)
    (heff : ∀ a f g, registered pi a = some f → registered pi' a = some g → ∀ r, (f r).1 = (g r).1) (r : R) :
    annotated (pi'.work r).2 = annotated (pi.work r).2 ∧
    actions (pi'.work r).2 = actions (pi.work r).2 ∧
    (outs (pi'.work r).2).length = (outs (pi.work r).2).length := by
  have hr : pi'.rules = pi.rules := by rw [hsame]
  have hfl : pi'.filters = pi.filters := by rw [hsame]
  have hap : pi'.isApplicable = pi.isApplicable := by rw [hsame]
  have had : pi'.addRules = pi.addRules := by rw [hsame]
  have hen : pi'.enrich = pi.enrich := by rw [hsame]
  have hou : pi'.hasOut = pi.hasOut := by rw [hsame]
  have hs' : Stable pi' view := by
    refine ⟨by rw [hr]; exact hs.cond, by rw [hr, hap]; exact hs.appl, by rw [hr, had]; exact hs.add, ?_⟩
    intro r a g hg
    have := hdom a
    rw [hg] at this
    cases hf : registered pi a with
    | none => simp [hf] at this
    | some f => rw [← heff a f g hf hg r]; exact hs.act r a f hf
  have hF : ∀ x, Fires pi' r x ↔ Fires pi r x := by intro x; simp [Fires, hap]
  have hD : Dropped pi' r ↔ Dropped pi r := by simp [Dropped, hfl]
  have hFd : (fun x => decide (Fires pi' r x)) = (fun x => decide (Fires pi r x)) := by
    funext x; simp [hF]
  refine ⟨?_, ?_, ?_⟩
  · rw [attached_rules_exact pi' view hs', attached_rules_exact pi view hs, hr, hFd]; simp [hD]
  · rw [actions_exact pi' view hs', actions_exact pi view hs, hr, hFd]
    simp [hD, ← hdom]
  · obtain ⟨hd1, hn1⟩ := work_spec pi view hs r
    obtain ⟨hd2, hn2⟩ := work_spec pi' view hs' r
    by_cases h : Dropped pi r
    · simp [hd1 h, hd2 (hD.2 h)]
    · obtain ⟨es, _, _, h3, h4⟩ := hn1 h
      obtain ⟨es', _, _, h3', h4'⟩ := hn2 (fun c => h (hD.1 c))
      rw [h4, h4']
      simp only [outs_append, h3, h3', List.nil_append, hou, hen, hr, hF]
      split <;> simp [outs]

/-- **C04** Action registry: the function found for a name is the one of the last loadable file
declaring that name; names not declared are unknown. -/
theorem loadUserActions_last_wins (files : List (ActionFile R)) (n : List Char) :
    (∀ pre f post, files = pre ++ .action n f :: post → (∀ g, .action n g ∉ post) →
        loadUserActions files n = some f) ∧
    ((∀ f, .action n f ∉ files) → loadUserActions files n = none) := by
  have keep : ∀ (post : List (ActionFile R)) (m : ActionMap R), (∀ g, .action n g ∉ post) →
      post.foldl loadAction m n = m n := by
    intro post
    induction post with
    | nil => intro m _; rfl
    | cons x xs ih =>
      intro m h
      rw [List.foldl_cons, ih _ (fun g hg => h g (by simp [hg]))]
      cases x with
      | action name f =>
        have : n ≠ name := fun e => h f (by simp [e])
        simp [loadAction, this]
      | _ => rfl
  constructor
  · rintro pre f post rfl h
    rw [loadUserActions, List.foldl_append, List.foldl_cons, keep _ _ h]
    simp [loadAction]
  · intro h; rw [loadUserActions, keep _ _ h]

/-- **C18** (engine part) A prefilter that admits every record on which the condition holds does
not change the behaviour: replacing it by "always applicable" gives the same effects. -/
theorem prefilter_transparent (pi : Interp R)
    (h : ∀ rule ∈ pi.rules, ∀ r, rule.condition.pred r = true → pi.isApplicable r rule = true) (r : R) :
    pi.work r = { pi with isApplicable := fun _ _ => true }.work r := by
  have hrun : ∀ (as : List (List Char)) (st : R × List (Event R)),
      ({ pi with isApplicable := fun _ _ => true } : Interp R).runActions as st = pi.runActions as st := by
    intro as
    induction as with
    | nil => intro st; rfl
    | cons a as ih =>
      rintro ⟨r, tr⟩
      unfold Interp.runActions; rw [findAction_eq, findAction_eq]
      have : registered ({ pi with isApplicable := fun _ _ => true } : Interp R) a = registered pi a := rfl
      rw [this]
      cases registered pi a <;> simp [ih]
  have key : ∀ (rules : List (Rule R)), (∀ x ∈ rules, x ∈ pi.rules) → ∀ (st : R × Bool × List (Event R)),
      pi.applyRules rules st = ({ pi with isApplicable := fun _ _ => true } : Interp R).applyRules rules st := by
    intro rules
    induction rules with
    | nil => intro _ st; rfl
    | cons x xs ih =>
      rintro hsub ⟨r, m, tr⟩
      have hx := h x (hsub x (by simp)) r
      unfold Interp.applyRules
      have e : (x.enabled && pi.isApplicable r x && x.condition.eval r) = (x.enabled && true && x.condition.eval r) := by
        cases hcond : x.condition.eval r
        · simp
        · simp [hx hcond]
      rw [e]
      have ih' := ih (fun y hy => hsub y (by simp [hy]))
      split
      · simp only [Interp.handleActions, hrun]
        exact ih' _
      · exact ih' _
  unfold Interp.work
  rw [key pi.rules (fun _ h => h)]

/-! ### Non-vacuity: a two-rule, one-filter engine over `Nat × List Nat` records -/

/-- Sample interpreter: records are a value plus attached rule names. -/
def demoPi : Interp (Nat × List (List Char)) where
  enrich := false
  rules := [{ name := ['a'], condition := ⟨fun r => r.1 > 3⟩, actions := [['x'], ['y']] },
            { name := ['b'], condition := ⟨fun r => r.1 > 5⟩, enabled := false },
            { name := ['c'], condition := ⟨fun r => r.1 % 2 == 0⟩, actions := [['x']] }]
  filters := [{ name := ['f'], condition := ⟨fun r => r.1 == 100⟩ }]
  isApplicable := fun _ _ => true
  addRules := fun r x => (r.1, r.2 ++ [x.name])
  builtIn := builtInActions
  user := loadUserActions [.openError, .action ['x'] (fun r => (r, true))]
  hasOut := true

theorem demoPi_stable : Stable demoPi (fun r => r.1) := by
  refine ⟨?_, ?_, ?_, ?_⟩
  · intro rule hr r r' h
    simp [demoPi] at hr
    rcases hr with rfl | rfl | rfl <;> simp [h]
  · intros; rfl
  · intros; rfl
  · intro r a f h
    by_cases ha : a = ['x']
    · subst ha
      have : registered demoPi ['x'] = some (fun r => (r, true)) := rfl
      rw [this] at h; cases h; rfl
    · have : registered demoPi a = none := by
        simp [registered, demoPi, builtInActions, loadUserActions, loadAction, ha]
      rw [this] at h; cases h

example : Stable demoPi (fun r => r.1) ∧ ¬ Dropped demoPi (8, []) ∧ (fired demoPi (8, [])).map (·.name) = [['a'], ['c']] ∧
    (outs (demoPi.work (8, [])).2) = [(8, [['a'], ['c']])] ∧ actions (demoPi.work (8, [])).2 = [['x'], ['x']] ∧
    Dropped demoPi (100, []) :=
  ⟨demoPi_stable, by decide, by decide, by decide, by decide, by decide⟩

example : loadUserActions [.action ['x'] (fun (r : Nat) => (r, true)), .openError, .action ['x'] (fun r => (r + 1, false))] ['x']
    = some (fun r => (r + 1, false)) :=
  (loadUserActions_last_wins _ _).1 [.action ['x'] (fun (r : Nat) => (r, true)), .openError] (fun r => (r + 1, false)) [] rfl (by simp)

end Verif.Engine
