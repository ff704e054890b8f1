import Verif.Engine.Props
/-
The warnings about unknown actions when policies are loaded (part of C04).
Source: /repo/core/policyengine/engine/actionhandler.go:99-113
-/
namespace Verif.Engine
open Verif.Policy
universe u v
variable {R : Type u} {V : Type v}

/-- `CheckActions` (engine/actionhandler.go:100-113): the warnings printed, as pairs of the action's and the rule's name. -/
def Interp.checkActions (pi : Interp R) : List (Rule R) → List (List Char × List Char)
  | [] => []
  | r :: rs =>
    (if r.actions = [] then []
     else (r.actions.filter (fun a => !(pi.builtIn a).isSome && !(pi.user a).isSome)).map (fun a => (a, r.name))) ++ pi.checkActions rs

theorem mem_checkActions (pi : Interp R) (rs : List (Rule R)) (a n : List Char) :
    (a, n) ∈ pi.checkActions rs ↔ ∃ r ∈ rs, r.name = n ∧ a ∈ r.actions ∧ registered pi a = none := by
  induction rs with
  | nil => simp [Interp.checkActions]
  | cons r rs ih =>
    unfold Interp.checkActions
    rw [List.mem_append, ih]
    have h1 : (a, n) ∈ (if r.actions = [] then []
        else (r.actions.filter (fun a => !(pi.builtIn a).isSome && !(pi.user a).isSome)).map (fun a => (a, r.name))) ↔
        r.name = n ∧ a ∈ r.actions ∧ registered pi a = none := by
      by_cases h : r.actions = []
      · rw [if_pos h, h]; simp
      · rw [if_neg h]
        simp only [List.mem_map, List.mem_filter, Bool.and_eq_true, Bool.not_eq_true', Option.isSome_eq_false_iff, Option.isNone_iff_eq_none, Prod.mk.injEq, registered,
          Option.or_eq_none_iff]
        constructor
        · rintro ⟨b, ⟨h1, h2, h3⟩, rfl, h4⟩; exact ⟨h4, h1, h2, h3⟩
        · rintro ⟨h1, h2, h3, h4⟩; exact ⟨a, ⟨h2, h3, h4⟩, rfl, h1⟩
    rw [h1]
    simp

/-- **C04** The warnings tell the truth about every record to come. Loading policies warns about an action and a rule exactly if a rule of that name lists the action and no function is registered for it; an
action that was warned about never runs, on any record; and without warnings every action that a firing rule lists runs, in order. -/
theorem warnings_exact (pi : Interp R) (view : R → V) (hs : Stable pi view) :
    (∀ a n, (a, n) ∈ pi.checkActions pi.rules ↔ ∃ r ∈ pi.rules, r.name = n ∧ a ∈ r.actions ∧ registered pi a = none) ∧
    (∀ a n, (a, n) ∈ pi.checkActions pi.rules → ∀ r, a ∉ actions (pi.work r).2) ∧
    (pi.checkActions pi.rules = [] → ∀ r, ¬ Dropped pi r → actions (pi.work r).2 = (fired pi r).flatMap (·.actions)) := by
  refine ⟨mem_checkActions pi pi.rules, ?_, ?_⟩
  · intro a n h r ha
    obtain ⟨_, _, _, _, hn⟩ := (mem_checkActions pi pi.rules a n).1 h
    rw [actions_exact pi view hs] at ha
    split at ha
    · cases ha
    · simp only [List.mem_flatMap, List.mem_filter] at ha
      obtain ⟨x, _, _, hx⟩ := ha
      rw [hn] at hx
      cases hx
  · intro h r hd
    rw [actions_exact pi view hs, if_neg hd]
    change (fired pi r).flatMap _ = _
    have key : ∀ l : List (Rule R), (∀ x ∈ l, x ∈ pi.rules) → l.flatMap (fun x => x.actions.filter (fun a => (registered pi a).isSome)) = l.flatMap (·.actions) := by
      intro l
      induction l with
      | nil => intro _; rfl
      | cons x l ih =>
        intro hl
        rw [List.flatMap_cons, List.flatMap_cons, ih (fun y hy => hl y (by simp [hy]))]
        congr 1
        rw [List.filter_eq_self]
        intro a ha
        cases hr : registered pi a with
        | some f => rfl
        | none =>
          have := (mem_checkActions pi pi.rules a x.name).2 ⟨x, hl x (by simp), rfl, ha, hr⟩
          rw [h] at this
          cases this
    exact key _ (fun x hx => (List.mem_filter.1 hx).1)

/-- The sample interpreter: one warning, about the action `y` of the rule `a`. -/
example : demoPi.checkActions demoPi.rules = [(['y'], ['a'])] := by decide
/-- An interpreter without warnings and a record that runs an action. -/
example : ∃ pi : Interp (Nat × List (List Char)), pi.checkActions pi.rules = [] ∧ ¬ Dropped pi (8, []) ∧ actions (pi.work (8, [])).2 = [['x']] :=
  ⟨{ demoPi with rules := [{ name := ['c'], condition := ⟨fun r => r.1 % 2 == 0⟩, actions := [['x']] }] }, by decide, by decide, by decide⟩

end Verif.Engine
