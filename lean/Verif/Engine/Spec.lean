import Verif.Engine.Model
/-! Independent specification of what processing one record must do (C02-C04, C18). -/
namespace Verif.Engine
open Verif.Policy

/-- A rule fires on a record: enabled, admitted by the prefilter, condition true. -/
def Fires {R : Type u} (pi : Interp R) (r : R) (rule : Rule R) : Prop :=
  rule.enabled = true ∧ pi.isApplicable r rule = true ∧ rule.condition.pred r = true

instance {R : Type u} (pi : Interp R) (r : R) : DecidablePred (Fires pi r) := fun rule => by
  unfold Fires; infer_instance

/-- A record is dropped: some enabled filter matches it. -/
def Dropped {R : Type u} (pi : Interp R) (r : R) : Prop :=
  ∃ f ∈ pi.filters, f.enabled = true ∧ f.condition.pred r = true

instance {R : Type u} (pi : Interp R) (r : R) : Decidable (Dropped pi r) := by
  unfold Dropped; infer_instance

/-- The rules, among `rules` and in their order, that fire on `r`. -/
def fired {R : Type u} (pi : Interp R) (r : R) : List (Rule R) := pi.rules.filter (fun x => decide (Fires pi r x))

/-- The action function registered under a name: a built-in one, else a user-defined one. -/
def registered {R : Type u} (pi : Interp R) (a : List Char) : Option (ActionFunc R) := (pi.builtIn a).or (pi.user a)

/-- The effect on the record's contents of one observable event. -/
def applyEvent {R : Type u} (pi : Interp R) (r : R) : Event R → R
  | .annotate rule => pi.addRules r rule
  | .act a _ => match registered pi a with
    | some f => (f r).1
    | none => r
  | .out _ => r

/-- Records passed downstream in a list of effects. -/
def outs {R : Type u} : List (Event R) → List R
  | [] => []
  | .out r :: es => r :: outs es
  | _ :: es => outs es

/-- Rules attached in a list of effects. -/
def annotated {R : Type u} : List (Event R) → List (Rule R)
  | [] => []
  | .annotate x :: es => x :: annotated es
  | _ :: es => annotated es

/-- Names of actions invoked in a list of effects. -/
def actions {R : Type u} : List (Event R) → List (List Char)
  | [] => []
  | .act a _ :: es => a :: actions es
  | _ :: es => actions es

/-- Rule conditions and the prefilter read only `view r`, and neither attaching a rule nor running
an action changes it. (For flat records `view` is the telemetry part of the record; this is proved
in `Verif.FlatRecord`.) -/
structure Stable {R : Type u} {V : Type v} (pi : Interp R) (view : R → V) : Prop where
  cond : ∀ rule ∈ pi.rules, ∀ r r', view r = view r' → rule.condition.pred r = rule.condition.pred r'
  appl : ∀ rule ∈ pi.rules, ∀ r r', view r = view r' → pi.isApplicable r rule = pi.isApplicable r' rule
  add : ∀ r, ∀ rule ∈ pi.rules, view (pi.addRules r rule) = view r
  act : ∀ r a f, registered pi a = some f → view (f r).1 = view r

end Verif.Engine
