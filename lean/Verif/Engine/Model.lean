import Verif.Policy.Model
/-
Model of the policy interpreter's per-record work and of the action handler.
Sources: /repo/core/policyengine/engine/interpreter.go, /repo/core/policyengine/engine/actionhandler.go
-/
namespace Verif.Engine
open Verif.Policy

/-- `ActionFunc[R]` (engine/actionhandler.go:31). The Go function receives the record by pointer:
it may change the record and returns an error or nil. Model: new record and "error ≠ nil". -/
abbrev ActionFunc (R : Type u) := R → R × Bool

/-- `ActionMap[R]` (engine/actionhandler.go:33): a Go map, as a partial function. -/
abbrev ActionMap (R : Type u) := List Char → Option (ActionFunc R)

/-- What one `.so` file in the action directory yields in `loadUserActions`
(engine/actionhandler.go:71-95): opening fails, symbol lookup fails, the symbol has the wrong type,
or it is an action with a name and a function. -/
inductive ActionFile (R : Type u) where
  | openError
  | lookupError
  | notAnAction
  | action (name : List Char) (f : ActionFunc R)

/-- `registerBuiltIns` (engine/actionhandler.go:62-64): the empty map. -/
def builtInActions {R : Type u} : ActionMap R := fun _ => none

/-- One iteration of the loop in `loadUserActions` (engine/actionhandler.go:71-95). -/
def loadAction {R : Type u} (m : ActionMap R) : ActionFile R → ActionMap R
  | .openError => m
  | .lookupError => m
  | .notAnAction => m
  | .action name f => fun n => if n = name then some f else m n

/-- `loadUserActions` (engine/actionhandler.go:67-97), given the directory's files in listing order. -/
def loadUserActions {R : Type u} (files : List (ActionFile R)) : ActionMap R :=
  files.foldl loadAction (fun _ => none)

/-- The parts of `PolicyInterpreter[R]` used by a worker (engine/interpreter.go:35-69).
`enrich` is `config.Mode == EnrichMode`; `addRules` is `ctx.AddRules` with a single rule (as the
worker calls it); `hasOut` is `pi.out != nil`. Benchmark settings: Engine/Bench.lean;
rate counters are left out. -/
structure Interp (R : Type u) where
  enrich : Bool
  rules : List (Rule R)
  filters : List (Filter R)
  isApplicable : R → Rule R → Bool
  addRules : R → Rule R → R
  builtIn : ActionMap R
  user : ActionMap R
  hasOut : Bool

/-- Observable effects of processing a record: a rule added to its context, an action invoked, the
record passed to the `out` callback. -/
inductive Event (R : Type u) where
  | annotate (rule : Rule R)
  | act (name : List Char) (failed : Bool)
  | out (r : R)

/-- Action lookup, built-in first (engine/actionhandler.go:121-124). -/
def Interp.findAction {R : Type u} (pi : Interp R) (a : List Char) : Option (ActionFunc R) :=
  match pi.builtIn a with
  | some f => some f
  | none => pi.user a

/-- Loop of `HandleActions` over `rule.Actions` (engine/actionhandler.go:120-131); unknown
actions are skipped and errors only logged. State: the record and the effects so far. -/
def Interp.runActions {R : Type u} (pi : Interp R) : List (List Char) → R × List (Event R) → R × List (Event R)
  | [], st => st
  | a :: as, (r, tr) =>
    match pi.findAction a with
    | none => pi.runActions as (r, tr)
    | some f => pi.runActions as ((f r).1, tr ++ [.act a (f r).2])

/-- `HandleActions` (engine/actionhandler.go:116-132). -/
def Interp.handleActions {R : Type u} (pi : Interp R) (rule : Rule R) (st : R × List (Event R)) :
    R × List (Event R) :=
  if rule.actions = [] then st else pi.runActions rule.actions st

/-- `evalFilters` (engine/interpreter.go:187-194). -/
def Interp.evalFilters {R : Type u} (filters : List (Filter R)) (r : R) : Bool :=
  match filters with
  | [] => false
  | f :: fs => if f.enabled && f.condition.eval r then true else Interp.evalFilters fs r

/-- The rules loop of `worker` (engine/interpreter.go:168-176). State: record, match flag, effects. -/
def Interp.applyRules {R : Type u} (pi : Interp R) : List (Rule R) → R × Bool × List (Event R) → R × Bool × List (Event R)
  | [], st => st
  | rule :: rules, (r, m, tr) =>
    if rule.enabled && pi.isApplicable r rule && rule.condition.eval r then
      let st := pi.handleActions rule (pi.addRules r rule, tr ++ [.annotate rule])
      pi.applyRules rules (st.1, true, st.2)
    else pi.applyRules rules (r, m, tr)

/-- Body of the `worker` loop for one record (engine/interpreter.go:159-181): final record state
and effects in order. -/
def Interp.work {R : Type u} (pi : Interp R) (r : R) : R × List (Event R) :=
  if Interp.evalFilters pi.filters r then (r, [])
  else
    let st := pi.applyRules pi.rules (r, pi.enrich, [])
    if st.2.1 && pi.hasOut then (st.1, st.2.2 ++ [.out st.1]) else (st.1, st.2.2)

end Verif.Engine
