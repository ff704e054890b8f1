/-
Model of the policy data types and the predicate combinators.
Sources: /repo/core/policyengine/policy/predicates.go, /repo/core/policyengine/policy/types.go
-/
namespace Verif.Policy

/-- `Criterion[R]` (policy/predicates.go:26-31): a struct holding a predicate `func(R) bool`.
Simplification: predicates are pure and total (the Go closures built by the compilers are). -/
structure Criterion (R : Type u) where
  pred : R → Bool

namespace Criterion
variable {R : Type u}

/-- `Criterion.Eval` (policy/predicates.go:34-36). -/
def eval (c : Criterion R) (r : R) : Bool := c.pred r

/-- `Criterion.And` (policy/predicates.go:39-42). -/
def and (c cr : Criterion R) : Criterion R := ⟨fun r => c.eval r && cr.eval r⟩

/-- `Criterion.Or` (policy/predicates.go:45-48). -/
def or (c cr : Criterion R) : Criterion R := ⟨fun r => c.eval r || cr.eval r⟩

/-- `Criterion.Not` (policy/predicates.go:51-54). -/
def not (c : Criterion R) : Criterion R := ⟨fun r => !c.eval r⟩

/-- `True` (policy/predicates.go:57). -/
def tt : Criterion R := ⟨fun _ => true⟩

/-- `False` (policy/predicates.go:60). -/
def ff : Criterion R := ⟨fun _ => false⟩

/-- `All` (policy/predicates.go:63-69): the `for` loop is a left fold starting at `True`. -/
def all (cs : List (Criterion R)) : Criterion R := cs.foldl (fun acc c => acc.and c) tt

/-- `Any` (policy/predicates.go:72-78): the `for` loop is a left fold starting at `False`. -/
def any (cs : List (Criterion R)) : Criterion R := cs.foldl (fun acc c => acc.or c) ff

end Criterion

/-- `Priority` (policy/types.go:27-36): `Informational = iota, Low, Medium, High, Critical`. -/
inductive Priority where
  | informational | low | medium | high | critical
deriving DecidableEq, Repr

/-- The integer value of a priority (policy/types.go:30-36, `iota` constants). -/
def Priority.toNat : Priority → Nat
  | .informational => 0
  | .low => 1
  | .medium => 2
  | .high => 3
  | .critical => 4

/-- The data fields of `Rule[R]` (policy/types.go:44-54), i.e. all but the compiled condition.
`Tags` is `[]EnrichmentTag` (`interface{}`) in Go; here a tag entry is the list of strings it holds
(a Falco rule stores one `[]string` entry, a Sigma rule one too). `IsAlert` is never read or set by
the engine and is left out. -/
structure RuleInfo where
  name : List Char
  desc : List Char := []
  actions : List (List Char) := []
  tags : List (List (List Char)) := []
  priority : Priority := .low
  prefilter : List (List Char) := []
  enabled : Bool := true
deriving DecidableEq, Repr

/-- `Rule[R]` (policy/types.go:44-54). -/
structure Rule (R : Type u) extends RuleInfo where
  condition : Criterion R

/-- `Filter[R]` (policy/types.go:57-61). -/
structure Filter (R : Type u) where
  name : List Char
  condition : Criterion R
  enabled : Bool := true

end Verif.Policy
