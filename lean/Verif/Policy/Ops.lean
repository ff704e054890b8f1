import Verif.Policy.Model
import Verif.Base.Strings
/-
The interface between the policy compilers and the record sources.
Sources: /repo/core/policyengine/source/operators.go, /repo/core/policyengine/source/operations.go
-/
namespace Verif.Policy
open Verif.Decimal (Str)

/-- `Operator` (source/operators.go:31-47). -/
inductive Operator where
  | Eq | IEq | Contains | IContains | Startswith | IStartswith | Endswith | IEndswith | Lt | LEq | Gt | GEq
deriving DecidableEq, Repr

/-- Case functions of the Go library used by the string operators, left abstract: `strings.ToLower`
and `strings.EqualFold`. -/
structure CaseLib where
  lower : Str → Str
  equalFold : Str → Str → Bool

/-- `StrOps.OpFunc` (source/operators.go:59-79); `none` is the error "not a string operator". -/
def strOp (C : CaseLib) : Operator → Option (Str → Str → Bool)
  | .Eq => some (fun l r => l == r)
  | .IEq => some (fun l r => C.equalFold l r)
  | .Contains => some (fun l r => Strings.contains l r)
  | .IContains => some (fun l r => Strings.contains (C.lower l) (C.lower r))
  | .Startswith => some (fun l r => Strings.hasPrefix l r)
  | .IStartswith => some (fun l r => Strings.hasPrefix (C.lower l) (C.lower r))
  | .Endswith => some (fun l r => Strings.hasSuffix l r)
  | .IEndswith => some (fun l r => Strings.hasSuffix (C.lower l) (C.lower r))
  | .Lt => none
  | .LEq => none
  | .Gt => none
  | .GEq => none

/-- `IntOps.OpFunc` (source/operators.go:89-103); `none` is the error "not an integer operator". -/
def intOp : Operator → Option (Int → Int → Bool)
  | .Eq => some (fun l r => l == r)
  | .Lt => some (fun l r => decide (l < r))
  | .LEq => some (fun l r => decide (l ≤ r))
  | .Gt => some (fun l r => decide (l > r))
  | .GEq => some (fun l r => decide (l ≥ r))
  | _ => none

/-- The loop of `SliceOps` equality and of `IPv6Ops` (source/operators.go:111-127, 138-151). -/
def elementsEq {α : Type u} [DecidableEq α] : List α → List α → Bool
  | [], _ => true
  | _ :: _, [] => false
  | a :: as, b :: bs => if a ≠ b then false else elementsEq as bs

/-- `SliceOps.OpFunc` (source/operators.go:112-133). -/
def sliceOp {α : Type u} [DecidableEq α] : Operator → Option (List α → List α → Bool)
  | .Eq => some (fun l r => if l.length ≠ r.length then false else elementsEq l r)
  | _ => none

/-- `Operations[R]` (source/operations.go): what a record source offers to the policy compilers. The
Go methods also return an error; only `RegExp` ever returns one (its second component here is
"error ≠ nil"). -/
structure Operations (R : Type u) where
  exist : Str → Criterion R
  compare : Str → Str → Operator → Criterion R
  foldAny : Str → List Str → Operator → Criterion R
  foldAll : Str → List Str → Operator → Criterion R
  regExp : Str → Str → Criterion R × Bool

end Verif.Policy
