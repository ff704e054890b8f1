import Verif.FlatRecord.Record
import Verif.Engine.Model
/-
Criteria over flat records, prefilter and record context.
Sources: /repo/core/policyengine/source/flatrecord/{operations,prefilter,contextualizer,record}.go
-/
namespace Verif.FlatRecord
open Verif.Decimal (Str)
open Verif.SysFlow
open Verif.Policy

/-- `Context` (record.go:200-283): a slice of four `interface{}` slots, nil until set. The rules
stored are kept without their compiled conditions (`RuleInfo`), which nothing downstream reads. The
hash slot is nil or an array of two optional hash sets. -/
structure Ctx where
  alert : Option Bool := none
  rules : Option (List RuleInfo) := none
  tags : Option (List Str) := none
  hashes : Option (Option HashSet × Option HashSet) := none
deriving DecidableEq, Repr

/-- `Record` (record.go:34-37). -/
structure Record where
  fr : FlatRec
  ctx : Ctx

/-- `NewRecord` (record.go:40-45). -/
def newRecord (fr : FlatRec) : Record := ⟨fr, {}⟩

namespace Ctx

/-- `IsAlert` (record.go:213-218). -/
def isAlert (c : Ctx) : Bool := c.alert.getD false
/-- `SetAlert` (record.go:220-222). -/
def setAlert (c : Ctx) (b : Bool) : Ctx := { c with alert := some b }
/-- `AddRules` (record.go:225-232): initialise the slot, then append one by one. -/
def addRules (c : Ctx) (rs : List RuleInfo) : Ctx :=
  { c with rules := some (rs.foldl (fun acc r => acc ++ [r]) (c.rules.getD [])) }
/-- `GetRules` (record.go:235-240). -/
def getRules (c : Ctx) : List RuleInfo := c.rules.getD []
/-- `SetTags` (record.go:243-245). -/
def setTags (c : Ctx) (ts : List Str) : Ctx := { c with tags := some ts }
/-- `AddTags` (record.go:248-255). -/
def addTags (c : Ctx) (ts : List Str) : Ctx :=
  { c with tags := some (ts.foldl (fun acc t => acc ++ [t]) (c.tags.getD [])) }
/-- `GetTags` (record.go:258-263). -/
def getTags (c : Ctx) : List Str := c.tags.getD []
/-- `GetHash` (record.go:265-271). -/
def getHash (c : Ctx) (h : HashType) : Option HashSet :=
  match c.hashes with
  | none => none
  | some (p, f) => match h with
    | .proc => p
    | .file => f
/-- `SetHashes` (record.go:274-283): allocate the array if needed; an entry already set is kept. -/
def setHashes (c : Ctx) (h : HashType) (hs : HashSet) : Ctx :=
  let hpa := c.hashes.getD (none, none)
  { c with hashes := some (match h with
      | .proc => (match hpa.1 with
        | none => (some hs, hpa.2)
        | some _ => hpa)
      | .file => (match hpa.2 with
        | none => (hpa.1, some hs)
        | some _ => hpa)) }

end Ctx

/-! ### Operations -/

/-- The zero test of `Exists` (operations.go:44-48): `reflect.Value.IsZero` of the mapped value: empty
string, number 0, false, nil pointer. -/
def isZero : FVal → Bool
  | .str s => s.isEmpty
  | .i64 n => n == 0
  | .i32 n => n == 0
  | .bool b => !b
  | .intArr l => l.isNone
  | .svcArr l => l.isNone

/-- `Operations.Exists` (operations.go:44-48). -/
def existsC (L : Lib) (t : Table) (attr : Str) : Criterion Record :=
  ⟨fun r => !isZero (mapAttr L t attr r.fr)⟩

/-- Inner loop of `compareStr` (operations.go:124-128). -/
def anyRight (o : Str → Str → Bool) (l : Str) : List Str → Bool
  | [] => false
  | r :: rs => if o l r then true else anyRight o l rs

/-- Outer loop of `compareStr` (operations.go:123-130). -/
def anyLeft (o : Str → Str → Bool) (rs : List Str) : List Str → Bool
  | [] => false
  | l :: ls => if anyRight o l rs then true else anyLeft o rs ls

/-- `compareStr` (operations.go:120-131). -/
def compareVals (o : Str → Str → Bool) (l r : Str) : Bool :=
  anyLeft o (Strings.split ',' r) (Strings.split ',' l)

/-- Calling the function returned by `OpFunc`, whose error the callers ignore (operations.go:63, 72,
80, 95). A nil function panics when called; the model returns `false`. No policy compiler asks for
an operator of the wrong type (proved for Falco and Sigma in their modules). -/
def callOp {α : Type u} (o : Option (α → α → Bool)) (l r : α) : Bool :=
  match o with
  | some f => f l r
  | none => false

/-- `Operations.compareStr` (operations.go:60-66). -/
def compareStrC (L : Lib) (t : Table) (l r : Str) (op : Operator) : Criterion Record :=
  ⟨fun rec => compareVals (callOp (strOp L.toCaseLib op)) (mapStr L t l rec.fr) (mapStr L t r rec.fr)⟩

/-- `Operations.compareInt` (operations.go:69-75). -/
def compareIntC (L : Lib) (t : Table) (l r : Str) (op : Operator) : Criterion Record :=
  ⟨fun rec => callOp (intOp op) (mapInt L t l rec.fr) (mapInt L t r rec.fr)⟩

/-- `Operations.Compare` (operations.go:51-57). -/
def compareC (L : Lib) (t : Table) (l r : Str) (op : Operator) : Criterion Record :=
  match op with
  | .Lt | .LEq | .Gt | .GEq => compareIntC L t l r op
  | _ => compareStrC L t l r op

/-- Loop of `FoldAny` (operations.go:82-87). -/
def foldAnyLoop (o : Str → Str → Bool) (v : Str) : List Str → Bool
  | [] => false
  | x :: xs => if compareVals o v x then true else foldAnyLoop o v xs

/-- `Operations.FoldAny` (operations.go:78-90). -/
def foldAnyC (L : Lib) (t : Table) (attr : Str) (list : List Str) (op : Operator) : Criterion Record :=
  ⟨fun rec => foldAnyLoop (callOp (strOp L.toCaseLib op)) (mapStr L t attr rec.fr) list⟩

/-- Loop of `FoldAll` (operations.go:97-102). -/
def foldAllLoop (o : Str → Str → Bool) (v : Str) : List Str → Bool
  | [] => true
  | x :: xs => if !compareVals o v x then false else foldAllLoop o v xs

/-- `Operations.FoldAll` (operations.go:93-105). -/
def foldAllC (L : Lib) (t : Table) (attr : Str) (list : List Str) (op : Operator) : Criterion Record :=
  ⟨fun rec => foldAllLoop (callOp (strOp L.toCaseLib op)) (mapStr L t attr rec.fr) list⟩

/-- `Operations.RegExp` (operations.go:108-117): criterion and "error ≠ nil". -/
def regExpC (L : Lib) (t : Table) (attr re : Str) : Criterion Record × Bool :=
  match L.regexp re with
  | some find => (⟨fun rec => find (mapStr L t attr rec.fr) != []⟩, false)
  | none => (Criterion.ff, true)

/-- `NewOperations` (operations.go:39-41) over the mapper table `t`. -/
def flatOps (L : Lib) (t : Table) : Operations Record where
  exist := existsC L t
  compare := compareC L t
  foldAny := foldAnyC L t
  foldAll := foldAllC L t
  regExp := regExpC L t

/-- Loop of `IsApplicable` (prefilter.go:37-41). -/
def prefilterLoop (rtype : Str) : List Str → Bool
  | [] => false
  | pf :: pfs => if rtype = pf then true else prefilterLoop rtype pfs

/-- `Prefilter.IsApplicable` (prefilter.go:32-43). -/
def isApplicable (L : Lib) (t : Table) (r : Record) (rule : Rule Record) : Bool :=
  if rule.prefilter = [] then true
  else prefilterLoop (mapStr L t "sf.type".toList r.fr) rule.prefilter

/-- `Contextualizer.AddRules` with one rule (contextualizer.go:34-36), as the engine's worker calls it. -/
def addRule (r : Record) (rule : Rule Record) : Record := { r with ctx := r.ctx.addRules [rule.toRuleInfo] }

/-- The interpreter's source components for flat records (policyengine.go createPolicyInterpreter
172-204 with the flat record factories). -/
def flatInterp (L : Lib) (enrich : Bool) (rules : List (Rule Record)) (filters : List (Filter Record))
    (builtIn user : Engine.ActionMap Record) (hasOut : Bool) : Engine.Interp Record where
  enrich := enrich
  rules := rules
  filters := filters
  isApplicable := isApplicable L getMappers
  addRules := addRule
  builtIn := builtIn
  user := user
  hasOut := hasOut

end Verif.FlatRecord
