import Verif.Policy.Ops
import Verif.Engine.Model
import Verif.Base.Space
import Verif.Base.Utf8
/-
Policy operations over OpenTelemetry logs and their enrichment.
Sources: /repo/core/policyengine/source/otel/{operations,operator,contextualizer,prefilter,constants,schema}.go
-/
namespace Verif.Otel
open Verif.Decimal (Str)
open Verif.Policy

/-- Values of attributes (schema.go: the OTLP `AnyValue` message). `missing` is a nil `*AnyValue`, `unset` one
whose oneof is not set. Doubles are their bit patterns. Simplification: the array inside an array value
and the list inside a key-value list are never nil (unmarshalling always allocates them). -/
inductive Value where
  | missing
  | unset
  | str (s : Str)
  | arr (vs : List Value)
  | bool (b : Bool)
  | bytes (bs : List UInt8)
  | double (bits : UInt64)
  | int (n : Int)
  | kvlist (kvs : List (Str × Value))

/-- `KeyValue` (schema.go). Simplification: the pointers in a list of attributes are not nil. -/
abbrev KV := Str × Value

/-- `InstrumentationScope`: the fields used, and the rest of the message. -/
structure Scope where
  name : Str
  attrs : List KV
  rest : Str := []

/-- `LogRecord`: its attributes and the rest of the message. -/
structure LogRecord where
  attrs : List KV
  rest : Str := []

/-- `ScopeLogs`. -/
structure ScopeLogs where
  scope : Option Scope
  logs : List LogRecord
  rest : Str := []

/-- `ResourceLogs`; `resource` is the attribute list of the resource, `none` if the resource is nil. -/
structure ResourceLogs where
  resource : Option (List KV)
  scopes : List ScopeLogs
  rest : Str := []

/-- Library functions left abstract: `bytes.EqualFold`, `strconv.ParseFloat(_, 64)` (with the error as `none`)
and the comparisons of float64, `regexp` (compilation, then `FindString`). -/
structure Lib extends CaseLib where
  bytesEqualFold : List UInt8 → List UInt8 → Bool
  parseFloat : Str → Option UInt64
  dblEq : UInt64 → UInt64 → Bool
  dblLt : UInt64 → UInt64 → Bool
  dblLe : UInt64 → UInt64 → Bool
  regexp : Str → Option (Str → Str)

/-! ### Comparisons -/

/-- Go's `<` on strings and byte slices: lexicographic by byte. -/
def bytesLt : List UInt8 → List UInt8 → Bool
  | [], [] => false
  | [], _ :: _ => true
  | _ :: _, [] => false
  | a :: as, b :: bs => if a = b then bytesLt as bs else decide (a < b)

/-- Go's `<` on strings. -/
def strLt (a b : Str) : Bool := bytesLt (Utf8.bytes a) (Utf8.bytes b)

/-- `doStringComparison` (operator.go:29-65). -/
def strCmp (L : Lib) (s r : Str) : Operator → Bool
  | .Eq => s == r
  | .IEq => L.equalFold s r
  | .Contains => Strings.contains s r
  | .IContains => Strings.contains (L.lower s) (L.lower r)
  | .Startswith => Strings.hasPrefix s r
  | .IStartswith => Strings.hasPrefix (L.lower s) (L.lower r)
  | .Endswith => Strings.hasSuffix s r
  | .IEndswith => Strings.hasSuffix (L.lower s) (L.lower r)
  | .Lt => strLt s r
  | .LEq => !strLt r s
  | .Gt => strLt r s
  | .GEq => !strLt s r

/-- The loop over array elements (operator.go:80-89, 91-100); `none` is the panic on a nil element. -/
def anyElem (L : Lib) (r : Str) (op : Operator) : List Value → Option Bool
  | [] => some false
  | .missing :: _ => none
  | .str s :: vs => if strCmp L s r op then some true else anyElem L r op vs
  | _ :: vs => anyElem L r op vs

/-- The test of the first or last element (operator.go:101-131). -/
def elemIs (eq : Str → Bool) : Option Value → Option Bool
  | none => none
  | some .missing => none
  | some (.str s) => some (eq s)
  | some _ => some false

/-- `doArrayComparison` (operator.go:67-143); `none` is a panic: index out of range on an empty array. -/
def arrCmp (L : Lib) (vs : List Value) (r : Str) : Operator → Option Bool
  | .Contains => anyElem L r .Contains vs
  | .IContains => anyElem L r .IContains vs
  | .Startswith => elemIs (fun s => s == r) vs.head?
  | .IStartswith => elemIs (fun s => L.equalFold s r) vs.head?
  | .Endswith => elemIs (fun s => s == r) vs.getLast?
  | .IEndswith => elemIs (fun s => L.equalFold s r) vs.getLast?
  | _ => some false

/-- `doBooleanComparison` (operator.go:145-179). -/
def boolCmp (b : Bool) (r : Str) (op : Operator) : Bool :=
  let rv := if r = "False".toList then false else true
  match op with
  | .Eq => b == rv
  | .IEq => b == rv
  | _ => false

/-- `bytes.Contains`. -/
def bytesContains : List UInt8 → List UInt8 → Bool
  | [], r => r.isEmpty
  | c :: cs, r => r.isPrefixOf (c :: cs) || bytesContains cs r

/-- `doBytesComparison` (operator.go:181-212). -/
def bytesCmp (L : Lib) (bs : List UInt8) (r : Str) : Operator → Bool
  | .Eq => bs == Utf8.bytes r
  | .IEq => L.bytesEqualFold bs (Utf8.bytes r)
  | .Contains => bytesContains bs (Utf8.bytes r)
  | .Startswith => (Utf8.bytes r).isPrefixOf bs
  | .Endswith => (Utf8.bytes r).isSuffixOf bs
  | _ => false

/-- `doDoubleComparison` (operator.go:214-248). -/
def dblCmp (L : Lib) (d : UInt64) (r : Str) (op : Operator) : Bool :=
  match L.parseFloat (Strings.trimSpace r) with
  | none => false
  | some x => match op with
    | .Eq => L.dblEq d x
    | .Lt => L.dblLt d x
    | .LEq => L.dblLe d x
    | .Gt => L.dblLt x d
    | .GEq => L.dblLe x d
    | _ => false

/-- `doIntComparison` (operator.go:250-284). -/
def intCmp (n : Int) (r : Str) (op : Operator) : Bool :=
  let p := Decimal.parseInt (Strings.trimSpace r)
  if !p.2 then false
  else match op with
    | .Eq => n == p.1
    | .Lt => decide (n < p.1)
    | .LEq => decide (n ≤ p.1)
    | .Gt => decide (n > p.1)
    | .GEq => decide (n ≥ p.1)
    | _ => false

mutual
/-- The type switch of `compareHelper` (operations.go:70-93): `cont` is what the rest of the loop returns,
reached only when no case of the switch applies. `none` is a panic. -/
def cmpValue (L : Lib) (l r : Str) (op : Operator) (cont : Option Bool) : Value → Option Bool
  | .missing => none
  | .unset => cont
  | .str s => some (strCmp L s r op)
  | .arr vs => arrCmp L vs r op
  | .bool b => some (boolCmp b r op)
  | .bytes bs => some (bytesCmp L bs r op)
  | .double d => some (dblCmp L d r op)
  | .int n => some (intCmp n r op)
  | .kvlist kvs => cmpKVs L l r op kvs
/-- `compareHelper` (operations.go:65-95). -/
def cmpKVs (L : Lib) (l r : Str) (op : Operator) : List KV → Option Bool
  | [] => some false
  | (k, v) :: rest => if k ≠ l then cmpKVs L l r op rest else cmpValue L l r op (cmpKVs L l r op rest) v
end

/-! ### Operations -/

/-- The loops of `getAllAttributes` over scopes and log records (operations.go:37-47). -/
def addLogs (acc : List KV) (ls : List LogRecord) : List KV := ls.foldl (fun acc lr => acc ++ lr.attrs) acc
def addScopes (acc : List KV) (ss : List ScopeLogs) : List KV :=
  ss.foldl (fun acc sl => addLogs (match sl.scope with
    | some sc => acc ++ sc.attrs
    | none => acc) sl.logs) acc

/-- `getAllAttributes` (operations.go:33-49); `none` is the nil dereference of an absent resource. -/
def getAllAttributes (rl : ResourceLogs) : Option (List KV) :=
  rl.resource.map (fun attrs => addScopes attrs rl.scopes)

/-- The loop of `Exists` (operations.go:55-60). -/
def hasKey (attr : Str) : List KV → Bool
  | [] => false
  | (k, _) :: rest => if k = attr then true else hasKey attr rest

/-- `Exists` (operations.go:51-63). -/
def exists? (attr : Str) (rl : ResourceLogs) : Option Bool := (getAllAttributes rl).map (hasKey attr)

/-- `Compare` (operations.go:97-105). -/
def compare? (L : Lib) (l r : Str) (op : Operator) (rl : ResourceLogs) : Option Bool :=
  match getAllAttributes rl with
  | none => none
  | some kvs => cmpKVs L l r op kvs

/-- The loop of `FoldAny` (operations.go:110-115). -/
def foldAnyLoop (L : Lib) (attr : Str) (op : Operator) (kvs : List KV) : List Str → Option Bool
  | [] => some false
  | x :: xs => match cmpKVs L attr x op kvs with
    | none => none
    | some true => some true
    | some false => foldAnyLoop L attr op kvs xs

/-- `FoldAny` (operations.go:107-119). -/
def foldAny? (L : Lib) (attr : Str) (list : List Str) (op : Operator) (rl : ResourceLogs) : Option Bool :=
  match getAllAttributes rl with
  | none => none
  | some kvs => foldAnyLoop L attr op kvs list

/-- The loop of `FoldAll` (operations.go:124-129). -/
def foldAllLoop (L : Lib) (attr : Str) (op : Operator) (kvs : List KV) : List Str → Option Bool
  | [] => some true
  | x :: xs => match cmpKVs L attr x op kvs with
    | none => none
    | some false => some false
    | some true => foldAllLoop L attr op kvs xs

/-- `FoldAll` (operations.go:121-133). -/
def foldAll? (L : Lib) (attr : Str) (list : List Str) (op : Operator) (rl : ResourceLogs) : Option Bool :=
  match getAllAttributes rl with
  | none => none
  | some kvs => foldAllLoop L attr op kvs list

/-- The loop of `RegExp` (operations.go:139-149). -/
def regExpLoop (find : Str → Str) (attr : Str) : List KV → Option Bool
  | [] => some false
  | (k, v) :: rest => if k ≠ attr then regExpLoop find attr rest
    else match v with
      | .missing => none
      | .str s => some (find s != [])
      | _ => some false

/-- `RegExp` (operations.go:135-154): the predicate, and "error ≠ nil". -/
def regExp? (L : Lib) (attr re : Str) : (ResourceLogs → Option Bool) × Bool :=
  match L.regexp re with
  | some find => (fun rl => match getAllAttributes rl with
      | none => none
      | some kvs => regExpLoop find attr kvs, false)
  | none => (fun _ => some false, true)

/-- A predicate as a criterion; a panic is rendered as false (the theorems say when one happens). -/
def crit (f : ResourceLogs → Option Bool) : Criterion ResourceLogs := ⟨fun rl => f rl == some true⟩

/-- `NewOperations` (operations.go:29-31). -/
def otelOps (L : Lib) : Operations ResourceLogs where
  exist a := crit (exists? a)
  compare l r op := crit (compare? L l r op)
  foldAny a l op := crit (foldAny? L a l op)
  foldAll a l op := crit (foldAll? L a l op)
  regExp a re := (crit (regExp? L a re).1, (regExp? L a re).2)

/-! ### Enrichment -/

/-- constants.go. -/
def rulesKey : Str := "sf.processor.rules".toList
def tagsKey : Str := "sf.processor.tags".toList
def scopeName : Str := "sf-processor".toList

/-- `getOrCreateAttribute` (contextualizer.go:97-115): the attributes and the position of the one returned.
Only the last two attributes are looked at, the last but one first. -/
def getOrCreate (attrs : List KV) (key : Str) : List KV × Nat :=
  if attrs.length > 1 ∧ (attrs[attrs.length - 2]?.map (·.1)) = some key then (attrs, attrs.length - 2)
  else if attrs.length > 0 ∧ (attrs[attrs.length - 1]?.map (·.1)) = some key then (attrs, attrs.length - 1)
  else (attrs ++ [(key, .arr [])], attrs.length)

/-- `v.(*ArrayValue)` and the append (contextualizer.go:47-51, 66-70) at the attribute at a position; `none` is
the panic of the type assertion (or of a nil value). -/
def appendAt (attrs : List KV) (i : Nat) (s : Str) : Option (List KV) :=
  match attrs[i]? with
  | some (k, .arr vs) => some (attrs.set i (k, .arr (vs ++ [.str s])))
  | _ => none

/-- The appends of a loop. -/
def appendAll (i : Nat) : List Str → List KV → Option (List KV)
  | [], attrs => some attrs
  | s :: ss, attrs => match appendAt attrs i s with
    | none => none
    | some attrs' => appendAll i ss attrs'

/-- The keys of the map of tags (contextualizer.go:45, 52-62): each tag once. -/
def tagSet (rules : List RuleInfo) : List Str := ((rules.map (·.tags)).flatten.flatten).eraseDups

/-- The body of `AddRules` on the attributes of the processor's scope (contextualizer.go:34-72). `order` is the
order in which Go iterates the map of tags. -/
def enrichAttrs (order : List Str → List Str) (rules : List RuleInfo) (attrs : List KV) : Option (List KV) :=
  let a1 := getOrCreate attrs rulesKey
  let a2 := getOrCreate a1.1 tagsKey
  match appendAll a1.2 (rules.map (·.name)) a2.1 with
  | none => none
  | some a3 => appendAll a2.2 (order (tagSet rules)) a3

/-- `getOrCreateProcessorScopeAttributes` (contextualizer.go:84-95) with the update of the attributes found. -/
def enrichScopes (order : List Str → List Str) (rules : List RuleInfo) : List ScopeLogs → Option (List ScopeLogs)
  | [] => (enrichAttrs order rules []).map (fun a => [⟨some ⟨scopeName, a, []⟩, [], []⟩])
  | s :: rest => match s.scope with
    | none => (enrichScopes order rules rest).map (s :: ·)
    | some sc =>
      if sc.name = scopeName then (enrichAttrs order rules sc.attrs).map (fun a => { s with scope := some { sc with attrs := a } } :: rest)
      else (enrichScopes order rules rest).map (s :: ·)

/-- `AddRules` (contextualizer.go:34-72). `none` is a panic. -/
def addRules? (order : List Str → List Str) (rl : ResourceLogs) (rules : List RuleInfo) : Option ResourceLogs :=
  (enrichScopes order rules rl.scopes).map (fun ss => { rl with scopes := ss })

/-- `IsApplicable` (prefilter.go:30-32). -/
def isApplicable (_ : ResourceLogs) (_ : Rule ResourceLogs) : Bool := true

/-- The interpreter's source components for OTel logs (policyengine.go createPolicyInterpreter 172-204 with
the OTel factories). A panic of `AddRules` is rendered as no change (the theorems say when one happens). -/
def otelInterp (order : List Str → List Str) (enrich : Bool) (rules : List (Rule ResourceLogs)) (filters : List (Filter ResourceLogs))
    (builtIn user : Engine.ActionMap ResourceLogs) (hasOut : Bool) : Engine.Interp ResourceLogs where
  enrich := enrich
  rules := rules
  filters := filters
  isApplicable := isApplicable
  addRules rl rule := (addRules? order rl [rule.toRuleInfo]).getD rl
  builtIn := builtIn
  user := user
  hasOut := hasOut

end Verif.Otel
