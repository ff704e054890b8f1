import Verif.Policy.Ops
import Verif.Base.SeqMap
import Verif.Base.Utf8
import Verif.Base.Base64
/-
Model of the Sigma policy compiler.
Sources: /repo/core/policyengine/policy/sigma/compiler.go, modifiers.go, transformer.go

The YAML parser of the sigma-go library is not modelled: the model starts from the parsed rules and
configuration.
-/
namespace Verif.Sigma
open Verif.Decimal (Str)
open Verif.Policy

/-! ### Transformers -/

/-- `TransformerFlags` (transformer.go:27). -/
abbrev Flags := BitVec 16

/-- transformer.go:30. -/
def NoFlags : Flags := 0
/-- transformer.go:33-38 (`1 << iota`). -/
def Base64Flag : Flags := 1
def Base64OffsetFlag : Flags := 2
def WinDashFlag : Flags := 4
def CIDRFlag : Flags := 8

/-- `Set` (transformer.go:42). -/
def Flags.set (s flag : Flags) : Flags := s ||| flag
/-- `Clear` (transformer.go:45): Go's `&^`. -/
def Flags.clear (s flag : Flags) : Flags := s &&& ~~~flag
/-- `Has` (transformer.go:48). -/
def Flags.has (s flag : Flags) : Bool := s &&& flag != NoFlags

/-- `windash` (transformer.go): `strings.ReplaceAll(src, "-", "/")`. -/
def windash (s : Str) : Str := s.map (fun c => if c = '-' then '/' else c)

/-- `base64` (transformer.go:88-93) at offset 0; at any other offset it panics. -/
def base64 (s : Str) (offset : Nat) : Option Str :=
  if offset > 0 then none else some (Base64.encode ((Utf8.bytes s).map UInt8.toNat))

/-- The Base64Offset branch of `Transform` (transformer.go:78-83). -/
def base64Offsets (src : Str) : Option (List Str) :=
  match base64 src 0, base64 src 1, base64 src 2 with
  | some a, some b, some c => some [a, b, c]
  | _, _, _ => none

/-- `Transform` (transformer.go:57-86); `none` is a panic. The first argument bounds the recursion (at
each recursive call a flag is cleared). The CIDR branch always panics (transformer.go, `cidr`). The
error result is never set. -/
def transformF : Nat → Str → Flags → Option (List Str)
  | 0, _, _ => none
  | n + 1, src, flags =>
    if flags = NoFlags then some [src]
    else if flags.has WinDashFlag then transformF n (windash src) (flags.clear WinDashFlag)
    else if flags.has CIDRFlag then none
    else if flags.has Base64Flag then (base64 src 0).map (fun x => [x])
    else if flags.has Base64OffsetFlag then base64Offsets src
    else some [src]

/-- `Transform` (transformer.go:57-86). Two levels suffice: only the WinDash branch recurses. -/
def transform (src : Str) (flags : Flags) : Option (List Str) := transformF 2 src flags

/-! ### Modifiers -/

/-- The comparator of a modifier name: `ComparatorsMap` (modifiers.go) and the switch of `visitTerm`
(compiler.go:274-293). `re` has a case in the switch but is not in the map, so it never reaches it. -/
def comparatorOf (m : Str) : Option Operator :=
  if m = "contains".toList then some .IContains
  else if m = "startswith".toList then some .IStartswith
  else if m = "endswith".toList then some .IEndswith
  else if m = "lt".toList then some .Lt
  else if m = "lte".toList then some .LEq
  else if m = "gt".toList then some .Gt
  else if m = "gte".toList then some .GEq
  else none

/-- `TransformersMap` (modifiers.go). -/
def transformersOf (m : Str) : Option (List Flags) :=
  if m = "base64".toList then some [Base64Flag]
  else if m = "base64Offset".toList then some [Base64OffsetFlag]
  else if m = "utf16".toList then some [NoFlags]
  else if m = "utf16le".toList then some [NoFlags]
  else if m = "utf16be".toList then some [NoFlags]
  else if m = "wide".toList then some [NoFlags]
  else if m = "windash".toList then some [NoFlags, WinDashFlag]
  else if m = "cidr".toList then some [CIDRFlag]
  else none

/-- The modifier loop of `visitSearch` (compiler.go:217-231). -/
def comparators (ms : List Str) : List Operator := ms.filterMap comparatorOf
def transformers (ms : List Str) : List Flags := (ms.filterMap transformersOf).flatten
def allModifier (ms : List Str) : Bool := ms.contains "all".toList

/-! ### Searches and conditions -/

/-- sigma-go `FieldMatcher`. -/
structure FieldMatcher where
  field : Str
  modifiers : List Str := []
  values : List Str := []
deriving DecidableEq

/-- sigma-go `Search`: keywords and event matchers, each a list of field matchers. -/
structure Search where
  keywords : List Str := []
  matchers : List (List FieldMatcher) := []
deriving DecidableEq

/-- sigma-go `SearchExpr`; `other` stands for the node kinds without a case in the switch. -/
inductive SearchExpr where
  | ident (name : Str)
  | and (es : List SearchExpr)
  | or (es : List SearchExpr)
  | not (e : SearchExpr)
  | oneOfThem
  | oneOfPattern (p : Str)
  | allOfThem
  | allOfPattern (p : Str)
  | other

variable {R : Type u}

/-- Field mappings of the Sigma configuration: source name to target names (compiler.go:263-267). -/
abbrev FieldMappings := GoMap (List Str)

/-- compiler.go:263-267; `none` is the panic of `TargetNames[0]` on an empty list. -/
def mapField (fm : FieldMappings) (attr : Str) : Option Str :=
  match fm.get attr with
  | none => some attr
  | some [] => none
  | some (t :: _) => some t

/-- `visitTerm` (compiler.go:259-298). -/
def visitTerm (ops : Operations R) (fm : FieldMappings) (cmps : List Operator) (attr value : Str) : Option (Criterion R) :=
  match mapField fm attr with
  | none => none
  | some attr =>
    if cmps = [] then some (Criterion.all [ops.compare attr value .IEq])
    else some (Criterion.all (cmps.map (fun op => ops.compare attr value op)))

/-- The inner loop over transformers (compiler.go:235-243). -/
def visitTransformed (ops : Operations R) (fm : FieldMappings) (m : FieldMatcher) (value : Str) : Option (Criterion R) :=
  match seqMap (fun t => transform value t) (transformers m.modifiers) with
  | none => none
  | some vs => (seqMap (visitTerm ops fm (comparators m.modifiers) m.field) vs.flatten).map Criterion.any

/-- One value of a field matcher (compiler.go:234-247). -/
def visitValue (ops : Operations R) (fm : FieldMappings) (m : FieldMatcher) (value : Str) : Option (Criterion R) :=
  if transformers m.modifiers ≠ [] then visitTransformed ops fm m value
  else visitTerm ops fm (comparators m.modifiers) m.field value

/-- One field matcher (compiler.go:216-253). -/
def visitMatcher (ops : Operations R) (fm : FieldMappings) (m : FieldMatcher) : Option (Criterion R) :=
  (seqMap (visitValue ops fm m) m.values).map (fun vs => if allModifier m.modifiers then Criterion.all vs else Criterion.any vs)

/-- `visitSearch` (compiler.go:207-257). `none` is a panic. -/
def visitSearch (ops : Operations R) (fm : FieldMappings) (s : Search) : Option (Criterion R) :=
  if s.keywords ≠ [] then some .ff
  else (seqMap (visitMatcher ops fm) s.matchers.flatten).map Criterion.all

mutual
/-- `visitSearchExpression` (compiler.go:143-205). `searches` lists the map in the (arbitrary) order in
which Go iterates it; `glob` is `path.Match` (false on a malformed pattern). -/
def visitExpr (ops : Operations R) (fm : FieldMappings) (glob : Str → Str → Bool) (searches : GoMap Search) : SearchExpr → Option (Criterion R)
  | .ident n => match searches.get n with
    | some s => visitSearch ops fm s
    | none => some .ff
  | .and es => (visitExprs ops fm glob searches es).map Criterion.all
  | .or es => (visitExprs ops fm glob searches es).map Criterion.any
  | .not e => (visitExpr ops fm glob searches e).map Criterion.not
  | .oneOfThem => (seqMap (fun p => visitSearch ops fm p.2) searches).map Criterion.any
  | .oneOfPattern p => (seqMap (fun q => visitSearch ops fm q.2) (searches.filter (fun q => glob p q.1))).map Criterion.any
  | .allOfThem => (seqMap (fun p => visitSearch ops fm p.2) searches).map Criterion.all
  | .allOfPattern p => (seqMap (fun q => visitSearch ops fm q.2) (searches.filter (fun q => glob p q.1))).map Criterion.all
  | .other => some .ff
/-- The loops over `And` and `Or` (compiler.go:153-165). -/
def visitExprs (ops : Operations R) (fm : FieldMappings) (glob : Str → Str → Bool) (searches : GoMap Search) : List SearchExpr → Option (List (Criterion R))
  | [] => some []
  | e :: es => match visitExpr ops fm glob searches e with
    | none => none
    | some c => match visitExprs ops fm glob searches es with
      | none => none
      | some cs => some (c :: cs)
end

/-! ### Rules -/

/-- The fields of sigma-go `Rule` that are used. -/
structure SigmaRule where
  id : Str
  description : Str := []
  level : Str := []
  tags : List Str := []
  conditions : List SearchExpr := []
  searches : GoMap Search := []

/-- `getPriority` (compiler.go:127-141). -/
def getPriority (C : CaseLib) (level : Str) : Priority :=
  let l := C.lower level
  if l = "informational".toList then .informational
  else if l = "low".toList then .low
  else if l = "medium".toList then .medium
  else if l = "high".toList then .high
  else if l = "critical".toList then .critical
  else .informational

/-- One rule of the compiler (compiler.go:92-104); `getTags` is compiler.go:119-125. -/
def mkRule (C : CaseLib) (r : SigmaRule) (c : Criterion R) : Rule R where
  name := r.id
  desc := r.description
  condition := c
  actions := []
  tags := r.tags.map (fun t => [t])
  priority := getPriority C r.level
  prefilter := []
  enabled := true

/-- A rule file: unreadable, not parsable, or a rule (compiler.go:65-77). -/
inductive RuleFile where
  | unreadable
  | unparsable
  | ok (r : SigmaRule)

/-- The configuration file (compiler.go:79-89): no such regular file, unreadable, malformed or parsed. -/
inductive ConfigFile where
  | absent
  | unreadable
  | malformed
  | ok (fm : FieldMappings)

/-- The reading loop (compiler.go:65-77); `none` is the error return. -/
def readRules : List RuleFile → Option (List SigmaRule)
  | [] => some []
  | .unreadable :: _ => none
  | .unparsable :: fs => readRules fs
  | .ok r :: fs => (readRules fs).map (r :: ·)

/-- compiler.go:79-89. -/
def readConfig : ConfigFile → Option FieldMappings
  | .absent => some []
  | .unreadable => none
  | .malformed => none
  | .ok fm => some fm

/-- The conditions of one rule (compiler.go:91-106). -/
def compileRule (C : CaseLib) (ops : Operations R) (fm : FieldMappings) (glob : Str → Str → Bool) (r : SigmaRule) : Option (List (Rule R)) :=
  (seqMap (visitExpr ops fm glob r.searches) r.conditions).map (List.map (mkRule C r))

/-- `Compile` (compiler.go:63-117). Outer `none` is a panic, inner `none` an error. Filters are always
nil. -/
def compile (C : CaseLib) (ops : Operations R) (glob : Str → Str → Bool) (files : List RuleFile) (cfg : ConfigFile) :
    Option (Option (List (Rule R))) :=
  match readRules files with
  | none => some none
  | some rs => match readConfig cfg with
    | none => some none
    | some fm => (seqMap (compileRule C ops fm glob) rs).map (fun x => some x.flatten)

end Verif.Sigma
