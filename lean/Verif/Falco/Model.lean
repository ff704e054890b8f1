import Verif.Policy.Ops
import Verif.Base.SeqMap
/-
Model of the Falco policy compiler.
Sources: /repo/core/policyengine/policy/falco/compiler.go, lang/Sfpl.g4, constants.go

The model starts from the syntax tree (Lexer.lean, Parser.lean and Policy.lean model how a text becomes one), i.e. from the
declarations of a file in file order, with the texts of their tokens.
-/
namespace Verif.Falco
open Verif.Decimal (Str)
open Verif.Policy

/-- `binary_operator` (Sfpl.g4, rule `binary_operator`). -/
inductive BinOp where
  | lt | le | gt | ge | eq | neq | contains | icontains | startswith | endswith
deriving DecidableEq, Repr

/-- One element inside the parentheses of `in (...)` / `pmatch (...)`: `(atom|items)` in Sfpl.g4, rule `term`.
`items` carries the text of a bracketed list written in place. -/
inductive Arg where
  | atom (s : Str)
  | items (s : Str)
deriving DecidableEq, Repr

/-- `term` (Sfpl.g4, rule `term`); an `expression` is an `or_expression`, i.e. the list of its
`and_expression`s, each the list of its terms. -/
inductive Term where
  | ref (id : Str)
  | not (t : Term)
  | exist (a : Str)
  | binop (op : BinOp) (l r : Str)
  | inList (l : Str) (args : List Arg)
  | pmatch (l : Str) (args : List Arg)
  | paren (e : List (List Term))

/-- `expression` (Sfpl.g4, rules `expression`, `or_expression`, `and_expression`). -/
abbrev Expr := List (List Term)

/-- The accessory maps of the compiler (compiler.go:52-54). -/
structure Env where
  lists : GoMap (List Str) := []
  macros : GoMap Expr := []

/-- `reduceList` (compiler.go:285-295). The first argument bounds the depth of the recursion; `none`
means the bound was hit. The Go function has no bound: it returns `vs` exactly when `some vs` is
returned for some bound, and otherwise recurses forever (until the stack overflows). -/
def reduceList (lists : GoMap (List Str)) : Nat → Str → Option (List Str)
  | 0, _ => none
  | n + 1, sl => match lists.get sl with
    | some l => (seqMap (reduceList lists n) l).map List.flatten
    | none => some [Strings.trimQuotes sl]

/-- The atom texts of an argument list: `termCtx.AllAtom()[1:]` (compiler.go:360, 364). Bracketed items
written in place are not atoms and are not visited. -/
def atomTexts : List Arg → List Str
  | [] => []
  | .atom s :: rest => s :: atomTexts rest
  | .items _ :: rest => atomTexts rest

/-- `extractListFromAtoms` (compiler.go:277-283). -/
def extractListFromAtoms (lists : GoMap (List Str)) (n : Nat) (args : List Arg) : Option (List Str) :=
  (seqMap (reduceList lists n) (atomTexts args)).map List.flatten

variable {R : Type u}

/-- The comparison chosen for a binary operator (compiler.go:334-354). -/
def binCriterion (ops : Operations R) (l r : Str) : BinOp → Criterion R
  | .contains => ops.compare l r .Contains
  | .icontains => ops.compare l r .IContains
  | .startswith => ops.compare l r .Startswith
  | .endswith => ops.compare l r .Endswith
  | .eq => ops.compare l r .Eq
  | .neq => (ops.compare l r .Eq).not
  | .gt => ops.compare l r .Gt
  | .ge => ops.compare l r .GEq
  | .lt => ops.compare l r .Lt
  | .le => ops.compare l r .LEq

/-- The loops of `visitExpression` (compiler.go:297-314), given the visit of a term. -/
def visitExprWith (vt : Term → Option (Criterion R)) (e : Expr) : Option (Criterion R) :=
  (seqMap (fun c => (seqMap vt c).map Criterion.all) e).map Criterion.any

/-- `visitTerm` (compiler.go:316-370), with a bound on the depth of the recursion as in `reduceList`. -/
def visitTerm (ops : Operations R) (env : Env) : Nat → Term → Option (Criterion R)
  | 0, _ => none
  | n + 1, .ref id => match env.macros.get id with
    | some m => visitExprWith (visitTerm ops env n) m
    | none => some .ff
  | n + 1, .not t => (visitTerm ops env n t).map Criterion.not
  | _ + 1, .exist a => some (ops.exist a)
  | _ + 1, .binop op l r => some (binCriterion ops l r op)
  | n + 1, .paren e => visitExprWith (visitTerm ops env n) e
  | n + 1, .inList l args => (extractListFromAtoms env.lists n args).map (fun vs => ops.foldAny l vs .Eq)
  | n + 1, .pmatch l args => (extractListFromAtoms env.lists n args).map (fun vs => ops.foldAny l vs .Contains)

/-- `visitExpression` (compiler.go:297-314). -/
def visitExpr (ops : Operations R) (env : Env) (n : Nat) (e : Expr) : Option (Criterion R) :=
  visitExprWith (visitTerm ops env n) e

/-! ### Attributes -/

/-- Split at the last occurrence of a character. -/
def splitLast (c : Char) : Str → Option (Str × Str)
  | [] => none
  | x :: xs => match splitLast c xs with
    | some (a, b) => some (x :: a, b)
    | none => if x = c then some ([], xs) else none

/-- `itemsre.ReplaceAllString(str, "$2")` with `itemsre = (^\[)(.*)(\]$?)` (compiler.go:39, 250): the text
from a leading bracket to the last closing bracket is replaced by what is between them. Simplification:
`.` does not match a newline in Go; the texts passed here are concatenated tokens, which contain none. -/
def stripBrackets : Str → Str
  | '[' :: rest => match splitLast ']' rest with
    | some (inner, after) => inner ++ after
    | none => '[' :: rest
  | s => s

/-- `extractList` (compiler.go:248-254). -/
def extractList (s : Str) : List Str := (Strings.split ',' (stripBrackets s)).map Strings.trimQuotes

/-- `strconv.ParseBool`: accepted spellings; `none` is the error. -/
def parseBool (s : Str) : Option Bool :=
  if s ∈ ["1".toList, "t".toList, "T".toList, "true".toList, "TRUE".toList, "True".toList] then some true
  else if s ∈ ["0".toList, "f".toList, "F".toList, "false".toList, "FALSE".toList, "False".toList] then some false
  else none

/-- `getEnabledFlag` (compiler.go:170-177). -/
def getEnabledFlag (s : Str) : Bool := (parseBool (Strings.trimQuotes s)).getD true

/-- `ctx.ENABLED() == nil || pc.getEnabledFlag(ctx.Enabled())` (compiler.go:149, 165). -/
def enabledOf : Option Str → Bool
  | none => true
  | some s => getEnabledFlag s

/-- `strings.ToLower` on the text of a `SEVERITY` token, which has only ASCII letters. -/
def asciiLower (s : Str) : Str := s.map Char.toLower

/-- The switch of `getPriority` (compiler.go:209-234); policy/types.go:39-41 and constants.go for the
names. -/
def priorityOfText (p : Str) : Priority :=
  if p = "low".toList then .low
  else if p = "medium".toList then .medium
  else if p = "high".toList then .high
  else if p = "debug".toList then .low
  else if p = "info".toList then .low
  else if p = "informational".toList then .low
  else if p = "notice".toList then .low
  else if p = "warning".toList then .medium
  else if p = "error".toList then .high
  else if p = "critical".toList then .high
  else if p = "emergency".toList then .high
  else .low

/-- `getPriority` (compiler.go:205-237). -/
def getPriority : Option Str → Priority
  | none => .low
  | some p => priorityOfText (asciiLower p)

/-! ### Declarations and files -/

/-- `prule` (Sfpl.g4, rule `prule`): the texts of the first occurrence of each optional attribute. -/
structure RuleDecl where
  name : Str
  desc : Str
  cond : Expr
  actions : Option Str := none
  tags : Option Str := none
  severity : Option Str := none
  prefilter : Option Str := none
  enabled : Option Str := none

/-- `pfilter` (Sfpl.g4, rule `pfilter`). -/
structure FilterDecl where
  id : Str
  cond : Expr
  enabled : Option Str := none

/-- The declarations of a policy file (Sfpl.g4, rule `policy`). `macro`'s `append` flag is parsed and
ignored by the compiler. -/
inductive Decl where
  | rule (d : RuleDecl)
  | filter (d : FilterDecl)
  | mac (id : Str) (cond : Expr)
  | list (id : Str) (items : Str)
  | req (version : Str)

/-- A policy file as the compiler sees it: unreadable (`NewFileStream` fails), syntactically wrong (the
error listeners collected something), or its declarations in file order. Simplification: for a wrong
file ANTLR's error recovery also produces a partial tree that is walked before the error is returned;
the rules it would add are discarded with the error. -/
inductive File where
  | unreadable
  | malformed
  | ok (decls : List Decl)

/-- The state of `PolicyCompiler` (compiler.go:42-55). -/
structure State (R : Type u) where
  env : Env := {}
  rules : List (Rule R) := []
  filters : List (Filter R) := []

/-- `ExitPlist` and `ExitPmacro` (compiler.go:132-141), the only listeners that fire in the first pass
(compiler.go:91; `srule` and `sfilter` have no listener). -/
def define (env : Env) : Decl → Env
  | .mac id e => { env with macros := env.macros.set id e }
  | .list id items => { env with lists := env.lists.set id (extractList items) }
  | _ => env

/-- The rule built by `ExitPrule` (compiler.go:155-168) from its declaration and compiled condition. -/
def mkRule (d : RuleDecl) (c : Criterion R) : Rule R where
  name := d.name
  desc := d.desc
  condition := c
  actions := match d.actions with
    | none => []
    | some s => extractList s
  tags := match d.tags with
    | none => []
    | some s => [extractList s]
  priority := getPriority d.severity
  prefilter := match d.prefilter with
    | none => []
    | some s => extractList s
  enabled := enabledOf d.enabled

/-- The filter built by `ExitPfilter` (compiler.go:144-152). -/
def mkFilter (d : FilterDecl) (c : Criterion R) : Filter R where
  name := d.id
  condition := c
  enabled := enabledOf d.enabled

/-- One declaration of the second pass (compiler.go:132-168). -/
def exitDecl (ops : Operations R) (n : Nat) (s : State R) : Decl → Option (State R)
  | .rule d => (visitExpr ops s.env n d.cond).map (fun c => { s with rules := s.rules ++ [mkRule d c] })
  | .filter d => (visitExpr ops s.env n d.cond).map (fun c => { s with filters := s.filters ++ [mkFilter d c] })
  | d => some { s with env := define s.env d }

/-- The second pass over the declarations of a file (compiler.go:95). -/
def exitDecls (ops : Operations R) (n : Nat) : State R → List Decl → Option (State R)
  | s, [] => some s
  | s, d :: ds => match exitDecl ops n s d with
    | none => none
    | some s' => exitDecls ops n s' ds

/-- `compile` on a readable, well-formed file (compiler.go:69-118): first pass, then second. -/
def compileDecls (ops : Operations R) (n : Nat) (s : State R) (ds : List Decl) : Option (State R) :=
  exitDecls ops n { s with env := ds.foldl define s.env } ds

/-- The loop of `Compile` (compiler.go:121-129). Outer `none`: recursion bound hit. Inner `none`: an error
is returned and no rules or filters. -/
def compileFiles (ops : Operations R) (n : Nat) : State R → List File → Option (Option (State R))
  | s, [] => some (some s)
  | s, .ok ds :: fs => match compileDecls ops n s ds with
    | none => none
    | some s' => compileFiles ops n s' fs
  | _, _ :: _ => some none

/-- `Compile` (compiler.go:121-129) on a fresh compiler (compiler.go:57-65; policyengine.go:189 creates one
per compilation). -/
def compile (ops : Operations R) (n : Nat) (files : List File) : Option (Option (List (Rule R) × List (Filter R))) :=
  (compileFiles ops n {} files).map (Option.map (fun s => (s.rules, s.filters)))

end Verif.Falco
