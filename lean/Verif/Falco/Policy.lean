import Verif.Falco.Parser
import Verif.Falco.Layout
/-
The parser of policy files: declarations, their attributes and texts.
Sources: /repo/core/policyengine/policy/falco/lang/Sfpl.g4 (rules `policy`, `prule`, `pfilter`, `pmacro`, `plist`, `preq`, `text`, `items`, `actions`,
`tags`, `prefilter`, `severity`, `enabled`), lang/parser/sfpl_parser.go (Policy 501, Prule 1186, Pfilter 2048, Pmacro 2545, Plist 2720,
Preq 2863, Text 5155), compiler.go:132-184 (the texts the listeners take from the tree).
-/
namespace Verif.Falco
open Verif.Decimal (Str)

/-- The words that end a text (the predicate of rule `text`, sfpl_parser.go:5186-5196). -/
def textStops : List Str :=
  ["desc".toList, "condition".toList, "actions".toList, "output".toList, "priority".toList, "tags".toList, "prefilter".toList, "enabled".toList,
    "warn_evttypes".toList, "skip-if-unknown-filter".toList, "append".toList]

/-- Whether a token may be part of a text. -/
def isTextTok (t : LTok) : Bool := !(textStops.contains t.tok.text)

/-- `getOffChannelText` (compiler.go:179-184): the text from the first to the last token, with the hidden text between them. -/
def rawText : List LTok → Str
  | [] => []
  | t :: ts => t.tok.text ++ ts.flatMap (fun x => x.lead ++ x.tok.text)

/-- The visible tokens. -/
def toks (ts : List LTok) : List Token := ts.map (·.tok)

/-- An attribute of a rule (rule `prule`): the texts the compiler reads. `other` stands for `output`, `warn_evttypes` and
`skip-if-unknown-filter`, which are parsed and not used. -/
inductive Attr where
  | actions (s : Str)
  | priority (s : Str)
  | tags (s : Str)
  | prefilter (s : Str)
  | enabled (s : Str)
  | other
deriving DecidableEq, Repr

/-- The first actions of a list of attributes, and so on: `ctx.Actions(0)`, `ctx.Severity(0)`, `ctx.Tags(0)`, `ctx.Prefilter(0)`,
`ctx.Enabled(0)` (compiler.go:155-246). -/
def firstActions : List Attr → Option Str
  | [] => none
  | .actions s :: _ => some s
  | _ :: as => firstActions as
def firstPriority : List Attr → Option Str
  | [] => none
  | .priority s :: _ => some s
  | _ :: as => firstPriority as
def firstTags : List Attr → Option Str
  | [] => none
  | .tags s :: _ => some s
  | _ :: as => firstTags as
def firstPrefilter : List Attr → Option Str
  | [] => none
  | .prefilter s :: _ => some s
  | _ :: as => firstPrefilter as
def firstEnabled : List Attr → Option Str
  | [] => none
  | .enabled s :: _ => some s
  | _ :: as => firstEnabled as

/-- The rule declaration of a tree (compiler.go:155-168). -/
def ruleDecl (name desc : Str) (cond : Expr) (as : List Attr) : Decl :=
  .rule (RuleDecl.mk name desc cond (firstActions as) (firstTags as) (firstPriority as) (firstPrefilter as) (firstEnabled as))

/-! ### The parser -/

/-- `p.Match(k)`. -/
def expect (k : Tok) : List LTok → Option (List LTok)
  | t :: r => if t.tok.kind = k then some r else none
  | [] => none

/-- One token of a kind: its text. -/
def pTok (k : Tok) : List LTok → Option (Str × List LTok)
  | t :: r => if t.tok.kind = k then some (t.tok.text, r) else none
  | [] => none

/-- Rule `atom`. -/
def pAtomL : List LTok → Option (Str × List LTok)
  | t :: r => if isAtom t.tok.kind = true then some (t.tok.text, r) else none
  | [] => none

/-- Rule `text` (sfpl_parser.go:5155): as many tokens as possible that are not one of the words, at least one. -/
def pText (ts : List LTok) : Option (List LTok × List LTok) :=
  match ts.takeWhile isTextTok with
  | [] => none
  | t :: w => some (t :: w, ts.dropWhile isTextTok)

/-- Rule `expression` within a file. -/
def pCond (ts : List LTok) : Option (Expr × List LTok) :=
  match pExpr (3 * ts.length + 3) (toks ts) with
  | some (e, rest) => some (e, ts.drop (ts.length - rest.length))
  | none => none

/-- Rules `items`, `actions`, `tags`, `prefilter`: the text of the bracketed list. -/
def pBracket : List LTok → Option (Str × List LTok)
  | t :: r =>
    if t.tok.kind = .LBRACK then
      match pItems (toks r) with
      | some (w, rest) => some (textOf (t.tok :: w), r.drop (r.length - rest.length))
      | none => none
    else none
  | [] => none

/-- The attributes of a rule (sfpl_parser.go:1249-1390): the loop goes on while an attribute word follows. -/
def pAttrs : Nat → List LTok → Option (List Attr × List LTok)
  | 0, _ => none
  | _ + 1, [] => some ([], [])
  | n + 1, t :: r =>
    if t.tok.kind = .OUTPUT then
      (expect .DEF r).bind fun r => (pText r).bind fun x => (pAttrs n x.2).map fun y => (.other :: y.1, y.2)
    else if t.tok.kind = .ACTIONS then
      (expect .DEF r).bind fun r => (pBracket r).bind fun x => (pAttrs n x.2).map fun y => (.actions x.1 :: y.1, y.2)
    else if t.tok.kind = .PRIORITY then
      (expect .DEF r).bind fun r => (pTok .SEVERITY r).bind fun x => (pAttrs n x.2).map fun y => (.priority x.1 :: y.1, y.2)
    else if t.tok.kind = .TAGS then
      (expect .DEF r).bind fun r => (pBracket r).bind fun x => (pAttrs n x.2).map fun y => (.tags x.1 :: y.1, y.2)
    else if t.tok.kind = .PREFILTER then
      (expect .DEF r).bind fun r => (pBracket r).bind fun x => (pAttrs n x.2).map fun y => (.prefilter x.1 :: y.1, y.2)
    else if t.tok.kind = .ENABLED then
      (expect .DEF r).bind fun r => (pAtomL r).bind fun x => (pAttrs n x.2).map fun y => (.enabled x.1 :: y.1, y.2)
    else if t.tok.kind = .WARNEVTTYPE ∨ t.tok.kind = .SKIPUNKNOWN then
      (expect .DEF r).bind fun r => (pAtomL r).bind fun x => (pAttrs n x.2).map fun y => (.other :: y.1, y.2)
    else some ([], t :: r)

/-- Rule `prule` after `- rule` (sfpl_parser.go:1186). -/
def pRule (ts : List LTok) : Option (Decl × List LTok) :=
  (expect .DEF ts).bind fun r => (pText r).bind fun name => (expect .DESC name.2).bind fun r => (expect .DEF r).bind fun r =>
  (pText r).bind fun desc => (expect .COND desc.2).bind fun r => (expect .DEF r).bind fun r => (pCond r).bind fun cond =>
  (pAttrs (cond.2.length + 1) cond.2).map fun as => (ruleDecl (rawText name.1) (rawText desc.1) cond.1 as.1, as.2)

/-- `(k DEF atom)?` -/
def pOptAtom (k : Tok) : List LTok → Option (Option Str × List LTok)
  | t :: r => if t.tok.kind = k then (expect .DEF r).bind fun r => (pAtomL r).map fun x => (some x.1, x.2) else some (none, t :: r)
  | [] => some (none, [])

/-- Rule `pfilter` after `- drop` or `- filter` (sfpl_parser.go:2048). -/
def pFilter (ts : List LTok) : Option (Decl × List LTok) :=
  (expect .DEF ts).bind fun r => (pTok .ID r).bind fun id => (expect .COND id.2).bind fun r => (expect .DEF r).bind fun r =>
  (pCond r).bind fun cond => (pOptAtom .ENABLED cond.2).map fun en => (.filter { id := id.1, cond := cond.1, enabled := en.1 }, en.2)

/-- Rule `pmacro` after `- macro` (sfpl_parser.go:2545). -/
def pMacro (ts : List LTok) : Option (Decl × List LTok) :=
  (expect .DEF ts).bind fun r => (pTok .ID r).bind fun id => (expect .COND id.2).bind fun r => (expect .DEF r).bind fun r =>
  (pCond r).bind fun cond => (pOptAtom .FAPPEND cond.2).map fun ap => (.mac id.1 cond.1, ap.2)

/-- Rule `plist` after `- list` (sfpl_parser.go:2720). -/
def pListDecl (ts : List LTok) : Option (Decl × List LTok) :=
  (expect .DEF ts).bind fun r => (pTok .ID r).bind fun id => (expect .ITEMS id.2).bind fun r => (expect .DEF r).bind fun r =>
  (pBracket r).map fun x => (.list id.1 x.1, x.2)

/-- Rule `preq` after `- required_engine_version` (sfpl_parser.go:2863). -/
def pReq (ts : List LTok) : Option (Decl × List LTok) :=
  (expect .DEF ts).bind fun r => (pAtomL r).map fun x => (.req x.1, x.2)

/-- One declaration. -/
def pDecl : List LTok → Option (Decl × List LTok)
  | d :: k :: r =>
    if d.tok.kind = .DECL then
      if k.tok.kind = .RULE then pRule r
      else if k.tok.kind = .DROP ∨ k.tok.kind = .FILTER then pFilter r
      else if k.tok.kind = .MACRO then pMacro r
      else if k.tok.kind = .LIST then pListDecl r
      else if k.tok.kind = .REQ then pReq r
      else none
    else none
  | _ => none

/-- Declarations up to the end of the file, at most `n`. -/
def pDecls : Nat → List LTok → Option (List Decl)
  | _, [] => some []
  | 0, _ :: _ => none
  | n + 1, t :: ts => (pDecl (t :: ts)).bind fun x => (pDecls n x.2).map fun ds => x.1 :: ds

/-- Rule `policy` (sfpl_parser.go:501): at least one declaration. -/
def parsePolicy (ts : List LTok) : Option (List Decl) := if ts = [] then none else pDecls ts.length ts

/-- What `compile` (compiler.go:69-118) makes of the contents of a policy file. -/
def fileOf (str : Str → Option Nat) (s : Str) : File :=
  match parsePolicy (ltokens str s) with
  | some ds => .ok ds
  | none => .malformed

/-! ### The grammar -/

/-- `GAttrs w as o`: the tokens `w` are attributes `as`; `o` tells whether the last one is an output text. -/
inductive GAttrs : List LTok → List Attr → Bool → Prop where
  | nil : GAttrs [] [] false
  | output (k d : LTok) (w w' : List LTok) (as : List Attr) (o : Bool) : k.tok.kind = .OUTPUT → d.tok.kind = .DEF → w ≠ [] → (∀ t ∈ w, isTextTok t = true) →
      GAttrs w' as o → GAttrs (k :: d :: (w ++ w')) (.other :: as) (if w' = [] then true else o)
  | actions (k d : LTok) (w w' : List LTok) (as : List Attr) (o : Bool) : k.tok.kind = .ACTIONS → d.tok.kind = .DEF → GItems (toks w) →
      GAttrs w' as o → GAttrs (k :: d :: (w ++ w')) (.actions (textOf (toks w)) :: as) o
  | priority (k d s : LTok) (w' : List LTok) (as : List Attr) (o : Bool) : k.tok.kind = .PRIORITY → d.tok.kind = .DEF → s.tok.kind = .SEVERITY →
      GAttrs w' as o → GAttrs (k :: d :: s :: w') (.priority s.tok.text :: as) o
  | tags (k d : LTok) (w w' : List LTok) (as : List Attr) (o : Bool) : k.tok.kind = .TAGS → d.tok.kind = .DEF → GItems (toks w) →
      GAttrs w' as o → GAttrs (k :: d :: (w ++ w')) (.tags (textOf (toks w)) :: as) o
  | prefilter (k d : LTok) (w w' : List LTok) (as : List Attr) (o : Bool) : k.tok.kind = .PREFILTER → d.tok.kind = .DEF → GItems (toks w) →
      GAttrs w' as o → GAttrs (k :: d :: (w ++ w')) (.prefilter (textOf (toks w)) :: as) o
  | enabled (k d a : LTok) (w' : List LTok) (as : List Attr) (o : Bool) : k.tok.kind = .ENABLED → d.tok.kind = .DEF → isAtom a.tok.kind = true →
      GAttrs w' as o → GAttrs (k :: d :: a :: w') (.enabled a.tok.text :: as) o
  | other (k d a : LTok) (w' : List LTok) (as : List Attr) (o : Bool) : k.tok.kind = .WARNEVTTYPE ∨ k.tok.kind = .SKIPUNKNOWN → d.tok.kind = .DEF →
      isAtom a.tok.kind = true → GAttrs w' as o → GAttrs (k :: d :: a :: w') (.other :: as) o

/-- `(k DEF atom)?` -/
inductive GOpt (kw : Tok) : List LTok → Option Str → Prop where
  | none : GOpt kw [] none
  | some (k d a : LTok) : k.tok.kind = kw → d.tok.kind = .DEF → isAtom a.tok.kind = true → GOpt kw [k, d, a] (some a.tok.text)

/-- `GDecl w d o`: the tokens `w` are the declaration `d`; `o` tells whether it ends with an output text. -/
inductive GDecl : List LTok → Decl → Bool → Prop where
  | rule (m k d1 ds d2 cn d3 : LTok) (name desc cond attrs : List LTok) (e : Expr) (as : List Attr) (o : Bool) :
      m.tok.kind = .DECL → k.tok.kind = .RULE → d1.tok.kind = .DEF → name ≠ [] → (∀ t ∈ name, isTextTok t = true) → ds.tok.kind = .DESC → d2.tok.kind = .DEF →
      desc ≠ [] → (∀ t ∈ desc, isTextTok t = true) → cn.tok.kind = .COND → d3.tok.kind = .DEF → Der .expr (toks cond) e → GAttrs attrs as o →
      GDecl (m :: k :: d1 :: (name ++ ds :: d2 :: (desc ++ cn :: d3 :: (cond ++ attrs)))) (ruleDecl (rawText name) (rawText desc) e as) o
  | filter (m k d1 id cn d2 : LTok) (cond opt : List LTok) (e : Expr) (en : Option Str) :
      m.tok.kind = .DECL → k.tok.kind = .DROP ∨ k.tok.kind = .FILTER → d1.tok.kind = .DEF → id.tok.kind = .ID → cn.tok.kind = .COND → d2.tok.kind = .DEF →
      Der .expr (toks cond) e → GOpt .ENABLED opt en →
      GDecl (m :: k :: d1 :: id :: cn :: d2 :: (cond ++ opt)) (.filter { id := id.tok.text, cond := e, enabled := en }) false
  | mac (m k d1 id cn d2 : LTok) (cond opt : List LTok) (e : Expr) (ap : Option Str) :
      m.tok.kind = .DECL → k.tok.kind = .MACRO → d1.tok.kind = .DEF → id.tok.kind = .ID → cn.tok.kind = .COND → d2.tok.kind = .DEF →
      Der .expr (toks cond) e → GOpt .FAPPEND opt ap →
      GDecl (m :: k :: d1 :: id :: cn :: d2 :: (cond ++ opt)) (.mac id.tok.text e) false
  | list (m k d1 id it d2 : LTok) (items : List LTok) :
      m.tok.kind = .DECL → k.tok.kind = .LIST → d1.tok.kind = .DEF → id.tok.kind = .ID → it.tok.kind = .ITEMS → d2.tok.kind = .DEF →
      GItems (toks items) → GDecl (m :: k :: d1 :: id :: it :: d2 :: items) (.list id.tok.text (textOf (toks items))) false
  | req (m k d1 a : LTok) : m.tok.kind = .DECL → k.tok.kind = .REQ → d1.tok.kind = .DEF → isAtom a.tok.kind = true →
      GDecl [m, k, d1, a] (.req a.tok.text) false

/-- `GPolicy w ds`: the tokens `w` are the declarations `ds`; only the last declaration ends with an output text. -/
inductive GPolicy : List LTok → List Decl → Prop where
  | last (w : List LTok) (d : Decl) (o : Bool) : GDecl w d o → GPolicy w [d]
  | cons (w w' : List LTok) (d : Decl) (ds : List Decl) : GDecl w d false → GPolicy w' ds → GPolicy (w ++ w') (d :: ds)

end Verif.Falco
