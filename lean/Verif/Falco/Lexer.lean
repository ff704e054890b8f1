import Verif.Falco.Regex
/-
The lexer of the Falco policy language.
Sources: /repo/core/policyengine/policy/falco/lang/Sfpl.g4 (lexer rules), lang/parser/sfpl_lexer.go (generated from it:
rule order in lexerRuleNames, lines 364-374), compiler.go:80-86 (token stream on the default channel).
-/
namespace Verif.Falco
open Verif.Decimal (Str)

/-- Token types, in the order of the lexer rules (sfpl_lexer.go:354-362). -/
inductive Tok where
  | RULE | FILTER | DROP | MACRO | LIST | NAME | ITEMS | COND | DESC | ACTIONS | OUTPUT | PRIORITY | TAGS | PREFILTER | ENABLED
  | WARNEVTTYPE | SKIPUNKNOWN | FAPPEND | REQ
  | AND | OR | NOT | LT | LE | GT | GE | EQ | NEQ | IN | CONTAINS | ICONTAINS | STARTSWITH | ENDSWITH | PMATCH | EXISTS
  | LBRACK | RBRACK | LPAREN | RPAREN | LISTSEP | DECL | DEF
  | SEVERITY | SFSEVERITY | FSEVERITY | ID | NUMBER | PATH | STRING | TAG | WS | NL | COMMENT | ANY
deriving DecidableEq, Repr

/-- A token: its type and its text. -/
structure Token where
  kind : Tok
  text : Str
deriving DecidableEq, Repr

/-! ### Rules written as regular expressions -/

def letters : List (Char × Char) := [('a', 'z'), ('A', 'Z')]
def digits : List (Char × Char) := [('0', '9')]

/-- A letter in either case (fragments `A` ... `Z`). -/
def anyCase (c : Char) : Re := .set false [(c, c), (c.toUpper, c.toUpper)]

/-- A word in any mixture of cases. -/
def anyCaseWord : Str → Re
  | [] => .eps
  | c :: cs => .seq (anyCase c) (anyCaseWord cs)

/-- The severities of the rules `SFSEVERITY` and `FSEVERITY`. -/
def sfSeverities : List Str := ["high".toList, "medium".toList, "low".toList]
def fSeverities : List Str :=
  ["emergency".toList, "alert".toList, "critical".toList, "error".toList, "warning".toList, "notice".toList, "info".toList,
    "informational".toList, "debug".toList]

/-- Rule `SFSEVERITY`. -/
def reSf : Re := Re.alts (sfSeverities.map anyCaseWord)
/-- Rule `FSEVERITY`. -/
def reF : Re := Re.alts (fSeverities.map anyCaseWord)
/-- Rule `SEVERITY`. -/
def reSev : Re := .alt reSf reF

/-- Rule `NUMBER`. -/
def reNumber : Re := .seq (.plus (.set false digits)) (.opt (.seq (.ch '.') (.plus (.set false digits))))

/-- Rule `PATH`. -/
def rePath : Re :=
  .seq (.set false (letters ++ digits ++ [('/', '/'), ('.', '.')]))
    (.star (.set false (letters ++ digits ++ [('_', '_'), ('-', '-'), ('.', '.'), ('/', '/'), ('*', '*')])))

/-- The index part of an identifier, `':'? '[' (NUMBER|PATH) (':' PATH)* ']'`. -/
def reIndex : Re :=
  .seq (.opt (.ch ':')) (.seq (.ch '[') (.seq (.alt reNumber rePath) (.seq (.star (.seq (.ch ':') rePath)) (.ch ']'))))

/-- Rule `ID`. -/
def reId : Re :=
  .seq (.set false (letters ++ digits ++ [('_', '_')]))
    (.star (.alt (.set false (letters ++ digits ++ [('_', '_'), ('-', '-'), ('.', '.'), ('*', '*')])) reIndex))

/-- Rule `TAG`. -/
def reTag : Re := .seq reId (.seq (.ch ':') reId)

/-- Rule `DEF`. -/
def reDef : Re := .seq (.ch ':') (.opt (.seq (.star (.ch ' ')) (.ch '>')))

/-- Rule `WS`. -/
def reWs : Re := .plus (.set false [(' ', ' '), ('\t', '\t'), ('\r', '\r'), ('\n', '\n'), ('\x0c', '\x0c')])
/-- Rule `NL`. -/
def reNl : Re := .seq (.opt (.ch '\r')) (.ch '\n')
/-- Rule `COMMENT`. -/
def reComment : Re := .seq (.ch '#') (.star (.set true [('\r', '\r'), ('\n', '\n')]))
/-- Rule `ANY`. -/
def reAny : Re := .set true []

/-- The rules that are one fixed text (sfpl_lexer.go:344-352), in order. -/
def fixedTexts : List (Tok × Str) :=
  [(.RULE, "rule".toList), (.FILTER, "filter".toList), (.DROP, "drop".toList), (.MACRO, "macro".toList), (.LIST, "list".toList),
    (.NAME, "name".toList), (.ITEMS, "items".toList), (.COND, "condition".toList), (.DESC, "desc".toList),
    (.ACTIONS, "actions".toList), (.OUTPUT, "output".toList), (.PRIORITY, "priority".toList), (.TAGS, "tags".toList),
    (.PREFILTER, "prefilter".toList), (.ENABLED, "enabled".toList), (.WARNEVTTYPE, "warn_evttypes".toList),
    (.SKIPUNKNOWN, "skip-if-unknown-filter".toList), (.FAPPEND, "append".toList), (.REQ, "required_engine_version".toList),
    (.AND, "and".toList), (.OR, "or".toList), (.NOT, "not".toList), (.LT, "<".toList), (.LE, "<=".toList), (.GT, ">".toList),
    (.GE, ">=".toList), (.EQ, "=".toList), (.NEQ, "!=".toList), (.IN, "in".toList), (.CONTAINS, "contains".toList),
    (.ICONTAINS, "icontains".toList), (.STARTSWITH, "startswith".toList), (.ENDSWITH, "endswith".toList),
    (.PMATCH, "pmatch".toList), (.EXISTS, "exists".toList), (.LBRACK, "[".toList), (.RBRACK, "]".toList), (.LPAREN, "(".toList),
    (.RPAREN, ")".toList), (.LISTSEP, ",".toList), (.DECL, "-".toList)]

/-- The rules between the fixed texts and `STRING`, in order. -/
def rulesA : List (Tok × Re) :=
  fixedTexts.map (fun x => (x.1, Re.lit x.2)) ++
    [(.DEF, reDef), (.SEVERITY, reSev), (.SFSEVERITY, reSf), (.FSEVERITY, reF), (.ID, reId), (.NUMBER, reNumber), (.PATH, rePath)]

/-- The rules after `STRING`, in order. -/
def rulesB : List (Tok × Re) := [(.TAG, reTag), (.WS, reWs), (.NL, reNl), (.COMMENT, reComment), (.ANY, reAny)]

/-! ### The lexer -/

/-- Among the rules' matches: the longest, and among equally long ones the rule that comes first. -/
def best : List (Tok × Option Nat) → Option (Tok × Nat)
  | [] => none
  | (_, none) :: rest => best rest
  | (k, some n) :: rest =>
    match best rest with
    | some (k', n') => if n < n' then some (k', n') else some (k, n)
    | none => some (k, n)

/-- What each rule matches at the beginning of `s`. `str` is the length matched by the rule `STRING`: that rule is recursive
and has a non-greedy body, so it is not a regular expression; it is a parameter of the model. -/
def matches' (str : Str → Option Nat) (s : Str) : List (Tok × Option Nat) :=
  rulesA.map (fun r => (r.1, r.2.longest s)) ++ (.STRING, str s) :: rulesB.map (fun r => (r.1, r.2.longest s))

/-- The next token's type and length. -/
def nextTok (str : Str → Option Nat) (s : Str) : Option (Tok × Nat) := best (matches' str s)

/-- The lexer on at most `n` tokens. -/
def lexN (str : Str → Option Nat) : Nat → Str → List Token
  | 0, _ => []
  | n + 1, s =>
    match s with
    | [] => []
    | _ :: _ =>
      match nextTok str s with
      | none => []
      | some (k, l) => ⟨k, s.take l⟩ :: lexN str n (s.drop l)

/-- The tokens of a text (a token has at least one character). -/
def lex (str : Str → Option Nat) (s : Str) : List Token := lexN str s.length s

/-- Whether a token is on the hidden channel (`-> channel(HIDDEN)`). -/
def Token.hidden (t : Token) : Bool :=
  match t.kind with
  | .WS => true
  | .NL => true
  | .COMMENT => true
  | _ => false

/-- What the parser sees (compiler.go:85). -/
def tokens (str : Str → Option Nat) (s : Str) : List Token := (lex str s).filter (fun t => !t.hidden)

/-- What is assumed of the rule `STRING`: a match starts with a quote or a backslash and lies within the text; and a text
between two equal quotes that is not empty, does not start with a quote or backslash and contains neither that quote nor
a line end is matched up to its closing quote (the non-greedy body ends at the first closing quote; a nested string is
impossible because the body does not start with a quote). -/
structure StrRule (str : Str → Option Nat) : Prop where
  start : ∀ s n, str s = some n → 0 < n ∧ n ≤ s.length ∧ ∃ c s', s = c :: s' ∧ (c = '"' ∨ c = '\'' ∨ c = '\\')
  plain : ∀ q body rest, (q = '"' ∨ q = '\'') → body ≠ [] → q ∉ body → '\r' ∉ body → '\n' ∉ body →
    (∀ c cs, body = c :: cs → c ≠ '"' ∧ c ≠ '\'' ∧ c ≠ '\\') → str (q :: (body ++ q :: rest)) = some (body.length + 2)

/-- The simplest rule of this kind: a quoted text without the same quote and without line ends. -/
def simpleStr (s : Str) : Option Nat :=
  match s with
  | c :: s' =>
    if c = '"' then ((Re.seq (.star (.set true [('"', '"'), ('\r', '\r'), ('\n', '\n')])) (.ch '"')).longest s').map (· + 1)
    else if c = '\'' then ((Re.seq (.star (.set true [('\'', '\''), ('\r', '\r'), ('\n', '\n')])) (.ch '\'')).longest s').map (· + 1)
    else none
  | [] => none

end Verif.Falco
