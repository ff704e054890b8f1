import Verif.Falco.Lexer
import Verif.Falco.Model
/-
The parser of Falco conditions: the grammar as a derivation relation, and a recursive-descent parser for it.
Sources: /repo/core/policyengine/policy/falco/lang/Sfpl.g4 (rules `expression` ... `binary_operator`),
lang/parser/sfpl_parser.go (generated: Expression 2982, Or_expression 3110, And_expression 3257, Term 3497, Items 3770,
Atom 5051, Binary_operator 5322).
-/
namespace Verif.Falco
open Verif.Decimal (Str)

/-- Rule `atom` (sfpl_parser.go:5051): one token of these types. -/
def isAtom : Tok → Bool
  | .ID => true
  | .PATH => true
  | .NUMBER => true
  | .TAG => true
  | .STRING => true
  | .LT => true
  | .GT => true
  | _ => false

/-- Rule `binary_operator` (sfpl_parser.go:5322). -/
def binOp : Tok → Option BinOp
  | .LT => some .lt
  | .LE => some .le
  | .GT => some .gt
  | .GE => some .ge
  | .EQ => some .eq
  | .NEQ => some .neq
  | .CONTAINS => some .contains
  | .ICONTAINS => some .icontains
  | .STARTSWITH => some .startswith
  | .ENDSWITH => some .endswith
  | _ => none

/-- The text of a sequence of tokens, `ctx.GetText()`. -/
def textOf (ts : List Token) : Str := ts.flatMap (·.text)

/-! ### The grammar -/

/-- `atom (LISTSEP atom)*`. -/
inductive GSeq : List Token → Prop where
  | one (a : Token) : isAtom a.kind = true → GSeq [a]
  | cons (a c : Token) (w : List Token) : isAtom a.kind = true → c.kind = .LISTSEP → GSeq w → GSeq (a :: c :: w)

/-- Rule `items`: `LBRACK (atom (LISTSEP atom)*)? (LISTSEP)? RBRACK` (also rules `actions`, `tags`, `prefilter`). -/
inductive GItems : List Token → Prop where
  | empty (l r : Token) : l.kind = .LBRACK → r.kind = .RBRACK → GItems [l, r]
  | sep (l c r : Token) : l.kind = .LBRACK → c.kind = .LISTSEP → r.kind = .RBRACK → GItems [l, c, r]
  | seq (l r : Token) (w : List Token) : l.kind = .LBRACK → GSeq w → r.kind = .RBRACK → GItems (l :: (w ++ [r]))
  | seqSep (l c r : Token) (w : List Token) : l.kind = .LBRACK → GSeq w → c.kind = .LISTSEP → r.kind = .RBRACK → GItems (l :: (w ++ [c, r]))

/-- `(atom|items)`. -/
inductive GArg : List Token → Arg → Prop where
  | atom (a : Token) : isAtom a.kind = true → GArg [a] (.atom a.text)
  | items (w : List Token) : GItems w → GArg w (.items (textOf w))

/-- `(atom|items) (LISTSEP (atom|items))*`. -/
inductive GArgs : List Token → List Arg → Prop where
  | one (w : List Token) (a : Arg) : GArg w a → GArgs w [a]
  | cons (w : List Token) (a : Arg) (c : Token) (w' : List Token) (as : List Arg) : GArg w a → c.kind = .LISTSEP → GArgs w' as →
      GArgs (w ++ c :: w') (a :: as)

/-- The non-terminals `term`, `and_expression`, and `or_expression` (`expression` is the same). -/
inductive Nt where
  | term | conj | expr

/-- Their syntax trees. -/
abbrev Nt.T : Nt → Type
  | .term => Term
  | .conj => List Term
  | .expr => List (List Term)

/-- Derivations of the grammar: `Der nt w t` if the tokens `w` form a `nt` with syntax tree `t`. -/
inductive Der : (nt : Nt) → List Token → nt.T → Prop where
  | ref (a : Token) : a.kind = .ID → Der .term [a] (Term.ref a.text)
  | not (n : Token) (w : List Token) (t : Term) : n.kind = .NOT → Der .term w t → Der .term (n :: w) (Term.not t)
  | exist (a o : Token) : isAtom a.kind = true → o.kind = .EXISTS → Der .term [a, o] (Term.exist a.text)
  | binop (a o b : Token) (op : BinOp) : isAtom a.kind = true → binOp o.kind = some op → isAtom b.kind = true →
      Der .term [a, o, b] (Term.binop op a.text b.text)
  | inList (a o l r : Token) (w : List Token) (args : List Arg) : isAtom a.kind = true → o.kind = .IN → l.kind = .LPAREN → GArgs w args →
      r.kind = .RPAREN → Der .term (a :: o :: l :: (w ++ [r])) (Term.inList a.text args)
  | pmatch (a o l r : Token) (w : List Token) (args : List Arg) : isAtom a.kind = true → o.kind = .PMATCH → l.kind = .LPAREN → GArgs w args →
      r.kind = .RPAREN → Der .term (a :: o :: l :: (w ++ [r])) (Term.pmatch a.text args)
  | paren (l r : Token) (w : List Token) (e : List (List Term)) : l.kind = .LPAREN → Der .expr w e → r.kind = .RPAREN →
      Der .term (l :: (w ++ [r])) (Term.paren e)
  | conjOne (w : List Token) (t : Term) : Der .term w t → Der .conj w [t]
  | conjMore (w w' : List Token) (o : Token) (t : Term) (ts : List Term) : Der .term w t → o.kind = .AND → Der .conj w' ts →
      Der .conj (w ++ o :: w') (t :: ts)
  | exprOne (w : List Token) (c : List Term) : Der .conj w c → Der .expr w [c]
  | exprMore (w w' : List Token) (o : Token) (c : List Term) (cs : List (List Term)) : Der .conj w c → o.kind = .OR → Der .expr w' cs →
      Der .expr (w ++ o :: w') (c :: cs)

/-! ### The parser -/

/-- `(LISTSEP atom)*`: the tokens read and the rest. -/
def pMore : List Token → List Token × List Token
  | c :: a :: r => if c.kind = .LISTSEP ∧ isAtom a.kind = true then (c :: a :: (pMore r).1, (pMore r).2) else ([], c :: a :: r)
  | ts => ([], ts)

/-- `(LISTSEP)? RBRACK`. -/
def pClose : List Token → Option (List Token × List Token)
  | [] => none
  | [a] => if a.kind = .RBRACK then some ([a], []) else none
  | a :: b :: r =>
    if a.kind = .RBRACK then some ([a], b :: r)
    else if a.kind = .LISTSEP ∧ b.kind = .RBRACK then some ([a, b], r) else none

/-- Rule `items` (sfpl_parser.go:3770) after its opening bracket: the tokens read and the rest. -/
def pItems : List Token → Option (List Token × List Token)
  | a :: r =>
    if isAtom a.kind = true then (pClose (pMore r).2).map (fun x => (a :: ((pMore r).1 ++ x.1), x.2))
    else pClose (a :: r)
  | [] => none

/-- `(atom|items)` (sfpl_parser.go, Term, case 5). -/
def pArg : List Token → Option (Arg × List Token)
  | a :: r =>
    if isAtom a.kind = true then some (.atom a.text, r)
    else if a.kind = .LBRACK then (pItems r).map (fun x => (.items (textOf (a :: x.1)), x.2))
    else none
  | [] => none

/-- `(atom|items) (LISTSEP (atom|items))* RPAREN`, on at most `n` elements. -/
def pArgs : Nat → List Token → Option (List Arg × List Token)
  | 0, _ => none
  | n + 1, ts =>
    match pArg ts with
    | some (a, c :: r) =>
      if c.kind = .LISTSEP then (pArgs n r).map (fun x => (a :: x.1, x.2))
      else if c.kind = .RPAREN then some ([a], r)
      else none
    | _ => none

/-- Whether a token can continue an atom to a comparison. -/
def isOp (k : Tok) : Bool := (binOp k).isSome || k = .EXISTS || k = .IN || k = .PMATCH

/-- `LPAREN (atom|items) (LISTSEP (atom|items))* RPAREN`. -/
def pList (n : Nat) : List Token → Option (List Arg × List Token)
  | l :: r => if l.kind = .LPAREN then pArgs n r else none
  | [] => none

/-- An atom. -/
def pAtom : List Token → Option (Str × List Token)
  | b :: r => if isAtom b.kind = true then some (b.text, r) else none
  | [] => none

/-- A term that starts with the atom `a` (sfpl_parser.go, Term, cases 1, 3, 4, 5), with `n` bounding the arguments. -/
def pAtomic (n : Nat) (a : Token) : List Token → Option (Term × List Token)
  | [] => if a.kind = .ID then some (.ref a.text, []) else none
  | o :: r =>
    if o.kind = .EXISTS then some (.exist a.text, r)
    else if o.kind = .IN then (pList n r).map (fun x => (.inList a.text x.1, x.2))
    else if o.kind = .PMATCH then (pList n r).map (fun x => (.pmatch a.text x.1, x.2))
    else
      match binOp o.kind with
      | some op => (pAtom r).map (fun x => (.binop op a.text x.1, x.2))
      | none => if a.kind = .ID then some (.ref a.text, o :: r) else none

mutual
/-- Rule `term` (sfpl_parser.go:3497); the number bounds the depth of the recursion. -/
def pTerm : Nat → List Token → Option (Term × List Token)
  | 0, _ => none
  | _ + 1, [] => none
  | n + 1, a :: r =>
    if a.kind = .NOT then (pTerm n r).map (fun x => (.not x.1, x.2))
    else if a.kind = .LPAREN then
      match pExpr n r with
      | some (e, c :: r') => if c.kind = .RPAREN then some (.paren e, r') else none
      | _ => none
    else if isAtom a.kind = true then pAtomic n a r
    else none
/-- Rule `and_expression` (sfpl_parser.go:3257). -/
def pConj : Nat → List Token → Option (List Term × List Token)
  | 0, _ => none
  | n + 1, ts =>
    match pTerm n ts with
    | some (t, o :: r) => if o.kind = .AND then (pConj n r).map (fun x => (t :: x.1, x.2)) else some ([t], o :: r)
    | some (t, []) => some ([t], [])
    | none => none
/-- Rules `expression` and `or_expression` (sfpl_parser.go:2982, 3110). -/
def pExpr : Nat → List Token → Option (List (List Term) × List Token)
  | 0, _ => none
  | n + 1, ts =>
    match pConj n ts with
    | some (c, o :: r) => if o.kind = .OR then (pExpr n r).map (fun x => (c :: x.1, x.2)) else some ([c], o :: r)
    | some (c, []) => some ([c], [])
    | none => none
end

/-- Parse a whole condition. -/
def parse (ts : List Token) : Option (List (List Term)) :=
  match pExpr (3 * ts.length + 3) ts with
  | some (e, []) => some e
  | _ => none

end Verif.Falco
