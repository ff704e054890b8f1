import Verif.Falco.Model
import Mathlib.Logic.Relation
/-
What a Falco policy means, independently of how it is compiled.
-/
namespace Verif.Falco
open Verif.Decimal (Str)
open Verif.Policy

variable {R : Type u}

/-- The value of a list reference: a name that is not a list denotes itself, without bounding quotes; a
list denotes the concatenation of what its items denote, in order. -/
inductive Expands (lists : GoMap (List Str)) : Str → List Str → Prop
  | literal (s : Str) : lists.get s = none → Expands lists s [Strings.trimQuotes s]
  | list (s : Str) (items : List Str) (val : Str → List Str) : lists.get s = some items →
      (∀ i ∈ items, Expands lists i (val i)) → Expands lists s (items.flatMap val)

/-- What one argument of `in` or `pmatch` contributes. A bracketed list written in place contributes nothing. -/
def argVals (val : Str → List Str) : Arg → List Str
  | .atom a => val a
  | .items _ => []

/-- The values listed by the arguments of `in` and `pmatch`. -/
def ArgsDenote (lists : GoMap (List Str)) (args : List Arg) (vs : List Str) : Prop :=
  ∃ val : Str → List Str, (∀ a, Arg.atom a ∈ args → Expands lists a (val a)) ∧
    vs = args.flatMap (argVals val)

/-- Truth of a comparison written with a binary operator on a record. -/
def CmpHolds (ops : Operations R) (r : R) (l x : Str) : BinOp → Prop
  | .lt => (ops.compare l x .Lt).eval r = true
  | .le => (ops.compare l x .LEq).eval r = true
  | .gt => (ops.compare l x .Gt).eval r = true
  | .ge => (ops.compare l x .GEq).eval r = true
  | .eq => (ops.compare l x .Eq).eval r = true
  | .neq => ¬ (ops.compare l x .Eq).eval r = true
  | .contains => (ops.compare l x .Contains).eval r = true
  | .icontains => (ops.compare l x .IContains).eval r = true
  | .startswith => (ops.compare l x .Startswith).eval r = true
  | .endswith => (ops.compare l x .Endswith).eval r = true

mutual
/-- `TermVal ops env r t b`: under the definitions `env`, term `t` has truth value `b` on record `r`. -/
inductive TermVal (ops : Operations R) (env : Env) (r : R) : Term → Bool → Prop
  | mac (id : Str) (e : Expr) (b : Bool) : env.macros.get id = some e → ExprVal ops env r e b →
      TermVal ops env r (.ref id) b
  | undefined (id : Str) : env.macros.get id = none → TermVal ops env r (.ref id) false
  | not (t : Term) (b : Bool) : TermVal ops env r t b → TermVal ops env r (.not t) (!b)
  | exist (a : Str) (b : Bool) : (ops.exist a).eval r = b → TermVal ops env r (.exist a) b
  | cmp (op : BinOp) (l x : Str) (b : Bool) : (b = true ↔ CmpHolds ops r l x op) → TermVal ops env r (.binop op l x) b
  | isIn (l : Str) (args : List Arg) (vs : List Str) (b : Bool) : ArgsDenote env.lists args vs →
      (ops.foldAny l vs .Eq).eval r = b → TermVal ops env r (.inList l args) b
  | pmatch (l : Str) (args : List Arg) (vs : List Str) (b : Bool) : ArgsDenote env.lists args vs →
      (ops.foldAny l vs .Contains).eval r = b → TermVal ops env r (.pmatch l args) b
  | paren (e : Expr) (b : Bool) : ExprVal ops env r e b → TermVal ops env r (.paren e) b
/-- `ExprVal ops env r e b`: the disjunction of conjunctions `e` has truth value `b` on record `r`. -/
inductive ExprVal (ops : Operations R) (env : Env) (r : R) : Expr → Bool → Prop
  | holds (e : Expr) (c : List Term) : c ∈ e → (∀ t ∈ c, TermVal ops env r t true) → ExprVal ops env r e true
  | fails (e : Expr) (w : List Term → Term) : (∀ c ∈ e, w c ∈ c) → (∀ c ∈ e, TermVal ops env r (w c) false) →
      ExprVal ops env r e false
end

/-- A definition name: of a macro or of a list. -/
inductive Name where
  | mac (id : Str)
  | list (id : Str)

/-- The definitions a term mentions directly. -/
inductive Uses : Term → Name → Prop
  | var (id : Str) : Uses (.ref id) (.mac id)
  | not (t : Term) (x : Name) : Uses t x → Uses (.not t) x
  | isIn (l a : Str) (args : List Arg) : Arg.atom a ∈ args → Uses (.inList l args) (.list a)
  | pmatch (l a : Str) (args : List Arg) : Arg.atom a ∈ args → Uses (.pmatch l args) (.list a)
  | paren (e : Expr) (c : List Term) (t : Term) (x : Name) : c ∈ e → t ∈ c → Uses t x → Uses (.paren e) x

/-- The definitions a condition mentions directly. -/
def UsesE (e : Expr) (x : Name) : Prop := ∃ c ∈ e, ∃ t ∈ c, Uses t x

/-- `Dep env x y`: the definition of `x` mentions `y`. -/
inductive Dep (env : Env) : Name → Name → Prop
  | mac (id : Str) (e : Expr) (y : Name) : env.macros.get id = some e → UsesE e y → Dep env (.mac id) y
  | list (id : Str) (items : List Str) (i : Str) : env.lists.get id = some items → i ∈ items →
      Dep env (.list id) (.list i)

/-- The condition mentions, directly or through other definitions, a definition that mentions itself,
directly or through other definitions. -/
def Cyclic (env : Env) (e : Expr) : Prop :=
  ∃ x y, UsesE e x ∧ Relation.ReflTransGen (Dep env) x y ∧ Relation.TransGen (Dep env) y y

/-- Compilation of the condition returns `c`. -/
def Compiles (ops : Operations R) (env : Env) (e : Expr) (c : Criterion R) : Prop := ∃ n, visitExpr ops env n e = some c

end Verif.Falco
