import Verif.Falco.Lemmas
import Verif.FlatRecord.Resolve
/-
C22-C26: the meaning of Falco policies.
-/
namespace Verif.Falco
open Verif.Decimal (Str)
open Verif.Policy
open Verif.FlatRecord

variable {R : Type u}

/-! ## C22: condition semantics -/

/-- C22: whatever the definitions, if compilation of a condition returns, the criterion evaluates on
every record to the truth value of the condition's text, and the text has no other value. -/
theorem falco_condition_meaning (ops : Operations R) (env : Env) (e : Expr) (c : Criterion R)
    (h : Compiles ops env e c) (r : R) (b : Bool) : ExprVal ops env r e b ↔ c.eval r = b := by
  obtain ⟨n, hn⟩ := h
  exact exprVal_of_visit ops env r _ e c (termVal_of_visit ops env r n) hn b

/-- C22: the compiled condition uses only the source's operations and Boolean connectives. -/
theorem falco_built (ops : Operations R) (env : Env) (e : Expr) (c : Criterion R) (h : Compiles ops env e c) : Built ops c := by
  obtain ⟨n, hn⟩ := h
  have hexpr : ∀ (vt : Term → Option (Criterion R)), (∀ t d, vt t = some d → Built ops d) → ∀ e c,
      visitExprWith vt e = some c → Built ops c := by
    intro vt hvt e c h
    unfold visitExprWith at h
    rw [Option.map_eq_some_iff] at h
    obtain ⟨bs, h1, rfl⟩ := h
    refine Built.any _ ?_
    intro d hd
    rw [(seqMap_some _ _ _ h1).1] at hd
    obtain ⟨cl, _, hcl⟩ := List.mem_filterMap.1 hd
    rw [Option.map_eq_some_iff] at hcl
    obtain ⟨ts, hts, rfl⟩ := hcl
    refine Built.all _ ?_
    intro x hx
    rw [(seqMap_some _ _ _ hts).1] at hx
    obtain ⟨t, _, ht⟩ := List.mem_filterMap.1 hx
    exact hvt t x ht
  refine hexpr _ ?_ e c hn
  clear hn e c
  induction n with
  | zero => intro t d h; simp [visitTerm] at h
  | succ n ih =>
    intro t d h
    cases t with
    | ref id =>
      rw [visitTerm] at h
      cases hm : env.macros.get id with
      | none => simp only [hm, Option.some.injEq] at h; subst h; exact .ff
      | some e => simp only [hm] at h; exact hexpr _ ih e d h
    | not t =>
      rw [visitTerm, Option.map_eq_some_iff] at h
      obtain ⟨d', h1, rfl⟩ := h
      exact .not _ (ih t d' h1)
    | exist a => simp only [visitTerm, Option.some.injEq] at h; subst h; exact .exist a
    | binop op l x =>
      simp only [visitTerm, Option.some.injEq] at h; subst h
      cases op <;> first | exact .compare .. | exact .not _ (.compare ..)
    | inList l args =>
      rw [visitTerm, Option.map_eq_some_iff] at h
      obtain ⟨vs, _, rfl⟩ := h
      exact .foldAny ..
    | pmatch l args =>
      rw [visitTerm, Option.map_eq_some_iff] at h
      obtain ⟨vs, _, rfl⟩ := h
      exact .foldAny ..
    | paren e => rw [visitTerm] at h; exact hexpr _ ih e d h

/-! ## C23: termination -/

/-- C23: compilation of a condition returns exactly when no definition reachable from it refers back to
itself; on a cyclic policy it never returns. -/
theorem falco_compiles_iff_acyclic (ops : Operations R) (env : Env) (e : Expr) :
    (∃ c, Compiles ops env e c) ↔ ¬ Cyclic env e := by
  constructor
  · rintro ⟨c, hc⟩ ⟨x, y, hx, hxy, hyy⟩
    exact not_cycle_of_acc (Dep env) x (acc_of_compiles ops env e c hc x hx) y hxy hyy
  · intro hn
    refine expr_ready ops env e (fun x hx => ready_of_acc ops env x ?_)
    exact acc_of_not_cycle (Dep env) _ x (fun y z _ hyz => dep_source env y z hyz)
      (fun y hxy hyy => hn ⟨x, y, hx, hxy, hyy⟩)

/-- C23: the compiled condition does not depend on how much recursion was allowed. -/
theorem falco_result_unique (ops : Operations R) (env : Env) (e : Expr) (c d : Criterion R)
    (h : Compiles ops env e c) (h' : Compiles ops env e d) : c = d := compiles_det ops env e c d h h'

/-! ## C24: lists -/

/-- C24: expansion of a list reference computes exactly what it denotes. -/
theorem falco_list_expansion (lists : GoMap (List Str)) (s : Str) (vs : List Str) :
    (∃ n, reduceList lists n s = some vs) ↔ Expands lists s vs :=
  ⟨fun ⟨n, h⟩ => expands_of_reduce lists n s vs h, reduce_of_expands lists s vs⟩

/-- `Listed lists a x`: following list definitions from `a` one finds a name that is not a list and
denotes `x`. -/
def Listed (lists : GoMap (List Str)) (a x : Str) : Prop :=
  ∃ nm, Relation.ReflTransGen (fun p q => ∃ items, lists.get p = some items ∧ q ∈ items) a nm ∧
    lists.get nm = none ∧ x = Strings.trimQuotes nm

/-- C24: the values of a list reference are exactly those found by following definitions. -/
theorem falco_list_members (lists : GoMap (List Str)) (s : Str) (vs : List Str) (h : Expands lists s vs) (x : Str) :
    x ∈ vs ↔ Listed lists s x := by
  induction h with
  | literal s hs =>
    constructor
    · intro hx; exact ⟨s, .refl, hs, by simpa using hx⟩
    · rintro ⟨nm, hr, hn, rfl⟩
      rcases Relation.ReflTransGen.cases_head hr with rfl | ⟨z, ⟨items, hi, _⟩, _⟩
      · simp
      · rw [hs] at hi; cases hi
  | list s items val hs _ ih =>
    rw [List.mem_flatMap]
    constructor
    · rintro ⟨i, hi, hx⟩
      obtain ⟨nm, hr, hn, he⟩ := (ih i hi).1 hx
      exact ⟨nm, .head ⟨items, hs, hi⟩ hr, hn, he⟩
    · rintro ⟨nm, hr, hn, he⟩
      rcases Relation.ReflTransGen.cases_head hr with rfl | ⟨z, ⟨items', hi, hz⟩, hr'⟩
      · rw [hs] at hn; cases hn
      · rw [hs] at hi; cases hi
        exact ⟨z, hz, (ih z hz).2 ⟨nm, hr', hn, he⟩⟩

theorem splitLast_append (c : Char) (a b : Str) (h : c ∉ b) : splitLast c (a ++ c :: b) = some (a, b) := by
  have hb : splitLast c b = none := by
    clear a
    induction b with
    | nil => rfl
    | cons x xs ih =>
      simp only [List.mem_cons, not_or] at h
      simp [splitLast, ih h.2, Ne.symm h.1]
  induction a with
  | nil => simp [splitLast, hb]
  | cons x xs ih => simp [splitLast, ih]

/-- C24: a list written `[a, b, ...]` (at least one item, no comma inside an item) has exactly those
items, in order, with bounding quotes removed. -/
theorem falco_list_items (items : List Str) (hne : items ≠ []) (h : ∀ i ∈ items, ',' ∉ i) :
    extractList ('[' :: (Strings.join ',' items ++ [']'])) = items.map Strings.trimQuotes := by
  have : stripBrackets ('[' :: (Strings.join ',' items ++ [']'])) = Strings.join ',' items := by
    simp only [stripBrackets, splitLast_append ']' (Strings.join ',' items) [] (by simp), List.append_nil]
  rw [extractList, this, Strings.split_join ',' items hne h]

/-- C24: text after the last closing bracket, and text without a leading bracket, is kept. -/
theorem falco_bracket_removal (a b : Str) (hb : ']' ∉ b) (s : Str) (hs : s.head? ≠ some '[') :
    extractList ('[' :: (a ++ ']' :: b)) = (Strings.split ',' (a ++ b)).map Strings.trimQuotes ∧
    extractList s = (Strings.split ',' s).map Strings.trimQuotes := by
  constructor
  · rw [extractList]; simp only [stripBrackets, splitLast_append ']' a b hb]
  · rw [extractList]
    have : stripBrackets s = s := by
      unfold stripBrackets
      split
      · simp at hs
      · rfl
    rw [this]

/-- C24 (finding): the empty list `[]` has one item, the empty string, and so does the trailing comma of
`[a,]`. -/
theorem falco_empty_list_not_empty (items : List Str) (h : ∀ i ∈ items, ',' ∉ i) :
    extractList "[]".toList = [[]] ∧
    (items ≠ [] → extractList ('[' :: (Strings.join ',' (items ++ [[]]) ++ [']'])) = items.map Strings.trimQuotes ++ [[]]) := by
  refine ⟨by decide, fun _ => ?_⟩
  rw [falco_list_items (items ++ [[]]) (by simp) (by
    intro i hi
    rcases List.mem_append.1 hi with hi | hi
    · exact h i hi
    · have : i = [] := by simpa using hi
      subst this; simp)]
  rw [List.map_append]; rfl

/-! ## C25: `in` and `pmatch` on flat records -/

theorem single_term (ops : Operations R) (env : Env) (t : Term) (c : Criterion R) (h : Compiles ops env [[t]] c) (r : R) :
    ∃ n d, visitTerm ops env n t = some d ∧ c.eval r = d.eval r := by
  obtain ⟨n, hn⟩ := h
  obtain ⟨hs, hv⟩ := visitExprWith_eval _ _ _ hn r
  obtain ⟨d, hd⟩ := Option.isSome_iff_exists.1 (hs [t] (by simp) t (by simp))
  refine ⟨n, d, hd, ?_⟩
  have : c.eval r = true ↔ d.eval r = true := by
    rw [hv]
    constructor
    · rintro ⟨cl, hcl, hall⟩
      have : cl = [t] := by simpa using hcl
      subst this
      exact hall t (by simp) d hd
    · intro hde
      refine ⟨[t], by simp, ?_⟩
      intro t' ht' d' hd'
      have : t' = t := by simpa using ht'
      subst this
      rw [hd] at hd'; cases hd'; exact hde
  cases h1 : c.eval r <;> cases h2 : d.eval r <;> simp_all

theorem args_members (lists : GoMap (List Str)) (args : List Arg) (vs : List Str) (h : ArgsDenote lists args vs) (x : Str) :
    x ∈ vs ↔ ∃ a, Arg.atom a ∈ args ∧ Listed lists a x := by
  obtain ⟨val, h1, rfl⟩ := h
  rw [List.mem_flatMap]
  constructor
  · rintro ⟨a, ha, hx⟩
    cases a with
    | atom a => exact ⟨a, ha, (falco_list_members lists a _ (h1 a ha) x).1 hx⟩
    | items s => simp [argVals] at hx
  · rintro ⟨a, ha, hx⟩
    exact ⟨.atom a, ha, (falco_list_members lists a _ (h1 a ha) x).2 hx⟩

/-- C25: `field in (a, b, ...)` is true on a record exactly when some comma-separated component of the
field's text equals some component of a value listed by the arguments, directly or through list
definitions. -/
theorem falco_in (L : Lib) (t : Table) (env : Env) (field : Str) (args : List Arg) (c : Criterion Record)
    (h : Compiles (flatOps L t) env [[.inList field args]] c) (rec : Record) :
    c.eval rec = true ↔ ∃ a v, Arg.atom a ∈ args ∧ Listed env.lists a v ∧
      ∃ x, Strings.IsComponent ',' (mapStr L t field rec.fr) x ∧ Strings.IsComponent ',' v x := by
  obtain ⟨n, d, hd, he⟩ := single_term _ _ _ _ h rec
  cases n with
  | zero => simp [visitTerm] at hd
  | succ n =>
    rw [visitTerm, Option.map_eq_some_iff] at hd
    obtain ⟨vs, h1, rfl⟩ := hd
    have hden := argsDenote_of_extract _ _ _ _ h1
    rw [he]
    refine (foldAny_iff L t field vs .Eq rec).trans ?_
    constructor
    · rintro ⟨v, hv, x, y, hx, hy, hxy⟩
      obtain ⟨a, ha, hl⟩ := (args_members _ _ _ hden v).1 hv
      have : x = y := hxy
      subst this
      exact ⟨a, v, ha, hl, x, hx, hy⟩
    · rintro ⟨a, v, ha, hl, x, hx, hy⟩
      exact ⟨v, (args_members _ _ _ hden v).2 ⟨a, ha, hl⟩, x, x, hx, hy, rfl⟩

/-- C25: `pmatch` is the same with containment: some component of the field's text contains some
component of a listed value. -/
theorem falco_pmatch (L : Lib) (t : Table) (env : Env) (field : Str) (args : List Arg) (c : Criterion Record)
    (h : Compiles (flatOps L t) env [[.pmatch field args]] c) (rec : Record) :
    c.eval rec = true ↔ ∃ a v, Arg.atom a ∈ args ∧ Listed env.lists a v ∧
      ∃ x y, Strings.IsComponent ',' (mapStr L t field rec.fr) x ∧ Strings.IsComponent ',' v y ∧ y <:+: x := by
  obtain ⟨n, d, hd, he⟩ := single_term _ _ _ _ h rec
  cases n with
  | zero => simp [visitTerm] at hd
  | succ n =>
    rw [visitTerm, Option.map_eq_some_iff] at hd
    obtain ⟨vs, h1, rfl⟩ := hd
    have hden := argsDenote_of_extract _ _ _ _ h1
    rw [he]
    refine (foldAny_iff L t field vs .Contains rec).trans ?_
    constructor
    · rintro ⟨v, hv, x, y, hx, hy, hxy⟩
      obtain ⟨a, ha, hl⟩ := (args_members _ _ _ hden v).1 hv
      exact ⟨a, v, ha, hl, x, y, hx, hy, hxy⟩
    · rintro ⟨a, v, ha, hl, x, y, hx, hy, hxy⟩
      exact ⟨v, (args_members _ _ _ hden v).2 ⟨a, ha, hl⟩, x, y, hx, hy, hxy⟩

/-- C25 (finding): `pmatch` against a list declared as `[]` is true of every record. -/
theorem falco_pmatch_empty_list (L : Lib) (t : Table) (env : Env) (field id : Str) (c : Criterion Record)
    (hid : env.lists.get id = some (extractList "[]".toList)) (hnil : env.lists.get [] = none)
    (h : Compiles (flatOps L t) env [[.pmatch field [.atom id]]] c) (rec : Record) : c.eval rec = true := by
  rw [falco_pmatch L t env field _ c h rec]
  refine ⟨id, [], by simp, ⟨[], .single ⟨_, hid, ?_⟩, hnil, rfl⟩, ?_⟩
  · rw [(falco_empty_list_not_empty [] (by simp)).1]; simp
  · cases hs : Strings.split ',' (mapStr L t field rec.fr) with
    | nil => exact absurd hs (Strings.split_ne_nil _ _)
    | cons w ws =>
      refine ⟨w, [], ?_, ?_, ⟨[], w, by simp⟩⟩
      · rw [← Strings.mem_split_iff, hs]; simp
      · rw [← Strings.mem_split_iff]; simp [Strings.split]

/-- C25 (finding): bracketed items written in place contribute nothing: `field in ([a, b])` is never
true. -/
theorem falco_in_brackets_ignored (L : Lib) (t : Table) (env : Env) (field : Str) (args : List Arg) (c : Criterion Record)
    (hb : ∀ a ∈ args, ∃ s, a = .items s) (h : Compiles (flatOps L t) env [[.inList field args]] c) (rec : Record) :
    c.eval rec = false := by
  rw [← Bool.not_eq_true, falco_in L t env field args c h rec]
  rintro ⟨a, v, ha, _⟩
  obtain ⟨s, hs⟩ := hb _ ha
  cases hs

/-! ## C26: attributes, order, definitions in force -/

/-- C26: a rule or filter is enabled unless its flag is, up to bounding quotes, an explicit false
value. -/
theorem falco_enabled : enabledOf none = true ∧ ∀ s, enabledOf (some s) = false ↔
    Strings.trimQuotes s ∈ ["0".toList, "f".toList, "F".toList, "false".toList, "FALSE".toList, "False".toList] := by
  refine ⟨rfl, fun s => ?_⟩
  show (parseBool (Strings.trimQuotes s)).getD true = false ↔ _
  generalize Strings.trimQuotes s = x
  have hd : ∀ y ∈ ["1".toList, "t".toList, "T".toList, "true".toList, "TRUE".toList, "True".toList],
      y ∉ ["0".toList, "f".toList, "F".toList, "false".toList, "FALSE".toList, "False".toList] := by decide
  unfold parseBool
  by_cases h1 : x ∈ ["1".toList, "t".toList, "T".toList, "true".toList, "TRUE".toList, "True".toList]
  · rw [if_pos h1]
    exact ⟨fun h => (by cases h), fun h => absurd h (hd x h1)⟩
  · rw [if_neg h1]
    by_cases h2 : x ∈ ["0".toList, "f".toList, "F".toList, "false".toList, "FALSE".toList, "False".toList]
    · rw [if_pos h2]; exact ⟨fun _ => h2, fun _ => rfl⟩
    · rw [if_neg h2]; exact ⟨fun h => (by cases h), fun h => absurd h h2⟩

/-- The severity texts of level high and medium; every other text, and none at all, is level low. -/
def highTexts : List Str := ["high".toList, "error".toList, "critical".toList, "emergency".toList]
def mediumTexts : List Str := ["medium".toList, "warning".toList]

/-- C26: priority is determined by the lower-cased severity text: high, medium, and otherwise low. -/
theorem falco_priority (sev : Option Str) :
    getPriority sev =
      if ∃ p, sev = some p ∧ asciiLower p ∈ highTexts then .high
      else if ∃ p, sev = some p ∧ asciiLower p ∈ mediumTexts then .medium else .low := by
  cases sev with
  | none => simp [getPriority]
  | some p =>
    show priorityOfText (asciiLower p) = _
    have e : ∀ P : Str → Prop, (∃ q, some p = some q ∧ P (asciiLower q)) ↔ P (asciiLower p) := by
      intro P
      constructor
      · rintro ⟨q, hq, h⟩; cases hq; exact h
      · intro h; exact ⟨p, rfl, h⟩
    have e1 := e (· ∈ highTexts)
    have e2 := e (· ∈ mediumTexts)
    generalize asciiLower p = x at *
    by_cases hh : x ∈ highTexts
    · rw [if_pos (e1.2 hh)]
      exact (by decide : ∀ y ∈ highTexts, priorityOfText y = .high) x hh
    · rw [if_neg (fun h => hh (e1.1 h))]
      by_cases hm : x ∈ mediumTexts
      · rw [if_pos (e2.2 hm)]
        exact (by decide : ∀ y ∈ mediumTexts, priorityOfText y = .medium) x hm
      · rw [if_neg (fun h => hm (e2.1 h))]
        unfold highTexts at hh
        unfold mediumTexts at hm
        unfold priorityOfText
        generalize "low".toList = k1 at *
        generalize "medium".toList = k2 at *
        generalize "high".toList = k3 at *
        generalize "debug".toList = k4 at *
        generalize "info".toList = k5 at *
        generalize "informational".toList = k6 at *
        generalize "notice".toList = k7 at *
        generalize "warning".toList = k8 at *
        generalize "error".toList = k9 at *
        generalize "critical".toList = k10 at *
        generalize "emergency".toList = k11 at *
        simp only [List.mem_cons, List.not_mem_nil, or_false, not_or] at hh hm
        simp [hh, hm]

/-- C26: letter case of the severity does not matter. -/
theorem falco_priority_case (p q : Str) (h : asciiLower p = asciiLower q) : getPriority (some p) = getPriority (some q) := by
  simp [getPriority, h]

/-- C26 (finding): severity `alert`, which the grammar accepts and Falco ranks above `critical`, is mapped to
low. -/
theorem falco_alert_is_low : getPriority (some "ALERT".toList) = .low ∧ getPriority (some "CRITICAL".toList) = .high := by
  decide

/-- The condition given to macro `id` by a declaration. -/
def macroDef (id : Str) : Decl → Option Expr
  | .mac id' e => if id' = id then some e else none
  | _ => none

/-- The items given to list `id` by a declaration. -/
def listDef (id : Str) : Decl → Option (List Str)
  | .list id' items => if id' = id then some (extractList items) else none
  | _ => none

/-- The definition in force for a name at a declaration of a file: the last one before it in the file,
else the last one in the whole file (use before definition), else the last one in the earlier files. -/
def InForce {α : Type} (defn : Decl → Option α) (earlier : List (List Decl)) (file before : List Decl) : Option α :=
  ((before.filterMap defn).getLast?).or (((file.filterMap defn).getLast?).or ((earlier.flatten.filterMap defn).getLast?))

theorem getLast?_append_or {α : Type _} (a b : List α) : (a ++ b).getLast? = b.getLast?.or a.getLast? := by
  rw [List.getLast?_append]

theorem get_foldl_macro (ds : List Decl) (env : Env) (id : Str) :
    (ds.foldl define env).macros.get id = ((ds.filterMap (macroDef id)).getLast?).or (env.macros.get id) := by
  induction ds generalizing env with
  | nil => simp
  | cons d ds ih =>
    rw [List.foldl_cons, ih, List.filterMap_cons]
    cases d with
    | mac id' e =>
      by_cases h : id' = id
      · simp only [macroDef, h, if_true, define, GoMap.set, GoMap.get]
        rw [show (e :: ds.filterMap (macroDef id)) = [e] ++ ds.filterMap (macroDef id) from rfl, getLast?_append_or]
        cases (ds.filterMap (macroDef id)).getLast? <;> simp
      · simp [macroDef, h, define, GoMap.set, GoMap.get]
    | _ => simp [macroDef, define]

theorem get_foldl_list (ds : List Decl) (env : Env) (id : Str) :
    (ds.foldl define env).lists.get id = ((ds.filterMap (listDef id)).getLast?).or (env.lists.get id) := by
  induction ds generalizing env with
  | nil => simp
  | cons d ds ih =>
    rw [List.foldl_cons, ih, List.filterMap_cons]
    cases d with
    | list id' e =>
      by_cases h : id' = id
      · simp only [listDef, h, if_true, define, GoMap.set, GoMap.get]
        rw [show (extractList e :: ds.filterMap (listDef id)) = [extractList e] ++ ds.filterMap (listDef id) from rfl, getLast?_append_or]
        cases (ds.filterMap (listDef id)).getLast? <;> simp
      · simp [listDef, h, define, GoMap.set, GoMap.get]
    | _ => simp [listDef, define]

theorem exitDecls_append (ops : Operations R) (n : Nat) (s : State R) (a b : List Decl) :
    exitDecls ops n s (a ++ b) = (exitDecls ops n s a).bind (fun s' => exitDecls ops n s' b) := by
  induction a generalizing s with
  | nil => simp [exitDecls]
  | cons d a ih =>
    simp only [List.cons_append, exitDecls]
    cases exitDecl ops n s d with
    | none => rfl
    | some s' => exact ih s'

/-- The number of rules and of filters declared. -/
def ruleCount (ds : List Decl) : Nat := (ds.filter (fun | .rule _ => true | _ => false)).length
def filterCount (ds : List Decl) : Nat := (ds.filter (fun | .filter _ => true | _ => false)).length

theorem ruleCount_cons (d : Decl) (ds : List Decl) : ruleCount (d :: ds) = (match d with | .rule _ => 1 | _ => 0) + ruleCount ds := by
  cases d <;> simp [ruleCount, Nat.add_comm]

theorem filterCount_cons (d : Decl) (ds : List Decl) : filterCount (d :: ds) = (match d with | .filter _ => 1 | _ => 0) + filterCount ds := by
  cases d <;> simp [filterCount, Nat.add_comm]

theorem ruleCount_append (a b : List Decl) : ruleCount (a ++ b) = ruleCount a + ruleCount b := by simp [ruleCount]
theorem filterCount_append (a b : List Decl) : filterCount (a ++ b) = filterCount a + filterCount b := by simp [filterCount]

theorem exitDecls_facts (ops : Operations R) (n : Nat) (ds : List Decl) (s s' : State R) (h : exitDecls ops n s ds = some s') :
    s'.env = ds.foldl define s.env ∧ (∃ x, s'.rules = s.rules ++ x ∧ x.length = ruleCount ds) ∧
    (∃ x, s'.filters = s.filters ++ x ∧ x.length = filterCount ds) := by
  induction ds generalizing s with
  | nil => simp only [exitDecls, Option.some.injEq] at h; subst h; simp [ruleCount, filterCount]
  | cons d ds ih =>
    rw [exitDecls] at h
    cases hd : exitDecl ops n s d with
    | none => simp [hd] at h
    | some t =>
      simp only [hd] at h
      obtain ⟨h1, ⟨x, hx, hxl⟩, ⟨y, hy, hyl⟩⟩ := ih t h
      rw [ruleCount_cons, filterCount_cons, List.foldl_cons]
      cases d with
      | rule d =>
        simp only [exitDecl, Option.map_eq_some_iff] at hd
        obtain ⟨c, _, rfl⟩ := hd
        exact ⟨h1, ⟨mkRule d c :: x, by simp [hx], by simp [hxl, Nat.add_comm]⟩, ⟨y, hy, by simp [hyl]⟩⟩
      | filter d =>
        simp only [exitDecl, Option.map_eq_some_iff] at hd
        obtain ⟨c, _, rfl⟩ := hd
        exact ⟨h1, ⟨x, hx, by simp [hxl]⟩, ⟨mkFilter d c :: y, by simp [hy], by simp [hyl, Nat.add_comm]⟩⟩
      | mac id e => simp only [exitDecl, Option.some.injEq] at hd; subst hd; exact ⟨h1, ⟨x, hx, by simp [hxl]⟩, ⟨y, hy, by simp [hyl]⟩⟩
      | list id e => simp only [exitDecl, Option.some.injEq] at hd; subst hd; exact ⟨h1, ⟨x, hx, by simp [hxl]⟩, ⟨y, hy, by simp [hyl]⟩⟩
      | req v => simp only [exitDecl, Option.some.injEq] at hd; subst hd; exact ⟨h1, ⟨x, hx, by simp [hxl]⟩, ⟨y, hy, by simp [hyl]⟩⟩

theorem compileFiles_append (ops : Operations R) (n : Nat) (a : List (List Decl)) (b : List File) (s : State R) (r : State R)
    (h : compileFiles ops n s (a.map File.ok ++ b) = some (some r)) :
    ∃ t, compileFiles ops n s (a.map File.ok) = some (some t) ∧ compileFiles ops n t b = some (some r) := by
  induction a generalizing s with
  | nil => exact ⟨s, rfl, h⟩
  | cons d a ih =>
    simp only [List.map_cons, List.cons_append, compileFiles] at h ⊢
    cases hd : compileDecls ops n s d with
    | none => simp [hd] at h
    | some t => simp only [hd] at h ⊢; exact ih t h

theorem compileFiles_all_ok (ops : Operations R) (n : Nat) (fs : List File) (s r : State R)
    (h : compileFiles ops n s fs = some (some r)) : ∃ dss : List (List Decl), fs = dss.map File.ok := by
  induction fs generalizing s with
  | nil => exact ⟨[], rfl⟩
  | cons f fs ih =>
    cases f with
    | ok ds =>
      simp only [compileFiles] at h
      cases hd : compileDecls ops n s ds with
      | none => simp [hd] at h
      | some t =>
        simp only [hd] at h
        obtain ⟨dss, rfl⟩ := ih t h
        exact ⟨ds :: dss, rfl⟩
    | unreadable => simp [compileFiles] at h
    | malformed => simp [compileFiles] at h

theorem compileFiles_facts (ops : Operations R) (n : Nat) (dss : List (List Decl)) (s r : State R)
    (h : compileFiles ops n s (dss.map File.ok) = some (some r)) :
    (∀ id, r.env.macros.get id = ((dss.flatten.filterMap (macroDef id)).getLast?).or (s.env.macros.get id)) ∧
    (∀ id, r.env.lists.get id = ((dss.flatten.filterMap (listDef id)).getLast?).or (s.env.lists.get id)) ∧
    (∃ x, r.rules = s.rules ++ x ∧ x.length = ruleCount dss.flatten) ∧
    (∃ x, r.filters = s.filters ++ x ∧ x.length = filterCount dss.flatten) := by
  induction dss generalizing s with
  | nil => simp only [List.map_nil, compileFiles, Option.some.injEq] at h; subst h; simp [ruleCount, filterCount]
  | cons ds dss ih =>
    simp only [List.map_cons, compileFiles] at h
    cases hd : compileDecls ops n s ds with
    | none => simp [hd] at h
    | some t =>
      simp only [hd] at h
      obtain ⟨i1, i2, ⟨x, hx, hxl⟩, ⟨y, hy, hyl⟩⟩ := ih t h
      obtain ⟨j1, ⟨x', hx', hxl'⟩, ⟨y', hy', hyl'⟩⟩ := exitDecls_facts ops n ds _ t hd
      refine ⟨?_, ?_, ⟨x' ++ x, ?_, ?_⟩, ⟨y' ++ y, ?_, ?_⟩⟩
      · intro id
        rw [i1, j1, get_foldl_macro, get_foldl_macro, List.flatten_cons, List.filterMap_append, getLast?_append_or]
        cases (dss.flatten.filterMap (macroDef id)).getLast? <;> cases (ds.filterMap (macroDef id)).getLast? <;> simp
      · intro id
        rw [i2, j1, get_foldl_list, get_foldl_list, List.flatten_cons, List.filterMap_append, getLast?_append_or]
        cases (dss.flatten.filterMap (listDef id)).getLast? <;> cases (ds.filterMap (listDef id)).getLast? <;> simp
      · rw [hx, hx']; simp
      · rw [List.length_append, hxl, hxl', List.flatten_cons, ruleCount_append]
      · rw [hy, hy']; simp
      · rw [List.length_append, hyl, hyl', List.flatten_cons, filterCount_append]

theorem at_site (ops : Operations R) (n : Nat) (earlier : List (List Decl)) (before after : List Decl) (d : Decl)
    (later : List File) (r : State R)
    (h : compileFiles ops n {} (earlier.map File.ok ++ .ok (before ++ d :: after) :: later) = some (some r)) :
    ∃ s s', exitDecl ops n s d = some s' ∧
      s.rules.length = ruleCount earlier.flatten + ruleCount before ∧
      s.filters.length = filterCount earlier.flatten + filterCount before ∧
      (∀ id, s.env.macros.get id = InForce (macroDef id) earlier (before ++ d :: after) before) ∧
      (∀ id, s.env.lists.get id = InForce (listDef id) earlier (before ++ d :: after) before) ∧
      (∃ x, r.rules = s'.rules ++ x) ∧ (∃ x, r.filters = s'.filters ++ x) := by
  obtain ⟨t, h1, h2⟩ := compileFiles_append ops n earlier _ _ _ h
  obtain ⟨f1, f2, ⟨x, hx, hxl⟩, ⟨y, hy, hyl⟩⟩ := compileFiles_facts ops n earlier _ _ h1
  simp only [compileFiles] at h2
  cases hd : compileDecls ops n t (before ++ d :: after) with
  | none => simp [hd] at h2
  | some u =>
    simp only [hd] at h2
    obtain ⟨dss, rfl⟩ := compileFiles_all_ok ops n later u r h2
    obtain ⟨_, _, ⟨x3, hx3, _⟩, ⟨y3, hy3, _⟩⟩ := compileFiles_facts ops n dss u r h2
    unfold compileDecls at hd
    rw [exitDecls_append, Option.bind_eq_some_iff] at hd
    obtain ⟨s, hs, hd⟩ := hd
    rw [exitDecls] at hd
    cases hs' : exitDecl ops n s d with
    | none => simp [hs'] at hd
    | some s' =>
      simp only [hs'] at hd
      obtain ⟨g1, ⟨x1, hx1, hxl1⟩, ⟨y1, hy1, hyl1⟩⟩ := exitDecls_facts ops n before _ s hs
      obtain ⟨_, ⟨x2, hx2, _⟩, ⟨y2, hy2, _⟩⟩ := exitDecls_facts ops n after s' u hd
      have hx1 : s.rules = t.rules ++ x1 := hx1
      have hy1 : s.filters = t.filters ++ y1 := hy1
      refine ⟨s, s', hs', ?_, ?_, ?_, ?_, ⟨x2 ++ x3, ?_⟩, ⟨y2 ++ y3, ?_⟩⟩
      · rw [hx1, hx]; simp [hxl, hxl1]
      · rw [hy1, hy]; simp [hyl, hyl1]
      · intro id
        rw [g1, get_foldl_macro, get_foldl_macro, f1]
        simp [InForce, GoMap.get]
      · intro id
        rw [g1, get_foldl_list, get_foldl_list, f2]
        simp [InForce, GoMap.get]
      · rw [hx3, hx2]; simp
      · rw [hy3, hy2]; simp

/-- C26: when compilation succeeds, every rule declaration, at any place of any file, yields exactly one
engine rule, at the position given by the number of rule declarations before it, with the declared
attributes and the condition compiled under the definitions in force there. -/
theorem falco_rules_in_order (ops : Operations R) (n : Nat) (earlier : List (List Decl)) (before after : List Decl) (d : RuleDecl)
    (later : List File) (rs : List (Rule R)) (fs : List (Filter R))
    (h : compile ops n (earlier.map File.ok ++ .ok (before ++ .rule d :: after) :: later) = some (some (rs, fs))) :
    ∃ rule env, rs[ruleCount earlier.flatten + ruleCount before]? = some rule ∧
      rule.name = d.name ∧ rule.desc = d.desc ∧ rule.priority = getPriority d.severity ∧ rule.enabled = enabledOf d.enabled ∧
      rule.actions = (d.actions.map extractList).getD [] ∧ rule.prefilter = (d.prefilter.map extractList).getD [] ∧
      rule.tags = (d.tags.map extractList).toList ∧
      Compiles ops env d.cond rule.condition ∧
      (∀ id, env.macros.get id = InForce (macroDef id) earlier (before ++ .rule d :: after) before) ∧
      (∀ id, env.lists.get id = InForce (listDef id) earlier (before ++ .rule d :: after) before) := by
  unfold compile at h
  rw [Option.map_eq_some_iff] at h
  obtain ⟨o, h, ho⟩ := h
  rw [Option.map_eq_some_iff] at ho
  obtain ⟨r, rfl, hr⟩ := ho
  obtain ⟨s, s', hs, hl, _, hm, hli, ⟨x, hx⟩, _⟩ := at_site ops n earlier before after _ later r h
  simp only [exitDecl, Option.map_eq_some_iff] at hs
  obtain ⟨c, hc, rfl⟩ := hs
  have hrs : rs = s.rules ++ mkRule d c :: x := by
    have : rs = r.rules := by cases hr; rfl
    rw [this, hx]; simp
  refine ⟨mkRule d c, s.env, ?_, rfl, rfl, rfl, rfl, ?_, ?_, ?_, ⟨n, hc⟩, hm, hli⟩
  · rw [hrs, ← hl]; simp
  · cases ha : d.actions <;> simp [mkRule, ha]
  · cases ha : d.prefilter <;> simp [mkRule, ha]
  · cases ha : d.tags <;> simp [mkRule, ha]

/-- C26: likewise for every filter declaration. -/
theorem falco_filters_in_order (ops : Operations R) (n : Nat) (earlier : List (List Decl)) (before after : List Decl) (d : FilterDecl)
    (later : List File) (rs : List (Rule R)) (fs : List (Filter R))
    (h : compile ops n (earlier.map File.ok ++ .ok (before ++ .filter d :: after) :: later) = some (some (rs, fs))) :
    ∃ f env, fs[filterCount earlier.flatten + filterCount before]? = some f ∧
      f.name = d.id ∧ f.enabled = enabledOf d.enabled ∧ Compiles ops env d.cond f.condition ∧
      (∀ id, env.macros.get id = InForce (macroDef id) earlier (before ++ .filter d :: after) before) ∧
      (∀ id, env.lists.get id = InForce (listDef id) earlier (before ++ .filter d :: after) before) := by
  unfold compile at h
  rw [Option.map_eq_some_iff] at h
  obtain ⟨o, h, ho⟩ := h
  rw [Option.map_eq_some_iff] at ho
  obtain ⟨r, rfl, hr⟩ := ho
  obtain ⟨s, s', hs, _, hl, hm, hli, _, ⟨x, hx⟩⟩ := at_site ops n earlier before after _ later r h
  simp only [exitDecl, Option.map_eq_some_iff] at hs
  obtain ⟨c, hc, rfl⟩ := hs
  have hrs : fs = s.filters ++ mkFilter d c :: x := by
    have : fs = r.filters := by cases hr; rfl
    rw [this, hx]; simp
  refine ⟨mkFilter d c, s.env, ?_, rfl, rfl, ⟨n, hc⟩, hm, hli⟩
  rw [hrs, ← hl]; simp

/-- C26: nothing else is produced, and compilation succeeds only if every file is readable and well
formed. -/
theorem falco_nothing_else (ops : Operations R) (n : Nat) (files : List File) (rs : List (Rule R)) (fs : List (Filter R))
    (h : compile ops n files = some (some (rs, fs))) : ∃ dss : List (List Decl), files = dss.map File.ok ∧
      rs.length = ruleCount dss.flatten ∧ fs.length = filterCount dss.flatten := by
  unfold compile at h
  rw [Option.map_eq_some_iff] at h
  obtain ⟨o, h, ho⟩ := h
  rw [Option.map_eq_some_iff] at ho
  obtain ⟨r, rfl, hr⟩ := ho
  obtain ⟨dss, rfl⟩ := compileFiles_all_ok ops n files _ r h
  obtain ⟨_, _, ⟨x, hx, hxl⟩, ⟨y, hy, hyl⟩⟩ := compileFiles_facts ops n dss _ r h
  cases hr
  exact ⟨dss, rfl, by rw [hx]; simp [hxl], by rw [hy]; simp [hyl]⟩

/-- C26: an unreadable or malformed file makes the whole compilation fail; no rules are returned, not even
those of the other files. -/
theorem falco_bad_file_rejects_all (ops : Operations R) (n : Nat) (files : List File)
    (hbad : ∃ f ∈ files, f = .unreadable ∨ f = .malformed) (o : Option (List (Rule R) × List (Filter R)))
    (h : compile ops n files = some o) : o = none := by
  cases o with
  | none => rfl
  | some p =>
    obtain ⟨dss, rfl, _⟩ := falco_nothing_else ops n files p.1 p.2 h
    obtain ⟨f, hf, hb⟩ := hbad
    obtain ⟨ds, _, rfl⟩ := List.mem_map.1 hf
    rcases hb with hb | hb <;> cases hb

/-- The definitions with which the conditions of a file sequence are compiled: at a declaration, those of
the whole file read on top of the earlier files, then those before it in the file again. -/
def envAt (earlier : List (List Decl)) (file before : List Decl) : Env :=
  before.foldl define (file.foldl define ((earlier.map (fun f => f ++ f)).flatten.foldl define {}))

theorem exitDecl_mono (ops : Operations R) (n m : Nat) (hnm : n ≤ m) (s : State R) (d : Decl) (t : State R)
    (h : exitDecl ops n s d = some t) : exitDecl ops m s d = some t := by
  cases d with
  | rule d =>
    simp only [exitDecl, Option.map_eq_some_iff] at h ⊢
    obtain ⟨c, h1, h2⟩ := h
    exact ⟨c, visitExpr_le ops _ n m hnm _ _ h1, h2⟩
  | filter d =>
    simp only [exitDecl, Option.map_eq_some_iff] at h ⊢
    obtain ⟨c, h1, h2⟩ := h
    exact ⟨c, visitExpr_le ops _ n m hnm _ _ h1, h2⟩
  | mac id e => exact h
  | list id e => exact h
  | req v => exact h

theorem exitDecls_mono (ops : Operations R) (n m : Nat) (hnm : n ≤ m) (ds : List Decl) (s t : State R)
    (h : exitDecls ops n s ds = some t) : exitDecls ops m s ds = some t := by
  induction ds generalizing s with
  | nil => exact h
  | cons d ds ih =>
    rw [exitDecls] at h ⊢
    cases hd : exitDecl ops n s d with
    | none => simp [hd] at h
    | some u =>
      simp only [hd] at h
      simp only [exitDecl_mono ops n m hnm s d u hd]
      exact ih u h

theorem compileFiles_mono (ops : Operations R) (n m : Nat) (hnm : n ≤ m) (fs : List File) (s : State R) (o : Option (State R))
    (h : compileFiles ops n s fs = some o) : compileFiles ops m s fs = some o := by
  induction fs generalizing s with
  | nil => exact h
  | cons f fs ih =>
    cases f with
    | ok ds =>
      simp only [compileFiles] at h ⊢
      cases hd : compileDecls ops n s ds with
      | none => simp [hd] at h
      | some u =>
        simp only [hd] at h
        have : compileDecls ops m s ds = some u := exitDecls_mono ops n m hnm ds _ u hd
        simp only [this]
        exact ih u h
    | unreadable => exact h
    | malformed => exact h

/-- The condition of a rule or filter declaration. -/
def declCond : Decl → Option Expr
  | .rule d => some d.cond
  | .filter d => some d.cond
  | _ => none

theorem exitDecls_terminates (ops : Operations R) (ds : List Decl) (s : State R)
    (h : ∀ before d after e, ds = before ++ d :: after → declCond d = some e → ¬ Cyclic (before.foldl define s.env) e) :
    ∃ n t, exitDecls ops n s ds = some t := by
  induction ds generalizing s with
  | nil => exact ⟨0, s, rfl⟩
  | cons d ds ih =>
    have h1 : ∃ n t, exitDecl ops n s d = some t := by
      cases d with
      | rule d =>
        obtain ⟨c, n, hn⟩ := (falco_compiles_iff_acyclic ops s.env d.cond).2 (h [] (.rule d) ds d.cond rfl rfl)
        exact ⟨n, _, by simp [exitDecl, hn]; rfl⟩
      | filter d =>
        obtain ⟨c, n, hn⟩ := (falco_compiles_iff_acyclic ops s.env d.cond).2 (h [] (.filter d) ds d.cond rfl rfl)
        exact ⟨n, _, by simp [exitDecl, hn]; rfl⟩
      | mac id e => exact ⟨0, _, rfl⟩
      | list id e => exact ⟨0, _, rfl⟩
      | req v => exact ⟨0, _, rfl⟩
    obtain ⟨n, t, ht⟩ := h1
    have henv : t.env = define s.env d := by
      have := (exitDecls_facts ops n [d] s t (by simp [exitDecls, ht])).1
      simpa using this
    obtain ⟨m, u, hu⟩ := ih t (by
      intro before d' after e hds he
      rw [henv]
      exact h (d :: before) d' after e (by rw [hds]; rfl) he)
    refine ⟨max n m, u, ?_⟩
    rw [exitDecls, exitDecl_mono ops n _ (Nat.le_max_left ..) s d t ht]
    exact exitDecls_mono ops m _ (Nat.le_max_right ..) ds t u hu

/-- C23 for whole policies: if at no rule or filter of any file a reachable definition refers back to
itself, compilation of the whole file sequence returns. -/
theorem falco_policy_terminates (ops : Operations R) (dss : List (List Decl))
    (h : ∀ earlier before d after later e, dss = earlier ++ (before ++ d :: after) :: later → declCond d = some e →
      ¬ Cyclic (envAt earlier (before ++ d :: after) before) e) :
    ∃ n rs fs, compile ops n (dss.map File.ok) = some (some (rs, fs)) := by
  have key : ∀ (rest earlier : List (List Decl)) (s : State R), dss = earlier ++ rest →
      s.env = (earlier.map (fun f => f ++ f)).flatten.foldl define {} →
      ∃ n t, compileFiles ops n s (rest.map File.ok) = some (some t) := by
    intro rest
    induction rest with
    | nil => intro earlier s _ _; exact ⟨0, s, rfl⟩
    | cons ds rest ih =>
      intro earlier s hd hs
      obtain ⟨n, t, ht⟩ := exitDecls_terminates ops ds { s with env := ds.foldl define s.env } (by
        intro before d after e hds he
        have := h earlier before d after rest e (by rw [hd, hds]) he
        unfold envAt at this
        rw [← hs, ← hds] at this
        exact this)
      have henv : t.env = ((earlier ++ [ds]).map (fun f => f ++ f)).flatten.foldl define {} := by
        rw [(exitDecls_facts ops n ds _ t ht).1]
        show ds.foldl define (ds.foldl define s.env) = _
        rw [hs]; simp [List.foldl_append]
      obtain ⟨m, u, hu⟩ := ih (earlier ++ [ds]) t (by rw [hd]; simp) henv
      refine ⟨max n m, u, ?_⟩
      simp only [List.map_cons, compileFiles]
      have : compileDecls ops (max n m) s ds = some t := exitDecls_mono ops n _ (Nat.le_max_left ..) ds _ t ht
      simp only [this]
      exact compileFiles_mono ops m _ (Nat.le_max_right ..) _ t _ hu
  obtain ⟨n, t, ht⟩ := key dss [] {} rfl rfl
  exact ⟨n, t.rules, t.filters, by simp [compile, ht]⟩

/-- C22/C26 with C03: a flat-record engine loaded with a compiled Falco policy attaches to each record
that is not dropped exactly the rules that fire. -/
theorem falco_engine (L : Lib) (n : Nat) (files : List File) (rules : List (Rule Record)) (fs : List (Filter Record))
    (hc : compile (flatOps L getMappers) n files = some (some (rules, fs))) (e : Bool)
    (bi us : Engine.ActionMap Record) (o : Bool)
    (ha : ∀ a f, (bi a = some f ∨ us a = some f) → ∀ r, (f r).1.fr = r.fr)
    (ha' : ∀ a f, (bi a = some f ∨ us a = some f) → ∀ r, (f r).1.ctx.getRules = r.ctx.getRules) (r : Record) :
    let pi := flatInterp L e rules fs bi us o
    (pi.work r).1.ctx.getRules = r.ctx.getRules ++
      (if Engine.Dropped pi r then [] else (rules.filter (fun x => decide (Engine.Fires pi r x))).map (·.toRuleInfo)) := by
  refine flat_record_rules L e rules fs bi us o ?_ ha ha' r
  intro rule hr
  unfold compile at hc
  rw [Option.map_eq_some_iff] at hc
  obtain ⟨x, hc, hx⟩ := hc
  rw [Option.map_eq_some_iff] at hx
  obtain ⟨s, rfl, hs⟩ := hx
  cases hs
  obtain ⟨dss, rfl⟩ := compileFiles_all_ok _ n files _ s hc
  have hexit : ∀ (ds : List Decl) (a b : State Record), (∀ r ∈ a.rules, Built (flatOps L getMappers) r.condition) →
      exitDecls (flatOps L getMappers) n a ds = some b → ∀ r ∈ b.rules, Built (flatOps L getMappers) r.condition := by
    intro ds
    induction ds with
    | nil => intro a b h hab; simp only [exitDecls, Option.some.injEq] at hab; subst hab; exact h
    | cons d ds ih =>
      intro a b h hab
      rw [exitDecls] at hab
      cases hd : exitDecl (flatOps L getMappers) n a d with
      | none => simp [hd] at hab
      | some t =>
        simp only [hd] at hab
        refine ih t b ?_ hab
        cases d with
        | rule d =>
          simp only [exitDecl, Option.map_eq_some_iff] at hd
          obtain ⟨c, hcc, rfl⟩ := hd
          intro r hr
          rcases List.mem_append.1 hr with hr | hr
          · exact h r hr
          · have : r = mkRule d c := by simpa using hr
            subst this
            exact falco_built _ a.env d.cond c ⟨n, hcc⟩
        | filter d =>
          simp only [exitDecl, Option.map_eq_some_iff] at hd
          obtain ⟨c, _, rfl⟩ := hd
          exact h
        | mac id e => simp only [exitDecl, Option.some.injEq] at hd; subst hd; exact h
        | list id e => simp only [exitDecl, Option.some.injEq] at hd; subst hd; exact h
        | req v => simp only [exitDecl, Option.some.injEq] at hd; subst hd; exact h
  have hfiles : ∀ (dss : List (List Decl)) (a b : State Record), (∀ r ∈ a.rules, Built (flatOps L getMappers) r.condition) →
      compileFiles (flatOps L getMappers) n a (dss.map File.ok) = some (some b) →
      ∀ r ∈ b.rules, Built (flatOps L getMappers) r.condition := by
    intro dss
    induction dss with
    | nil => intro a b h hab; simp only [List.map_nil, compileFiles, Option.some.injEq] at hab; subst hab; exact h
    | cons ds dss ih =>
      intro a b h hab
      simp only [List.map_cons, compileFiles] at hab
      cases hd : compileDecls (flatOps L getMappers) n a ds with
      | none => simp [hd] at hab
      | some t =>
        simp only [hd] at hab
        refine ih t b ?_ hab
        exact hexit ds { a with env := ds.foldl define a.env } t h hd
  exact hfiles dss {} s (by intro r hr; cases hr) hc rule hr

end Verif.Falco
