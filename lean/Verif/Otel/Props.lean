import Verif.Otel.Model
import Verif.Engine.Props
import Verif.Policy.Props
import Verif.FlatRecord.Resolve
/-
C31, C32 and the policy engine over OpenTelemetry logs.
-/
namespace Verif.Otel
open Verif.Decimal (Str)
open Verif.Policy
open Verif.FlatRecord (Built)

/-! ## C31: attribute order -/

/-- The attributes of a scope, in order: its own, then those of its log records. -/
def scopeAttributes (sl : ScopeLogs) : List KV :=
  (match sl.scope with
    | some sc => sc.attrs
    | none => []) ++ sl.logs.flatMap (·.attrs)

/-- All attributes of a record in lookup order: resource, then scope by scope. -/
def attributes (res : List KV) (scopes : List ScopeLogs) : List KV := res ++ scopes.flatMap scopeAttributes

theorem addLogs_eq (acc : List KV) (ls : List LogRecord) : addLogs acc ls = acc ++ ls.flatMap (·.attrs) := by
  induction ls generalizing acc with
  | nil => simp [addLogs]
  | cons l ls ih =>
    have := ih (acc ++ l.attrs)
    unfold addLogs at this ⊢
    simp [this]

theorem addScopes_eq (acc : List KV) (ss : List ScopeLogs) : addScopes acc ss = acc ++ ss.flatMap scopeAttributes := by
  induction ss generalizing acc with
  | nil => simp [addScopes]
  | cons s ss ih =>
    have h := ih (addLogs (match s.scope with
      | some sc => acc ++ sc.attrs
      | none => acc) s.logs)
    have h0 : addScopes acc (s :: ss) = addScopes (addLogs (match s.scope with
      | some sc => acc ++ sc.attrs
      | none => acc) s.logs) ss := rfl
    rw [h0, h, addLogs_eq]
    cases hs : s.scope with
    | none => simp [scopeAttributes, hs]
    | some sc => simp [scopeAttributes, hs]

/-- C31: the order in which attributes are looked up; a record without a resource makes every lookup panic. -/
theorem otel_attribute_order (rl : ResourceLogs) :
    (∀ res, rl.resource = some res → getAllAttributes rl = some (attributes res rl.scopes)) ∧
    (rl.resource = none → getAllAttributes rl = none) := by
  constructor
  · intro res h; simp [getAllAttributes, h, addScopes_eq, attributes]
  · intro h; simp [getAllAttributes, h]

/-! ## C31: which attribute decides, and how -/

/-- `v` is the value that decides a comparison on `key`: the value of the first attribute with that key whose
value is set; if that value is a list of attributes, it decides among those. `v` is not such a list. -/
inductive Decides (key : Str) : List KV → Value → Prop
  | here (pre post : List KV) (v : Value) (hpre : ∀ p ∈ pre, p.1 = key → p.2 = .unset) (hv : v ≠ .unset)
      (hk : ∀ kvs, v ≠ .kvlist kvs) : Decides key (pre ++ (key, v) :: post) v
  | nested (pre post kvs : List KV) (v : Value) (hpre : ∀ p ∈ pre, p.1 = key → p.2 = .unset)
      (h : Decides key kvs v) : Decides key (pre ++ (key, .kvlist kvs) :: post) v

/-- Lexicographic order. -/
inductive Before : List UInt8 → List UInt8 → Prop
  | shorter (p : List UInt8) (b : UInt8) (bs : List UInt8) : Before p (p ++ b :: bs)
  | smaller (p : List UInt8) (a b : UInt8) (as bs : List UInt8) (h : a < b) : Before (p ++ a :: as) (p ++ b :: bs)

/-- The meaning of the operators on a text. -/
def TextMatches (L : Lib) (s r : Str) : Operator → Prop
  | .Eq => s = r
  | .IEq => L.equalFold s r = true
  | .Contains => r <:+: s
  | .IContains => L.lower r <:+: L.lower s
  | .Startswith => r <+: s
  | .IStartswith => L.lower r <+: L.lower s
  | .Endswith => r <:+ s
  | .IEndswith => L.lower r <:+ L.lower s
  | .Lt => Before (Utf8.bytes s) (Utf8.bytes r)
  | .LEq => ¬ Before (Utf8.bytes r) (Utf8.bytes s)
  | .Gt => Before (Utf8.bytes r) (Utf8.bytes s)
  | .GEq => ¬ Before (Utf8.bytes s) (Utf8.bytes r)

/-- Some text among the elements of an array matches. -/
def SomeText (vs : List Value) (P : Str → Prop) : Prop := ∃ s, Value.str s ∈ vs ∧ P s

/-- The meaning of the operators on a number. -/
def NumberMatches (n m : Int) : Operator → Prop
  | .Eq => n = m
  | .Lt => n < m
  | .LEq => n ≤ m
  | .Gt => m < n
  | .GEq => m ≤ n
  | _ => False

def BytesMatch (L : Lib) (bs r : List UInt8) : Operator → Prop
  | .Eq => bs = r
  | .IEq => L.bytesEqualFold bs r = true
  | .Contains => r <:+: bs
  | .Startswith => r <+: bs
  | .Endswith => r <:+ bs
  | _ => False

def DoubleMatches (L : Lib) (d x : UInt64) : Operator → Prop
  | .Eq => L.dblEq d x = true
  | .Lt => L.dblLt d x = true
  | .LEq => L.dblLe d x = true
  | .Gt => L.dblLt x d = true
  | .GEq => L.dblLe x d = true
  | _ => False

def ArrayMatches (L : Lib) (vs : List Value) (r : Str) : Operator → Prop
  | .Contains => SomeText vs (fun s => r <:+: s)
  | .IContains => SomeText vs (fun s => L.lower r <:+: L.lower s)
  | .Startswith => ∃ rest, vs = .str r :: rest
  | .IStartswith => ∃ s rest, vs = .str s :: rest ∧ L.equalFold s r = true
  | .Endswith => ∃ init, vs = init ++ [.str r]
  | .IEndswith => ∃ s init, vs = init ++ [.str s] ∧ L.equalFold s r = true
  | _ => False

/-- The meaning of `value op r`, by the type of the value. -/
def Matches (L : Lib) (v : Value) (r : Str) (op : Operator) : Prop :=
  match v with
  | .str s => TextMatches L s r op
  | .arr vs => ArrayMatches L vs r op
  | .bool b => (op = .Eq ∨ op = .IEq) ∧ (b = true ↔ r ≠ "False".toList)
  | .bytes bs => BytesMatch L bs (Utf8.bytes r) op
  | .double d => ∃ x, L.parseFloat (Strings.trimSpace r) = some x ∧ DoubleMatches L d x op
  | .int n => ∃ m, Decimal.parseInt (Strings.trimSpace r) = (m, true) ∧ NumberMatches n m op
  | _ => False

theorem not_before_nil (a b : List UInt8) (h : Before a b) : b ≠ [] := by cases h <;> simp

theorem bytesLt_iff (a b : List UInt8) : bytesLt a b = true ↔ Before a b := by
  induction a generalizing b with
  | nil =>
    cases b with
    | nil => simp only [bytesLt]; constructor <;> intro h
             · cases h
             · exact absurd rfl (not_before_nil _ _ h)
    | cons x xs => simp only [bytesLt, true_iff]; exact .shorter [] x xs
  | cons x xs ih =>
    cases b with
    | nil =>
      simp only [bytesLt]; constructor <;> intro h
      · cases h
      · exact absurd rfl (not_before_nil _ _ h)
    | cons y ys =>
      simp only [bytesLt]
      by_cases h : x = y
      · subst h
        rw [if_pos rfl, ih]
        constructor
        · intro h
          cases h with
          | shorter p b bs => exact .shorter (x :: xs) b bs
          | smaller p a b as bs h => exact .smaller (x :: p) a b as bs h
        · intro h
          generalize hx : x :: xs = z at h
          generalize hy : x :: ys = w at h
          cases h with
          | shorter p b bs =>
            subst hx
            simp at hy
            rw [hy]; exact .shorter _ _ _
          | smaller p a b as bs h =>
            cases p with
            | nil => simp at hx hy; rw [← hx.1, ← hy.1] at h; exact absurd h (UInt8.lt_irrefl _)
            | cons q p =>
              simp at hx hy
              rw [hx.2, hy.2]; exact .smaller _ _ _ _ _ h
      · rw [if_neg h, decide_eq_true_iff]
        constructor
        · intro hlt; exact .smaller [] x y xs ys hlt
        · intro hb
          generalize hx : x :: xs = z at hb
          generalize hy : y :: ys = w at hb
          cases hb with
          | shorter p b bs =>
            subst hx; simp at hy; exact absurd hy.1.symm h
          | smaller p a b as bs hh =>
            cases p with
            | nil => simp at hx hy; rw [hx.1, hy.1]; exact hh
            | cons q p => simp at hx hy; exact absurd (hx.1.trans hy.1.symm) h

theorem strCmp_iff (L : Lib) (s r : Str) (op : Operator) : strCmp L s r op = true ↔ TextMatches L s r op := by
  cases op <;> simp [strCmp, TextMatches, Strings.contains_iff, Strings.hasPrefix_iff, Strings.hasSuffix_iff, strLt, ← bytesLt_iff]

theorem bytesContains_iff (l r : List UInt8) : bytesContains l r = true ↔ r <:+: l := by
  induction l with
  | nil => simp [bytesContains]
  | cons c cs ih =>
    simp only [bytesContains, Bool.or_eq_true, ih, List.isPrefixOf_iff_prefix]
    exact List.infix_cons_iff.symm

theorem anyElem_iff (L : Lib) (r : Str) (op : Operator) (vs : List Value) (b : Bool) (h : anyElem L r op vs = some b) :
    b = true ↔ SomeText vs (fun s => TextMatches L s r op) := by
  induction vs with
  | nil => simp [anyElem] at h; subst h; simp [SomeText]
  | cons v vs ih =>
    have step : ∀ (_ : ∀ s, v ≠ .str s), anyElem L r op vs = some b → (b = true ↔ SomeText (v :: vs) (fun s => TextMatches L s r op)) := by
      intro hv h
      rw [ih h]
      constructor
      · rintro ⟨s, hs, hm⟩; exact ⟨s, .tail _ hs, hm⟩
      · rintro ⟨s, hs, hm⟩
        rcases List.mem_cons.1 hs with h | h
        · exact absurd h.symm (hv s)
        · exact ⟨s, h, hm⟩
    cases v with
    | missing => simp [anyElem] at h
    | str s =>
      rw [anyElem] at h
      by_cases hm : strCmp L s r op = true
      · rw [if_pos hm] at h
        simp only [Option.some.injEq] at h; subst h
        simp only [true_iff]
        exact ⟨s, .head _, (strCmp_iff L s r op).1 hm⟩
      · rw [if_neg hm] at h
        rw [ih h]
        constructor
        · rintro ⟨t, ht, hh⟩; exact ⟨t, .tail _ ht, hh⟩
        · rintro ⟨t, ht, hh⟩
          rcases List.mem_cons.1 ht with e | e
          · cases e; exact absurd ((strCmp_iff L s r op).2 hh) hm
          · exact ⟨t, e, hh⟩
    | unset => exact step (by simp) h
    | arr x => exact step (by simp) h
    | bool x => exact step (by simp) h
    | bytes x => exact step (by simp) h
    | double x => exact step (by simp) h
    | int x => exact step (by simp) h
    | kvlist x => exact step (by simp) h

theorem elemIs_iff (eq : Str → Bool) (o : Option Value) (b : Bool) (h : elemIs eq o = some b) :
    b = true ↔ ∃ s, o = some (.str s) ∧ eq s = true := by
  cases o with
  | none => simp [elemIs] at h
  | some v =>
    cases v <;> simp [elemIs] at h <;> subst h <;> simp

theorem head_iff (vs : List Value) (v : Value) : vs.head? = some v ↔ ∃ rest, vs = v :: rest := by
  cases vs <;> simp
theorem last_iff (vs : List Value) (v : Value) : vs.getLast? = some v ↔ ∃ init, vs = init ++ [v] := by
  rw [List.getLast?_eq_some_iff]

theorem arrCmp_iff (L : Lib) (vs : List Value) (r : Str) (op : Operator) (b : Bool) (h : arrCmp L vs r op = some b) :
    b = true ↔ ArrayMatches L vs r op := by
  cases op <;> simp only [arrCmp, Option.some.injEq] at h <;> simp only [ArrayMatches]
  case Contains => rw [anyElem_iff L r _ vs b h]; rfl
  case IContains => rw [anyElem_iff L r _ vs b h]; rfl
  case Startswith => rw [elemIs_iff _ _ b h]; simp [head_iff]
  case IStartswith => rw [elemIs_iff _ _ b h]; simp [head_iff]
  case Endswith => rw [elemIs_iff _ _ b h]; simp [last_iff]
  case IEndswith => rw [elemIs_iff _ _ b h]; simp [last_iff]
  all_goals subst h; simp

theorem boolCmp_iff (b : Bool) (r : Str) (op : Operator) :
    boolCmp b r op = true ↔ (op = .Eq ∨ op = .IEq) ∧ (b = true ↔ r ≠ "False".toList) := by
  unfold boolCmp
  generalize "False".toList = f
  by_cases h : r = f <;> cases op <;> cases b <;> simp [h]

theorem bytesCmp_iff (L : Lib) (bs : List UInt8) (r : Str) (op : Operator) :
    bytesCmp L bs r op = true ↔ BytesMatch L bs (Utf8.bytes r) op := by
  cases op <;> simp [bytesCmp, BytesMatch, bytesContains_iff]

theorem dblCmp_iff (L : Lib) (d : UInt64) (r : Str) (op : Operator) :
    dblCmp L d r op = true ↔ ∃ x, L.parseFloat (Strings.trimSpace r) = some x ∧ DoubleMatches L d x op := by
  unfold dblCmp
  cases L.parseFloat (Strings.trimSpace r) with
  | none => simp
  | some x => cases op <;> simp [DoubleMatches]

theorem intCmp_iff (n : Int) (r : Str) (op : Operator) :
    intCmp n r op = true ↔ ∃ m, Decimal.parseInt (Strings.trimSpace r) = (m, true) ∧ NumberMatches n m op := by
  unfold intCmp
  generalize Decimal.parseInt (Strings.trimSpace r) = p
  obtain ⟨m, ok⟩ := p
  cases ok with
  | false => simp
  | true => cases op <;> simp [NumberMatches]

/-- What a deciding value of each kind yields. -/
theorem cmpValue_leaf (L : Lib) (l r : Str) (op : Operator) (cont : Option Bool) (v : Value) (hv : v ≠ .unset)
    (hk : ∀ kvs, v ≠ .kvlist kvs) (b : Bool) (h : cmpValue L l r op cont v = some b) : b = true ↔ Matches L v r op := by
  cases v with
  | missing => simp [cmpValue] at h
  | unset => exact absurd rfl hv
  | str s => simp only [cmpValue, Option.some.injEq] at h; subst h; exact strCmp_iff ..
  | arr vs => simp only [cmpValue] at h; exact arrCmp_iff L vs r op b h
  | bool x => simp only [cmpValue, Option.some.injEq] at h; subst h; exact boolCmp_iff ..
  | bytes x => simp only [cmpValue, Option.some.injEq] at h; subst h; exact bytesCmp_iff ..
  | double x => simp only [cmpValue, Option.some.injEq] at h; subst h; exact dblCmp_iff ..
  | int x => simp only [cmpValue, Option.some.injEq] at h; subst h; exact intCmp_iff ..
  | kvlist x => exact absurd rfl (hk x)

theorem cmpKVs_skip (L : Lib) (l r : Str) (op : Operator) (pre rest : List KV) (hpre : ∀ p ∈ pre, p.1 = l → p.2 = .unset) :
    cmpKVs L l r op (pre ++ rest) = cmpKVs L l r op rest := by
  induction pre with
  | nil => rfl
  | cons p pre ih =>
    obtain ⟨k, v⟩ := p
    rw [List.cons_append, cmpKVs, ih (fun q hq => hpre q (.tail _ hq))]
    by_cases h : k = l
    · have : v = .unset := hpre (k, v) (.head _) h
      subst this
      simp [h, cmpValue]
    · simp [h]

/-- A deciding value determines the result. -/
theorem cmpKVs_decides (L : Lib) (l r : Str) (op : Operator) (kvs : List KV) (v : Value) (h : Decides l kvs v) :
    ∃ cont, cmpKVs L l r op kvs = cmpValue L l r op cont v ∧ v ≠ .unset ∧ ∀ kvs, v ≠ .kvlist kvs := by
  induction h with
  | here pre post v hpre hv hk =>
    refine ⟨cmpKVs L l r op post, ?_, hv, hk⟩
    rw [cmpKVs_skip L l r op pre _ hpre, cmpKVs]; simp
  | nested pre post kvs v hpre _ ih =>
    obtain ⟨c, h1, h2, h3⟩ := ih
    refine ⟨c, ?_, h2, h3⟩
    rw [cmpKVs_skip L l r op pre _ hpre, cmpKVs]
    simp [cmpValue, h1]

/-- Either some value decides, or the comparison is false. -/
theorem cmpKVs_or (L : Lib) (l r : Str) (op : Operator) : ∀ kvs : List KV,
    (∃ v, Decides l kvs v) ∨ cmpKVs L l r op kvs = some false
  | [] => .inr (by simp [cmpKVs])
  | (k, v) :: rest => by
    by_cases hk : k = l
    · subst hk
      cases hv : v with
      | unset =>
        rcases cmpKVs_or L k r op rest with ⟨w, hw⟩ | hw
        · refine .inl ⟨w, ?_⟩
          cases hw with
          | here pre post v hpre hv hk =>
            exact .here ((k, .unset) :: pre) post _ (by
              intro p hp
              rcases List.mem_cons.1 hp with rfl | hp
              · intro _; rfl
              · exact hpre p hp) hv hk
          | nested pre post kvs v hpre h =>
            exact .nested ((k, .unset) :: pre) post kvs _ (by
              intro p hp
              rcases List.mem_cons.1 hp with rfl | hp
              · intro _; rfl
              · exact hpre p hp) h
        · right; rw [cmpKVs]; simp [cmpValue, hw]
      | kvlist kvs =>
        rcases cmpKVs_or L k r op kvs with ⟨w, hw⟩ | hw
        · exact .inl ⟨w, .nested [] rest kvs w (by simp) hw⟩
        · right; rw [cmpKVs]; simp [cmpValue, hw]
      | missing => exact .inl ⟨_, .here [] rest _ (by simp) (by simp) (by simp)⟩
      | str _ => exact .inl ⟨_, .here [] rest _ (by simp) (by simp) (by simp)⟩
      | arr _ => exact .inl ⟨_, .here [] rest _ (by simp) (by simp) (by simp)⟩
      | bool _ => exact .inl ⟨_, .here [] rest _ (by simp) (by simp) (by simp)⟩
      | bytes _ => exact .inl ⟨_, .here [] rest _ (by simp) (by simp) (by simp)⟩
      | double _ => exact .inl ⟨_, .here [] rest _ (by simp) (by simp) (by simp)⟩
      | int _ => exact .inl ⟨_, .here [] rest _ (by simp) (by simp) (by simp)⟩
    · rcases cmpKVs_or L l r op rest with ⟨w, hw⟩ | hw
      · refine .inl ⟨w, ?_⟩
        cases hw with
        | here pre post v' hpre hv hk' =>
          exact .here ((k, v) :: pre) post _ (by
            intro p hp
            rcases List.mem_cons.1 hp with rfl | hp
            · intro h; exact absurd h hk
            · exact hpre p hp) hv hk'
        | nested pre post kvs v' hpre h =>
          exact .nested ((k, v) :: pre) post kvs _ (by
            intro p hp
            rcases List.mem_cons.1 hp with rfl | hp
            · intro h; exact absurd h hk
            · exact hpre p hp) h
      · right; rw [cmpKVs]; simp [hk, hw]
termination_by kvs => sizeOf kvs
decreasing_by
  all_goals simp_wf
  all_goals (try subst hv)
  all_goals (try simp)
  all_goals omega

/-- C31: the outcome of a comparison (when it does not panic). It holds exactly when a value decides and
matches; without one it is false. -/
theorem otel_compare (L : Lib) (l r : Str) (op : Operator) (rl : ResourceLogs) (res : List KV) (hres : rl.resource = some res)
    (b : Bool) (h : compare? L l r op rl = some b) :
    b = true ↔ ∃ v, Decides l (attributes res rl.scopes) v ∧ Matches L v r op := by
  unfold compare? at h
  rw [(otel_attribute_order rl).1 res hres] at h
  simp only at h
  constructor
  · intro hb
    subst hb
    rcases cmpKVs_or L l r op (attributes res rl.scopes) with ⟨v, hv⟩ | hf
    · obtain ⟨c, h1, h2, h3⟩ := cmpKVs_decides L l r op _ v hv
      rw [h1] at h
      exact ⟨v, hv, (cmpValue_leaf L l r op c v h2 h3 true h).1 rfl⟩
    · rw [hf] at h; cases h
  · rintro ⟨v, hv, hm⟩
    obtain ⟨c, h1, h2, h3⟩ := cmpKVs_decides L l r op _ v hv
    rw [h1] at h
    exact (cmpValue_leaf L l r op c v h2 h3 b h).2 hm

/-- C31: the first attribute with the key decides: attributes after it, and attributes with other keys
anywhere, are irrelevant. -/
theorem otel_first_decides (L : Lib) (l r : Str) (op : Operator) (pre post post' : List KV) (v : Value)
    (hpre : ∀ p ∈ pre, p.1 ≠ l) (hv : v ≠ .unset) :
    cmpKVs L l r op (pre ++ (l, v) :: post) = cmpKVs L l r op ((l, v) :: post') := by
  rw [cmpKVs_skip L l r op pre _ (fun p hp h => absurd h (hpre p hp))]
  cases v <;> simp [cmpKVs, cmpValue] at hv ⊢

/-- C31: an attribute that is absent compares false (and never panics) with every operator. -/
theorem otel_absent (L : Lib) (l r : Str) (op : Operator) (rl : ResourceLogs) (res : List KV) (hres : rl.resource = some res)
    (h : ∀ p ∈ attributes res rl.scopes, p.1 ≠ l) : compare? L l r op rl = some false := by
  unfold compare?
  rw [(otel_attribute_order rl).1 res hres]
  have := cmpKVs_skip L l r op (attributes res rl.scopes) [] (fun p hp h' => absurd h' (h p hp))
  rw [List.append_nil] at this
  simp [this, cmpKVs]

/-- The nil elements an array comparison can run into. -/
def ArrayPanics (L : Lib) (vs : List Value) (r : Str) : Operator → Prop
  | .Contains => ∃ pre post, vs = pre ++ .missing :: post ∧ ¬ SomeText pre (fun s => r <:+: s)
  | .IContains => ∃ pre post, vs = pre ++ .missing :: post ∧ ¬ SomeText pre (fun s => L.lower r <:+: L.lower s)
  | .Startswith => vs = [] ∨ ∃ rest, vs = .missing :: rest
  | .IStartswith => vs = [] ∨ ∃ rest, vs = .missing :: rest
  | .Endswith => vs = [] ∨ ∃ init, vs = init ++ [.missing]
  | .IEndswith => vs = [] ∨ ∃ init, vs = init ++ [.missing]
  | _ => False

theorem anyElem_none_iff (L : Lib) (r : Str) (op : Operator) (vs : List Value) :
    anyElem L r op vs = none ↔ ∃ pre post, vs = pre ++ .missing :: post ∧ ¬ SomeText pre (fun s => TextMatches L s r op) := by
  induction vs with
  | nil => simp [anyElem]
  | cons v vs ih =>
    have cons : ∀ (hv : ∀ s, v = .str s → ¬ TextMatches L s r op) (hm : v ≠ .missing),
        (∃ pre post, vs = pre ++ .missing :: post ∧ ¬ SomeText pre (fun s => TextMatches L s r op)) ↔
        (∃ pre post, v :: vs = pre ++ .missing :: post ∧ ¬ SomeText pre (fun s => TextMatches L s r op)) := by
      intro hv hm
      constructor
      · rintro ⟨pre, post, rfl, hn⟩
        refine ⟨v :: pre, post, rfl, ?_⟩
        rintro ⟨s, hs, ht⟩
        rcases List.mem_cons.1 hs with e | e
        · exact hv s e.symm ht
        · exact hn ⟨s, e, ht⟩
      · rintro ⟨pre, post, he, hn⟩
        cases pre with
        | nil => simp at he; exact absurd he.1 hm
        | cons p pre =>
          simp at he
          exact ⟨pre, post, he.2, fun ⟨s, hs, ht⟩ => hn ⟨s, .tail _ hs, ht⟩⟩
    cases v with
    | missing =>
      simp only [anyElem, true_iff]
      exact ⟨[], vs, rfl, fun ⟨s, hs, _⟩ => by cases hs⟩
    | str s =>
      rw [anyElem]
      by_cases hm : strCmp L s r op = true
      · rw [if_pos hm]
        constructor
        · intro h; cases h
        · rintro ⟨pre, post, he, hn⟩
          cases pre with
          | nil => simp at he
          | cons p pre =>
            simp at he
            exact absurd ⟨s, by rw [← he.1]; exact .head _, (strCmp_iff ..).1 hm⟩ hn
      · rw [if_neg hm, ih]
        exact cons (by intro t e; cases e; exact fun h => hm ((strCmp_iff ..).2 h)) (by simp)
    | unset => exact ih.trans (cons (by simp) (by simp))
    | arr x => exact ih.trans (cons (by simp) (by simp))
    | bool x => exact ih.trans (cons (by simp) (by simp))
    | bytes x => exact ih.trans (cons (by simp) (by simp))
    | double x => exact ih.trans (cons (by simp) (by simp))
    | int x => exact ih.trans (cons (by simp) (by simp))
    | kvlist x => exact ih.trans (cons (by simp) (by simp))

theorem elemIs_none_iff (eq : Str → Bool) (o : Option Value) : elemIs eq o = none ↔ o = none ∨ o = some .missing := by
  cases o with
  | none => simp [elemIs]
  | some v => cases v <;> simp [elemIs]

theorem arrCmp_none_iff (L : Lib) (vs : List Value) (r : Str) (op : Operator) : arrCmp L vs r op = none ↔ ArrayPanics L vs r op := by
  cases op <;> simp only [arrCmp, ArrayPanics, anyElem_none_iff, elemIs_none_iff, head_iff, last_iff, List.head?_eq_none_iff,
    List.getLast?_eq_none_iff, TextMatches, reduceCtorEq]

/-- C31 (finding): a comparison panics exactly when the record has no resource, or the deciding value is
absent (an attribute without value), or it is an array on which the operator fails: an empty array for
startswith and endswith, or a nil element. -/
theorem otel_compare_panics_iff (L : Lib) (l r : Str) (op : Operator) (rl : ResourceLogs) :
    compare? L l r op rl = none ↔ rl.resource = none ∨ ∃ res v, rl.resource = some res ∧ Decides l (attributes res rl.scopes) v ∧
      (v = .missing ∨ ∃ vs, v = .arr vs ∧ ArrayPanics L vs r op) := by
  cases hres : rl.resource with
  | none => simp [compare?, (otel_attribute_order rl).2 hres]
  | some res =>
    unfold compare?
    rw [(otel_attribute_order rl).1 res hres]
    simp only [reduceCtorEq, Option.some.injEq, false_or]
    constructor
    · intro h
      rcases cmpKVs_or L l r op (attributes res rl.scopes) with ⟨v, hv⟩ | hf
      · obtain ⟨c, h1, h2, h3⟩ := cmpKVs_decides L l r op _ v hv
        rw [h1] at h
        refine ⟨res, v, rfl, hv, ?_⟩
        cases v with
        | missing => exact .inl rfl
        | arr vs => exact .inr ⟨vs, rfl, (arrCmp_none_iff L vs r op).1 h⟩
        | unset => exact absurd rfl h2
        | kvlist k => exact absurd rfl (h3 k)
        | str _ => simp [cmpValue] at h
        | bool _ => simp [cmpValue] at h
        | bytes _ => simp [cmpValue] at h
        | double _ => simp [cmpValue] at h
        | int _ => simp [cmpValue] at h
      · rw [hf] at h; cases h
    · rintro ⟨_, v, rfl, hv, hp⟩
      obtain ⟨c, h1, h2, h3⟩ := cmpKVs_decides L l r op _ v hv
      rw [h1]
      rcases hp with rfl | ⟨vs, rfl, hp⟩
      · simp [cmpValue]
      · simp only [cmpValue]; exact (arrCmp_none_iff L vs r op).2 hp

/-! ## C31: the other operations -/

/-- C31: an attribute exists exactly when some attribute has that key (whatever its value). -/
theorem otel_exists (attr : Str) (rl : ResourceLogs) (res : List KV) (hres : rl.resource = some res) :
    ∃ b, exists? attr rl = some b ∧ (b = true ↔ ∃ v, (attr, v) ∈ attributes res rl.scopes) := by
  unfold exists?
  rw [(otel_attribute_order rl).1 res hres]
  refine ⟨_, rfl, ?_⟩
  generalize attributes res rl.scopes = kvs
  induction kvs with
  | nil => simp [hasKey]
  | cons p kvs ih =>
    obtain ⟨k, v⟩ := p
    rw [hasKey]
    by_cases h : k = attr
    · rw [if_pos h]; simp only [true_iff]; exact ⟨v, by rw [h]; exact .head _⟩
    · rw [if_neg h, ih]
      constructor
      · rintro ⟨v, hv⟩; exact ⟨v, .tail _ hv⟩
      · rintro ⟨w, hw⟩
        rcases List.mem_cons.1 hw with e | e
        · simp at e; exact absurd e.1.symm h
        · exact ⟨w, e⟩

/-- C31: `in`/`pmatch`-style folds are the disjunction and conjunction of the comparisons. -/
theorem otel_folds (L : Lib) (attr : Str) (list : List Str) (op : Operator) (rl : ResourceLogs) (b : Bool) :
    (foldAny? L attr list op rl = some b → (b = true ↔ ∃ x ∈ list, compare? L attr x op rl = some true)) ∧
    (foldAll? L attr list op rl = some b → (b = true ↔ ∀ x ∈ list, compare? L attr x op rl = some true)) := by
  unfold foldAny? foldAll? compare?
  cases getAllAttributes rl with
  | none => simp
  | some kvs =>
    simp only
    constructor
    · intro h
      induction list with
      | nil => simp [foldAnyLoop] at h; subst h; simp
      | cons x xs ih =>
        rw [foldAnyLoop] at h
        cases hc : cmpKVs L attr x op kvs with
        | none => simp [hc] at h
        | some c =>
          cases c with
          | true => simp [hc] at h; subst h; simp [hc]
          | false => simp only [hc] at h; simpa [hc] using ih h
    · intro h
      induction list with
      | nil => simp [foldAllLoop] at h; subst h; simp
      | cons x xs ih =>
        rw [foldAllLoop] at h
        cases hc : cmpKVs L attr x op kvs with
        | none => simp [hc] at h
        | some c =>
          cases c with
          | true => simp only [hc] at h; simpa [hc] using ih h
          | false => simp [hc] at h; subst h; simp [hc]

/-- C31: a regular expression is applied to the first attribute with the key, and matches only a text; one that
does not compile is an error. -/
theorem otel_regexp (L : Lib) (attr re : Str) (rl : ResourceLogs) (res : List KV) (hres : rl.resource = some res) :
    (L.regexp re = none → (regExp? L attr re).2 = true ∧ (regExp? L attr re).1 rl = some false) ∧
    (∀ find, L.regexp re = some find → (regExp? L attr re).2 = false ∧
      ((regExp? L attr re).1 rl = some true ↔ ∃ pre post s, attributes res rl.scopes = pre ++ (attr, .str s) :: post ∧
        (∀ p ∈ pre, p.1 ≠ attr) ∧ find s ≠ [])) := by
  constructor
  · intro h; simp [regExp?, h]
  · intro find h
    refine ⟨by simp [regExp?, h], ?_⟩
    simp only [regExp?, h, (otel_attribute_order rl).1 res hres]
    generalize attributes res rl.scopes = kvs
    induction kvs with
    | nil => simp [regExpLoop]
    | cons p kvs ih =>
      obtain ⟨k, v⟩ := p
      unfold regExpLoop
      by_cases hk : k = attr
      · subst hk
        simp only [ne_eq, not_true_eq_false, if_false]
        constructor
        · intro hv
          cases v with
          | str s => exact ⟨[], kvs, s, rfl, by simp, by simpa using hv⟩
          | missing => cases hv
          | unset => simp at hv
          | arr _ => simp at hv
          | bool _ => simp at hv
          | bytes _ => simp at hv
          | double _ => simp at hv
          | int _ => simp at hv
          | kvlist _ => simp at hv
        · rintro ⟨pre, post, s, he, hpre, hf⟩
          cases pre with
          | nil => simp at he; obtain ⟨rfl, rfl⟩ := he; simpa using hf
          | cons q pre => simp at he; exact absurd (by rw [← he.1]) (hpre q (.head _))
      · simp only [ne_eq, hk, not_false_eq_true, if_true, ih]
        constructor
        · rintro ⟨pre, post, s, rfl, hpre, hf⟩
          refine ⟨(k, v) :: pre, post, s, rfl, ?_, hf⟩
          intro p hp
          rcases List.mem_cons.1 hp with rfl | hp
          · exact hk
          · exact hpre p hp
        · rintro ⟨pre, post, s, he, hpre, hf⟩
          cases pre with
          | nil => simp at he; exact absurd he.1.1 hk
          | cons q pre =>
            simp at he
            exact ⟨pre, post, s, he.2, fun p hp => hpre p (.tail _ hp), hf⟩

/-- C31 (finding): Booleans are compared with the exact spelling `False`: any other text, `false` included,
stands for true. -/
theorem otel_bool_spelling (L : Lib) (r : Str) : Matches L (.bool true) "false".toList .Eq ∧ ¬ Matches L (.bool false) "false".toList .Eq ∧
    (r ≠ "False".toList → ¬ Matches L (.bool false) r .Eq) := by
  have h : "false".toList ≠ "False".toList := by decide
  unfold Matches
  refine ⟨⟨.inl rfl, by simp [h]⟩, ?_, ?_⟩
  · rintro ⟨_, hh⟩; exact absurd (hh.2 h) (by decide)
  · intro hr ⟨_, hh⟩; exact absurd (hh.2 hr) (by decide)

end Verif.Otel
