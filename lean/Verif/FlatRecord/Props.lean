import Verif.FlatRecord.Ops
import Verif.Engine.Props
/-! Properties of flat records, attribute resolution and criteria (C13-C21, C57). -/
namespace Verif.FlatRecord
open Verif.Decimal (Str)
open Verif.SysFlow
open Verif.Policy
open Verif.Strings (IsComponent)

/-! ## Specification -/

/-- Meaning of an operator on two texts (C14). -/
def StrMeaning (C : CaseLib) : Operator → Str → Str → Prop
  | .Eq, l, r => l = r
  | .IEq, l, r => C.equalFold l r = true
  | .Contains, l, r => r <:+: l
  | .IContains, l, r => C.lower r <:+: C.lower l
  | .Startswith, l, r => r <+: l
  | .IStartswith, l, r => C.lower r <+: C.lower l
  | .Endswith, l, r => r <:+ l
  | .IEndswith, l, r => C.lower r <:+ C.lower l
  | _, _, _ => False

/-- Meaning of an operator on two integers (C14). -/
def IntMeaning : Operator → Int → Int → Prop
  | .Eq, l, r => l = r
  | .Lt, l, r => l < r
  | .LEq, l, r => l ≤ r
  | .Gt, l, r => l > r
  | .GEq, l, r => l ≥ r
  | _, _, _ => False

/-- The operators that compare numbers. -/
def Ordering : List Operator := [.Lt, .LEq, .Gt, .GEq]

/-- Some component of `l` and some component of `r` are related by the operator (C13). -/
def SomeMatch (C : CaseLib) (op : Operator) (l r : Str) : Prop :=
  ∃ x y, IsComponent ',' l x ∧ IsComponent ',' r y ∧ StrMeaning C op x y

/-- A value that counts as present (C16). -/
inductive Present : FVal → Prop
  | str (c : Char) (s : Str) : Present (.str (c :: s))
  | i64 (n : Int) : n ≠ 0 → Present (.i64 n)
  | i32 (n : Int) : n ≠ 0 → Present (.i32 n)
  | bool : Present (.bool true)
  | intArr (l : List Int) : Present (.intArr (some l))
  | svcArr (l : List Service) : Present (.svcArr (some l))

/-- A name is a field of the table. -/
def IsField (t : Table) (attr : Str) : Prop := ∃ m, (attr, m) ∈ t

/-! ## C14: operators -/

theorem strOp_meaning (C : CaseLib) (op : Operator) (l r : Str) :
    callOp (strOp C op) l r = true ↔ StrMeaning C op l r := by
  cases op <;> simp [strOp, callOp, StrMeaning, Strings.contains_iff, Strings.hasPrefix_iff, Strings.hasSuffix_iff]

/-- C14: every string operator means the list-theoretic relation it is named after, and exactly the
numeric operators are rejected as string operators. -/
theorem string_operators (C : CaseLib) (op : Operator) :
    (strOp C op = none ↔ op ∈ Ordering) ∧
    ∀ f, strOp C op = some f → ∀ l r, (f l r = true ↔ StrMeaning C op l r) := by
  constructor
  · cases op <;> simp [strOp, Ordering]
  · intro f hf l r
    rw [← strOp_meaning, hf]; rfl

/-- C14: the integer operators are equality and the integer order; all others are rejected. -/
theorem integer_operators (op : Operator) :
    (intOp op = none ↔ op ≠ .Eq ∧ op ∉ Ordering) ∧
    ∀ f, intOp op = some f → ∀ l r, (f l r = true ↔ IntMeaning op l r) := by
  constructor
  · cases op <;> simp [intOp, Ordering]
  · intro f hf l r
    cases op <;> simp [intOp] at hf <;> subst hf <;> simp [IntMeaning]

/-- C14: slice equality is equality of lists; nothing else is a slice operator. -/
theorem slice_operators {α : Type u} [DecidableEq α] (op : Operator) :
    (op ≠ .Eq → (sliceOp (α := α) op) = none) ∧
    ∃ f, sliceOp (α := α) .Eq = some f ∧ ∀ l r, (f l r = true ↔ l = r) := by
  constructor
  · cases op <;> simp [sliceOp]
  · refine ⟨_, rfl, ?_⟩
    intro l r
    have h : ∀ l r : List α, l.length = r.length → (elementsEq l r = true ↔ l = r) := by
      intro l
      induction l with
      | nil => intro r hr; cases r <;> simp [elementsEq] at hr ⊢
      | cons a as ih =>
        intro r hr
        cases r with
        | nil => simp at hr
        | cons b bs =>
          simp only [elementsEq]
          by_cases hab : a = b
          · subst hab; simpa using ih bs (by simpa using hr)
          · simp [hab]
    by_cases hl : l.length = r.length
    · simp [hl, h l r hl]
    · simp only [ne_eq, hl, not_false_eq_true, if_true, Bool.false_eq_true, false_iff]
      intro e; exact hl (by rw [e])

example : (∃ f, strOp ⟨id, fun l r => l == r⟩ .Startswith = some f ∧ f "usr/bin".toList "usr".toList = true) :=
  ⟨_, rfl, by decide⟩

/-! ## C13: comparisons -/

theorem anyRight_iff (o : Str → Str → Bool) (l : Str) (rs : List Str) : anyRight o l rs = true ↔ ∃ y ∈ rs, o l y = true := by
  induction rs with
  | nil => simp [anyRight]
  | cons r rs ih => simp only [anyRight]; split <;> simp_all

theorem anyLeft_iff (o : Str → Str → Bool) (rs ls : List Str) :
    anyLeft o rs ls = true ↔ ∃ x ∈ ls, ∃ y ∈ rs, o x y = true := by
  induction ls with
  | nil => simp [anyLeft]
  | cons l ls ih =>
    simp only [anyLeft]
    by_cases h : anyRight o l rs = true
    · simp only [h, if_true, true_iff]
      obtain ⟨y, hy, ho⟩ := (anyRight_iff o l rs).1 h
      exact ⟨l, by simp, y, hy, ho⟩
    · simp only [h]
      have h' : ¬ ∃ y ∈ rs, o l y = true := fun hh => h ((anyRight_iff o l rs).2 hh)
      simp only [Bool.false_eq_true, if_false, ih, List.mem_cons, exists_eq_or_imp, h', false_or]

theorem compareVals_iff (C : CaseLib) (op : Operator) (l r : Str) :
    compareVals (callOp (strOp C op)) l r = true ↔ SomeMatch C op l r := by
  unfold compareVals SomeMatch
  rw [anyLeft_iff]
  constructor
  · rintro ⟨x, hx, y, hy, h⟩
    exact ⟨x, y, (Strings.mem_split_iff _ _ _).1 hx, (Strings.mem_split_iff _ _ _).1 hy, (strOp_meaning C op x y).1 h⟩
  · rintro ⟨x, y, hx, hy, h⟩
    exact ⟨x, (Strings.mem_split_iff _ _ _).2 hx, y, (Strings.mem_split_iff _ _ _).2 hy, (strOp_meaning C op x y).2 h⟩

/-- C13: a string comparison holds exactly when some comma-separated component of the left value and
some comma-separated component of the right value are related by the operator. -/
theorem string_comparison (L : Lib) (t : Table) (l r : Str) (op : Operator) (hop : op ∉ Ordering) (rec : Record) :
    ((flatOps L t).compare l r op).pred rec = true ↔ SomeMatch L.toCaseLib op (mapStr L t l rec.fr) (mapStr L t r rec.fr) := by
  have : (flatOps L t).compare l r op = compareStrC L t l r op := by
    cases op <;> simp [Ordering] at hop <;> rfl
  rw [this]
  exact compareVals_iff _ _ _ _

/-- C13/C14: a numeric comparison is the integer order on the resolved integers. -/
theorem integer_comparison (L : Lib) (t : Table) (l r : Str) (op : Operator) (hop : op ∈ Ordering) (rec : Record) :
    ((flatOps L t).compare l r op).pred rec = true ↔ IntMeaning op (mapInt L t l rec.fr) (mapInt L t r rec.fr) := by
  cases op <;> simp [Ordering] at hop <;>
    simp [flatOps, compareC, compareIntC, intOp, callOp, IntMeaning]

/-- Without commas on either side a comparison is just the operator. -/
theorem single_valued_comparison (C : CaseLib) (op : Operator) (l r : Str) (hl : ',' ∉ l) (hr : ',' ∉ r) :
    SomeMatch C op l r ↔ StrMeaning C op l r := by
  have comp : ∀ s x : Str, ',' ∉ s → (IsComponent ',' s x ↔ x = s) := by
    intro s x hs
    rw [← Strings.mem_split_iff, Strings.split_of_not_mem ',' s hs]; simp
  unfold SomeMatch
  constructor
  · rintro ⟨x, y, hx, hy, h⟩
    rw [(comp l x hl).1 hx, (comp r y hr).1 hy] at h; exact h
  · intro h; exact ⟨l, r, (comp l l hl).2 rfl, (comp r r hr).2 rfl, h⟩

/-! ## C15: folds -/

/-- C15: `FoldAny` is true exactly when the comparison holds for at least one listed value. -/
theorem foldAny_iff (L : Lib) (t : Table) (attr : Str) (vs : List Str) (op : Operator) (rec : Record) :
    ((flatOps L t).foldAny attr vs op).pred rec = true ↔
      ∃ v ∈ vs, SomeMatch L.toCaseLib op (mapStr L t attr rec.fr) v := by
  show foldAnyLoop _ _ vs = true ↔ _
  induction vs with
  | nil => simp [foldAnyLoop]
  | cons v vs ih =>
    simp only [foldAnyLoop, List.mem_cons, exists_eq_or_imp, ← compareVals_iff]
    by_cases h : compareVals (callOp (strOp L.toCaseLib op)) (mapStr L t attr rec.fr) v = true
    · simp [h]
    · simp only [h, Bool.false_eq_true, if_false, false_or, ih, ← compareVals_iff]

/-- C15: `FoldAll` is true exactly when the comparison holds for all listed values. -/
theorem foldAll_iff (L : Lib) (t : Table) (attr : Str) (vs : List Str) (op : Operator) (rec : Record) :
    ((flatOps L t).foldAll attr vs op).pred rec = true ↔
      ∀ v ∈ vs, SomeMatch L.toCaseLib op (mapStr L t attr rec.fr) v := by
  show foldAllLoop _ _ vs = true ↔ _
  induction vs with
  | nil => simp [foldAllLoop]
  | cons v vs ih =>
    simp only [foldAllLoop, List.mem_cons, forall_eq_or_imp, ← compareVals_iff]
    by_cases h : compareVals (callOp (strOp L.toCaseLib op)) (mapStr L t attr rec.fr) v = true
    · simp only [h, Bool.not_true, Bool.false_eq_true, if_false, true_and, ih, ← compareVals_iff]
    · simp [h]

/-- C15: a regular expression that does not compile yields an error and a criterion that never holds;
one that does holds exactly on the records whose value has a non-empty match. -/
theorem regExp_iff (L : Lib) (t : Table) (attr re : Str) (rec : Record) :
    (L.regexp re = none → ((flatOps L t).regExp attr re).2 = true ∧ ((flatOps L t).regExp attr re).1.pred rec = false) ∧
    (∀ find, L.regexp re = some find → ((flatOps L t).regExp attr re).2 = false ∧
      (((flatOps L t).regExp attr re).1.pred rec = true ↔ find (mapStr L t attr rec.fr) ≠ [])) := by
  constructor
  · intro h; simp [flatOps, regExpC, h, Criterion.ff]
  · intro find h; simp [flatOps, regExpC, h]

/-! ## C16: existence -/

/-- C16: `exists(attr)` is true exactly when the attribute's value is present. -/
theorem exists_iff (L : Lib) (t : Table) (attr : Str) (rec : Record) :
    ((flatOps L t).exist attr).pred rec = true ↔ Present (mapAttr L t attr rec.fr) := by
  show (!isZero (mapAttr L t attr rec.fr)) = true ↔ _
  cases h : mapAttr L t attr rec.fr with
  | str s =>
    cases s with
    | nil => simp [isZero]; intro h'; cases h'
    | cons c cs => simp [isZero]; exact .str c cs
  | i64 n =>
    simp [isZero]
    exact ⟨fun hn => .i64 n hn, fun hp => by cases hp; assumption⟩
  | i32 n =>
    simp [isZero]
    exact ⟨fun hn => .i32 n hn, fun hp => by cases hp; assumption⟩
  | bool b =>
    cases b
    · simp [isZero]; intro h'; cases h'
    · simp [isZero]; exact .bool
  | intArr l =>
    cases l
    · simp [isZero]; intro h'; cases h'
    · simp [isZero]; exact .intArr _
  | svcArr l =>
    cases l
    · simp [isZero]; intro h'; cases h'
    · simp [isZero]; exact .svcArr _

/-! ## Table facts -/

theorem get_none_iff (t : Table) (attr : Str) : t.get attr = none ↔ ¬ IsField t attr := by
  induction t with
  | nil => simp [Table.get, IsField]
  | cons e t ih =>
    obtain ⟨n, m⟩ := e
    simp only [Table.get]
    by_cases h : n = attr
    · subst h; simp [IsField]
    · simp only [h, if_false, ih, IsField, List.mem_cons, Prod.mk.injEq]
      constructor
      · rintro hh ⟨x, hx | hx⟩
        · exact h hx.1.symm
        · exact hh ⟨x, hx⟩
      · rintro hh ⟨x, hx⟩; exact hh ⟨x, Or.inr hx⟩

theorem get_some_mem (t : Table) (attr : Str) (m : Mapper) (h : t.get attr = some m) : (attr, m) ∈ t := by
  induction t with
  | nil => simp [Table.get] at h
  | cons e t ih =>
    obtain ⟨n, m'⟩ := e
    simp only [Table.get] at h
    split at h
    · simp_all
    · exact List.mem_cons_of_mem _ (ih h)

end Verif.FlatRecord
