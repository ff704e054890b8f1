import Verif.Base.Snoc
import Verif.Base.Decimal
import Mathlib.Data.List.Forall2
/-
C87: the name patterns of Sigma conditions (`1 of sel*`, `all of filter_?`): `path.Match` of Go's standard library, which
/repo/core/policyengine/policy/sigma/compiler.go:180, 197 calls.

Simplification: texts are characters, not bytes. Go compares literals byte by byte and decodes UTF-8 for `?` and `[`; the two agree
for ASCII names.
-/
namespace Verif.Sigma
open Verif.Decimal (Str)

/-! ### Model -/

/-- `getEsc` (path/match.go): a character of a class, possibly escaped; it must not be the last of the chunk. `none` is `ErrBadPattern`. -/
def getEsc : Str → Option (Char × Str)
  | [] => none
  | c :: cs =>
    if c = '-' ∨ c = ']' then none
    else if c = '\\' then
      match cs with
      | d :: e :: rest => some (d, e :: rest)
      | _ => none
    else
      match cs with
      | e :: rest => some (c, e :: rest)
      | [] => none

/-- The loop over the ranges of a class (path/match.go, `matchChunk`): whether the character is in one of them, and the chunk after the
class. `n` bounds the iterations, `first` says that no range was read yet. -/
def classRanges : Nat → Bool → Char → Bool → Str → Option (Bool × Str)
  | 0, _, _, _, _ => none
  | n + 1, first, r, m, chunk =>
    if chunk.head? = some ']' ∧ first = false then some (m, chunk.tail)
    else match getEsc chunk with
      | none => none
      | some (lo, chunk) =>
        if chunk.head? = some '-' then
          match getEsc chunk.tail with
          | none => none
          | some (hi, chunk) => classRanges n false r (m || (decide (lo ≤ r) && decide (r ≤ hi))) chunk
        else classRanges n false r (m || (decide (lo ≤ r) && decide (r ≤ lo))) chunk

/-- `matchChunk` (path/match.go): outer `none` is `ErrBadPattern`, inner `none` no match, else the rest of the text. `n` bounds the
iterations; a text of `none` stands for `failed`. -/
def matchChunkF : Nat → Str → Option Str → Option (Option Str)
  | _, [], s => some s
  | 0, _ :: _, _ => none
  | n + 1, c :: chunk, s =>
    -- the text is exhausted: go on checking the pattern only
    let s := s.bind (fun t => if t = [] then none else some t)
    if c = '[' then
      let negated := chunk.head? == some '^'
      match classRanges (chunk.length + 1) true ((s.bind List.head?).getD (Char.ofNat 0)) false (if negated then chunk.tail else chunk) with
      | none => none
      | some (m, chunk) => matchChunkF n chunk (if m = negated then none else s.map List.tail)
    else if c = '?' then
      matchChunkF n chunk (s.bind (fun t => if t.head? = some '/' then none else some t.tail))
    else if c = '\\' then
      match chunk with
      | [] => none
      | d :: chunk => matchChunkF n chunk (s.bind (fun t => if t.head? = some d then some t.tail else none))
    else matchChunkF n chunk (s.bind (fun t => if t.head? = some c then some t.tail else none))

/-- `matchChunk`: each iteration shortens the chunk. -/
def matchChunk (chunk s : Str) : Option (Option Str) := matchChunkF chunk.length chunk (some s)

/-- The scanning loop of `scanChunk` (path/match.go): chunk and rest. The second argument says that the character before was a backslash, which makes the
loop pass over this one. -/
def scanBody : Bool → Bool → Str → Str × Str
  | _, _, [] => ([], [])
  | inr, true, c :: cs => (c :: (scanBody inr false cs).1, (scanBody inr false cs).2)
  | inr, false, c :: cs =>
    if c = '\\' then (c :: (scanBody inr true cs).1, (scanBody inr true cs).2)
    else if c = '[' then (c :: (scanBody true false cs).1, (scanBody true false cs).2)
    else if c = ']' then (c :: (scanBody false false cs).1, (scanBody false false cs).2)
    else if c = '*' ∧ inr = false then ([], c :: cs)
    else (c :: (scanBody inr false cs).1, (scanBody inr false cs).2)

/-- `scanChunk` (path/match.go): a chunk without star, possibly preceded by stars. -/
def scanChunk (p : Str) : Bool × Str × Str :=
  (p.head? == some '*', (scanBody false false (p.dropWhile (· == '*'))).1, (scanBody false false (p.dropWhile (· == '*'))).2)

/-- The loop that skips characters after a star (path/match.go, `Match`); `last` says that the pattern ends with this chunk. -/
def skipTo (chunk : Str) (last : Bool) : Str → Option Str
  | [] => none
  | c :: cs =>
    if c = '/' then none
    else match matchChunk chunk cs with
      | none => none
      | some none => skipTo chunk last cs
      | some (some t) => if last = true ∧ t ≠ [] then skipTo chunk last cs else some t

/-- `path.Match` without its error, which the compiler ignores (compiler.go:180, 197): with an error the result is false. The check of the rest
of the pattern before returning false only determines the error. `n` bounds the chunks. -/
def pathMatchF : Nat → Str → Str → Bool
  | _, [], name => name == []
  | 0, _ :: _, _ => false
  | n + 1, p, name =>
    let c := scanChunk p
    if c.1 = true ∧ c.2.1 = [] then !(name.contains '/')
    else match matchChunk c.2.1 name with
      | none => false
      | some (some t) =>
        if t = [] ∨ c.2.2 ≠ [] then pathMatchF n c.2.2 t
        else if c.1 then
          match skipTo c.2.1 (c.2.2 == []) name with
          | some t => pathMatchF n c.2.2 t
          | none => false
        else false
      | some none =>
        if c.1 then
          match skipTo c.2.1 (c.2.2 == []) name with
          | some t => pathMatchF n c.2.2 t
          | none => false
        else false

/-- `path.Match`: each round consumes at least a character of the pattern. -/
def pathMatch (p name : Str) : Bool := pathMatchF p.length p name

/-! ### Specification: patterns as documented -/

/-- A pattern consists of: a star, which stands for any sequence of characters other than `/`; `?`, for one character other than `/`; a class, for one
character in (or, negated, outside) its ranges; a character, for itself. -/
inductive Elem where
  | star
  | one
  | cls (neg : Bool) (rs : List (Char × Char))
  | lit (c : Char)

/-- How a character of a class is written. -/
inductive CharText : Str → Char → Prop
  | plain (c : Char) : c ≠ '\\' → c ≠ '-' → c ≠ ']' → CharText [c] c
  | esc (c : Char) : CharText ['\\', c] c

/-- How a range of a class is written. -/
inductive RangeText : Str → Char × Char → Prop
  | single (t : Str) (c : Char) : CharText t c → RangeText t (c, c)
  | range (t u : Str) (lo hi : Char) : CharText t lo → CharText u hi → RangeText (t ++ '-' :: u) (lo, hi)

/-- How an element other than a star is written. -/
inductive ElemText : Str → Elem → Prop
  | one : ElemText ['?'] .one
  | lit (c : Char) : c ≠ '*' → c ≠ '?' → c ≠ '\\' → c ≠ '[' → ElemText [c] (.lit c)
  | esc (c : Char) : ElemText ['\\', c] (.lit c)
  | cls (ts : List Str) (rs : List (Char × Char)) : List.Forall₂ RangeText ts rs → rs ≠ [] → ts.flatten.head? ≠ some '^' →
      ElemText ('[' :: (ts.flatten ++ [']'])) (.cls false rs)
  | ncls (ts : List Str) (rs : List (Char × Char)) : List.Forall₂ RangeText ts rs → rs ≠ [] →
      ElemText ('[' :: '^' :: (ts.flatten ++ [']'])) (.cls true rs)

/-- How a pattern is written. -/
inductive PatText : Str → List Elem → Prop
  | nil : PatText [] []
  | star (p : Str) (es : List Elem) : PatText p es → PatText ('*' :: p) (.star :: es)
  | elem (t p : Str) (e : Elem) (es : List Elem) : ElemText t e → PatText p es → PatText (t ++ p) (e :: es)

/-- An element other than a star stands for a character. -/
def Elem.Takes : Elem → Char → Prop
  | .star, _ => False
  | .one, c => c ≠ '/'
  | .cls false rs, c => ∃ r ∈ rs, r.1 ≤ c ∧ c ≤ r.2
  | .cls true rs, c => ¬ ∃ r ∈ rs, r.1 ≤ c ∧ c ≤ r.2
  | .lit d, c => c = d

/-- A text matches a sequence of elements. -/
inductive Matches : List Elem → Str → Prop
  | nil : Matches [] []
  | star (es : List Elem) (t s : Str) : '/' ∉ t → Matches es s → Matches (.star :: es) (t ++ s)
  | elem (e : Elem) (es : List Elem) (c : Char) (s : Str) : e.Takes c → Matches es s → Matches (e :: es) (c :: s)

/-! ### Reading elements -/

theorem charText_head {t : Str} {c : Char} (h : CharText t c) : ∃ a b, t = a :: b ∧ a ≠ '-' ∧ a ≠ ']' := by
  cases h with
  | plain c h1 h2 h3 => exact ⟨_, _, rfl, h2, h3⟩
  | esc c => exact ⟨_, _, rfl, by decide, by decide⟩

theorem rangeText_head {t : Str} {r : Char × Char} (h : RangeText t r) : ∃ a b, t = a :: b ∧ a ≠ '-' ∧ a ≠ ']' := by
  cases h with
  | single t c h => exact charText_head h
  | range t u lo hi h1 h2 =>
    obtain ⟨a, b, rfl, h3⟩ := charText_head h1
    exact ⟨a, _, rfl, h3⟩

theorem getEsc_some {chunk : Str} {c : Char} {rest : Str} (h : getEsc chunk = some (c, rest)) : ∃ t, CharText t c ∧ chunk = t ++ rest ∧ rest ≠ [] := by
  cases chunk with
  | nil => cases h
  | cons a cs =>
    unfold getEsc at h
    by_cases h1 : a = '-' ∨ a = ']'
    · simp only [if_pos h1] at h; cases h
    · simp only [if_neg h1] at h
      by_cases h2 : a = '\\'
      · simp only [if_pos h2] at h
        rcases cs with _ | ⟨d, _ | ⟨e, cs⟩⟩
        · cases h
        · cases h
        · cases h
          exact ⟨['\\', c], .esc c, by rw [h2]; rfl, by simp⟩
      · simp only [if_neg h2] at h
        rcases cs with _ | ⟨e, cs⟩
        · cases h
        · cases h
          exact ⟨[c], .plain c h2 (fun e => h1 (.inl e)) (fun e => h1 (.inr e)), rfl, by simp⟩

theorem getEsc_text {t : Str} {c : Char} (h : CharText t c) (rest : Str) (hr : rest ≠ []) : getEsc (t ++ rest) = some (c, rest) := by
  obtain ⟨e, rest, rfl⟩ := List.exists_cons_of_ne_nil hr
  cases h with
  | plain c h1 h2 h3 =>
    show getEsc (c :: e :: rest) = _
    unfold getEsc
    simp only [if_neg (show ¬ (c = '-' ∨ c = ']') from fun h => h.elim h2 h3), if_neg h1]
  | esc c => rfl

/-- The character is in one of the ranges. -/
def inRanges (rs : List (Char × Char)) (c : Char) : Bool := rs.any (fun r => decide (r.1 ≤ c) && decide (c ≤ r.2))

theorem classRanges_some : ∀ (n : Nat) (first : Bool) (r : Char) (m : Bool) (chunk : Str) (b : Bool) (rest : Str),
    classRanges n first r m chunk = some (b, rest) →
    ∃ ts rs, List.Forall₂ RangeText ts rs ∧ (first = true → rs ≠ []) ∧ chunk = ts.flatten ++ ']' :: rest ∧ b = (m || inRanges rs r) := by
  intro n
  induction n with
  | zero => intro _ _ _ _ _ _ h; cases h
  | succ n ih =>
    intro first r m chunk b rest h
    rw [classRanges] at h
    by_cases h1 : chunk.head? = some ']' ∧ first = false
    · rw [if_pos h1] at h
      cases h
      refine ⟨[], [], .nil, fun hf => (by rw [h1.2] at hf; cases hf), ?_, by simp [inRanges]⟩
      obtain ⟨c, cs, rfl⟩ := List.exists_cons_of_ne_nil (show chunk ≠ [] by rintro rfl; cases h1.1)
      cases h1.1
      rfl
    · rw [if_neg h1] at h
      cases hg : getEsc chunk with
      | none => rw [hg] at h; cases h
      | some p =>
        obtain ⟨lo, chunk1⟩ := p
        obtain ⟨t, ht, rfl, hne⟩ := getEsc_some hg
        rw [hg] at h
        dsimp only at h
        by_cases h2 : chunk1.head? = some '-'
        · rw [if_pos h2] at h
          obtain ⟨c, chunk2, rfl⟩ := List.exists_cons_of_ne_nil hne
          cases h2
          cases hg2 : getEsc chunk2 with
          | none => simp only [List.tail_cons, hg2] at h; cases h
          | some p2 =>
            obtain ⟨hi, chunk3⟩ := p2
            obtain ⟨u, hu, rfl, hne3⟩ := getEsc_some hg2
            simp only [List.tail_cons, hg2] at h
            obtain ⟨ts, rs, i1, _, rfl, i4⟩ := ih _ _ _ _ _ _ h
            refine ⟨(t ++ '-' :: u) :: ts, (lo, hi) :: rs, .cons (.range t u lo hi ht hu) i1, fun _ => by simp, by simp, ?_⟩
            rw [i4]; simp [inRanges, Bool.or_assoc]
        · rw [if_neg h2] at h
          obtain ⟨ts, rs, i1, _, rfl, i4⟩ := ih _ _ _ _ _ _ h
          refine ⟨t :: ts, (lo, lo) :: rs, .cons (.single t lo ht) i1, fun _ => by simp, by simp, ?_⟩
          rw [i4]; simp [inRanges, Bool.or_assoc]

theorem classRanges_text : ∀ (ts : List Str) (rs : List (Char × Char)), List.Forall₂ RangeText ts rs → ∀ (n : Nat) (first : Bool) (r : Char) (m : Bool) (rest : Str),
    (first = true → rs ≠ []) → (ts.flatten ++ ']' :: rest).length ≤ n → classRanges n first r m (ts.flatten ++ ']' :: rest) = some (m || inRanges rs r, rest) := by
  intro ts rs h
  induction h with
  | nil =>
    intro n first r m rest hf hn
    cases n with
    | zero => simp at hn
    | succ n =>
      have : first = false := by cases first with | false => rfl | true => exact absurd rfl (hf rfl)
      rw [classRanges, if_pos ⟨rfl, this⟩]
      simp [inRanges]
  | @cons t q ts rs h1 h2 ih =>
    intro n first r m rest hf hn
    have hnext : ∃ a b, ts.flatten ++ ']' :: rest = a :: b ∧ a ≠ '-' := by
      cases h2 with
      | nil => exact ⟨_, _, rfl, by decide⟩
      | cons h3 _ =>
        obtain ⟨a, b, rfl, h4, _⟩ := rangeText_head h3
        exact ⟨a, _, rfl, h4⟩
    obtain ⟨a, b, ha, ha2⟩ := hnext
    obtain ⟨a1, b1, ht1, _, ha3⟩ := rangeText_head h1
    rw [List.flatten_cons, List.append_assoc] at hn ⊢
    cases n with
    | zero => rw [ht1] at hn; simp at hn
    | succ n =>
      rw [classRanges, if_neg (by rw [ht1]; rintro ⟨h, _⟩; simp at h; exact ha3 h)]
      have hlen : (ts.flatten ++ ']' :: rest).length ≤ n := by rw [ht1] at hn; simp at hn ⊢; omega
      cases h1 with
      | single t c h1 =>
        rw [getEsc_text h1 _ (by rw [ha]; simp)]
        dsimp only
        rw [if_neg (by rw [ha]; simp; exact ha2), ih n false r _ rest (fun h => (by cases h)) hlen]
        simp [inRanges, Bool.or_assoc]
      | range t u lo hi h1 h3 =>
        rw [List.append_assoc, getEsc_text h1 _ (by simp)]
        dsimp only
        rw [if_pos (by rfl), List.cons_append, List.tail_cons, getEsc_text h3 _ (by rw [ha]; simp)]
        dsimp only
        rw [ih n false r _ rest (fun h => (by cases h)) hlen]
        simp [inRanges, Bool.or_assoc]

/-! ### Chunks -/

/-- `Takes` as a function. -/
def Elem.takesB : Elem → Char → Bool
  | .star, _ => false
  | .one, c => c != '/'
  | .cls neg rs, c => inRanges rs c != neg
  | .lit d, c => c == d

theorem takesB_iff (e : Elem) (c : Char) : e.takesB c = true ↔ e.Takes c := by
  have hr : ∀ rs, inRanges rs c = true ↔ ∃ r ∈ rs, r.1 ≤ c ∧ c ≤ r.2 := by
    intro rs
    simp [inRanges]
  cases e with
  | star => simp [Elem.takesB, Elem.Takes]
  | one => simp [Elem.takesB, Elem.Takes]
  | lit d => simp [Elem.takesB, Elem.Takes]
  | cls neg rs =>
    cases neg with
    | false =>
      show (inRanges rs c != false) = true ↔ ∃ r ∈ rs, r.1 ≤ c ∧ c ≤ r.2
      rw [← hr]; simp
    | true =>
      show (inRanges rs c != true) = true ↔ ¬ ∃ r ∈ rs, r.1 ≤ c ∧ c ≤ r.2
      rw [← hr]; simp

/-- Texts of elements other than stars. -/
inductive Plain : Str → List Elem → Prop
  | nil : Plain [] []
  | elem (t p : Str) (e : Elem) (es : List Elem) : ElemText t e → Plain p es → Plain (t ++ p) (e :: es)

/-- The same, a star standing for itself. -/
inductive Loose : Str → List Elem → Prop
  | nil : Loose [] []
  | star (p : Str) (es : List Elem) : Loose p es → Loose ('*' :: p) (.lit '*' :: es)
  | elem (t p : Str) (e : Elem) (es : List Elem) : ElemText t e → Loose p es → Loose (t ++ p) (e :: es)

theorem Plain.loose {p : Str} {es : List Elem} (h : Plain p es) : Loose p es := by
  induction h with
  | nil => exact .nil
  | elem t p e es h _ ih => exact .elem t p e es h ih

/-- What is left of a text after the elements; `none` if they do not match. -/
def eat : List Elem → Option Str → Option Str
  | [], s => s
  | e :: es, s => eat es (s.bind (fun t => match t with | [] => none | c :: t => if e.takesB c then some t else none))

/-- One element. -/
def eat1 (e : Elem) (s : Option Str) : Option Str := s.bind (fun t => match t with | [] => none | c :: t => if e.takesB c then some t else none)

theorem matchChunkF_step (n : Nat) (t : Str) (e : Elem) (h : ElemText t e ∨ (t = ['*'] ∧ e = .lit '*')) (chunk : Str) (s : Option Str) :
    matchChunkF (n + 1) (t ++ chunk) s = matchChunkF n chunk (eat1 e s) := by
  have hlit : ∀ c : Char, (s.bind (fun t => if t = [] then none else some t)).bind (fun t => if t.head? = some c then some t.tail else none) = eat1 (.lit c) s := by
    intro c
    rcases s with _ | (_ | ⟨a, s⟩)
    · rfl
    · rfl
    · show (if (a :: s).head? = some c then some (a :: s).tail else none) = if (Elem.lit c).takesB a then some s else none
      by_cases h : a = c <;> simp [Elem.takesB, h]
  have hcls : ∀ neg rs, (if inRanges rs (((s.bind (fun t => if t = [] then none else some t)).bind List.head?).getD (Char.ofNat 0)) = neg then none
      else (s.bind (fun t => if t = [] then none else some t)).map List.tail) = eat1 (.cls neg rs) s := by
    intro neg rs
    rcases s with _ | (_ | ⟨a, s⟩)
    · show (if _ then none else none) = none; split <;> rfl
    · show (if _ then none else none) = none; split <;> rfl
    · show (if inRanges rs a = neg then none else some s) = if (Elem.cls neg rs).takesB a then some s else none
      by_cases h : inRanges rs a = neg <;> simp [Elem.takesB, h]
  rcases h with h | ⟨rfl, rfl⟩
  · cases h with
    | one =>
      show matchChunkF n chunk _ = _
      congr 1
      rcases s with _ | (_ | ⟨a, s⟩)
      · rfl
      · rfl
      · show (if (a :: s).head? = some '/' then none else some (a :: s).tail) = if Elem.one.takesB a then some s else none
        by_cases h : a = '/' <;> simp [Elem.takesB, h]
    | lit c h1 h2 h3 h4 =>
      show matchChunkF (n + 1) (c :: chunk) s = _
      conv_lhs => unfold matchChunkF
      dsimp only
      rw [if_neg h4, if_neg h2, if_neg h3, hlit]
    | esc c =>
      show matchChunkF (n + 1) ('\\' :: c :: chunk) s = _
      conv_lhs => unfold matchChunkF
      dsimp only
      rw [if_neg (by decide), if_neg (by decide), if_pos rfl, hlit]
    | cls ts rs h1 h2 h3 =>
      rw [List.cons_append, List.append_assoc]
      conv_lhs => unfold matchChunkF
      dsimp only
      have hneg : ((ts.flatten ++ ([']'] ++ chunk)).head? == some '^') = false := by
        obtain ⟨t, ts, rfl⟩ := List.exists_cons_of_ne_nil (show ts ≠ [] by rintro rfl; cases h1; exact h2 rfl)
        cases h1 with
        | cons h1 _ =>
          obtain ⟨a, b, rfl, _⟩ := rangeText_head h1
          simpa using h3
      rw [if_pos rfl, hneg, if_neg (by decide), List.singleton_append, classRanges_text ts rs h1 _ true _ false chunk (fun _ => h2) (Nat.le_succ _)]
      dsimp only
      rw [Bool.false_or, hcls]
    | ncls ts rs h1 h2 =>
      rw [List.cons_append, List.cons_append, List.append_assoc]
      conv_lhs => unfold matchChunkF
      dsimp only
      rw [if_pos rfl, show ((('^' :: (ts.flatten ++ ([']'] ++ chunk))).head? == some '^') = true) from rfl, if_pos rfl, List.tail_cons, List.singleton_append,
        classRanges_text ts rs h1 _ true _ false chunk (fun _ => h2) (by rw [List.length_cons]; omega)]
      dsimp only
      rw [Bool.false_or, hcls]
  · show matchChunkF n chunk _ = _
    rw [← hlit]

theorem matchChunkF_text : ∀ {chunk : Str} {es : List Elem}, Loose chunk es → ∀ (n : Nat) (s : Option Str), chunk.length ≤ n →
    matchChunkF n chunk s = some (eat es s) := by
  intro chunk es h
  induction h with
  | nil => intro n s _; cases n <;> rfl
  | star p es _ ih =>
    intro n s hn
    cases n with
    | zero => simp at hn
    | succ n => exact (matchChunkF_step n ['*'] (.lit '*') (.inr ⟨rfl, rfl⟩) p s).trans (ih n _ (by simp at hn; omega))
  | elem t p e es h _ ih =>
    intro n s hn
    have ht : t ≠ [] := by cases h <;> simp
    have := List.length_pos_iff.2 ht
    cases n with
    | zero => rw [List.length_append] at hn; omega
    | succ n => exact (matchChunkF_step n t e (.inl h) p s).trans (ih n _ (by rw [List.length_append] at hn; omega))

theorem matchChunkF_some : ∀ (n : Nat) (chunk : Str) (s o : Option Str), matchChunkF n chunk s = some o → ∃ es, Loose chunk es := by
  intro n
  induction n with
  | zero =>
    intro chunk s o h
    cases chunk with
    | nil => exact ⟨[], .nil⟩
    | cons c cs => cases h
  | succ n ih =>
    intro chunk s o h
    cases chunk with
    | nil => exact ⟨[], .nil⟩
    | cons c chunk =>
      unfold matchChunkF at h
      dsimp only at h
      by_cases h1 : c = '['
      · rw [if_pos h1] at h
        cases hc : classRanges (chunk.length + 1) true (((s.bind (fun t => if t = [] then none else some t)).bind List.head?).getD (Char.ofNat 0)) false
            (if chunk.head? == some '^' then chunk.tail else chunk) with
        | none => rw [hc] at h; cases h
        | some p =>
          obtain ⟨m, rest⟩ := p
          rw [hc] at h
          obtain ⟨es, hes⟩ := ih _ _ _ h
          obtain ⟨ts, rs, c1, c2, c3, _⟩ := classRanges_some _ _ _ _ _ _ _ hc
          subst h1
          by_cases h2 : chunk.head? = some '^'
          · rw [if_pos (by simpa using h2)] at c3
            obtain ⟨d, cs, rfl⟩ := List.exists_cons_of_ne_nil (show chunk ≠ [] by rintro rfl; cases h2)
            cases h2
            rw [List.tail_cons] at c3
            subst c3
            have := Loose.elem _ _ _ _ (.ncls ts rs c1 (c2 rfl)) hes
            exact ⟨_, by simpa using this⟩
          · rw [if_neg (by simpa using h2)] at c3
            subst c3
            have h3 : ts.flatten.head? ≠ some '^' := by
              intro h3
              apply h2
              rw [List.head?_append, h3]; rfl
            have := Loose.elem _ _ _ _ (.cls ts rs c1 (c2 rfl) h3) hes
            exact ⟨_, by simpa using this⟩
      · rw [if_neg h1] at h
        by_cases h2 : c = '?'
        · rw [if_pos h2] at h
          obtain ⟨es, hes⟩ := ih _ _ _ h
          subst h2
          exact ⟨_, Loose.elem _ _ _ _ .one hes⟩
        · rw [if_neg h2] at h
          by_cases h3 : c = '\\'
          · rw [if_pos h3] at h
            cases chunk with
            | nil => cases h
            | cons d chunk =>
              obtain ⟨es, hes⟩ := ih _ _ _ h
              subst h3
              exact ⟨_, Loose.elem _ _ _ _ (.esc d) hes⟩
          · rw [if_neg h3] at h
            obtain ⟨es, hes⟩ := ih _ _ _ h
            by_cases h4 : c = '*'
            · subst h4; exact ⟨_, .star _ _ hes⟩
            · exact ⟨_, Loose.elem _ _ _ _ (.lit c h4 h2 h3 h1) hes⟩

theorem eat_none (es : List Elem) : eat es none = none := by
  induction es with
  | nil => rfl
  | cons e es ih => rw [eat]; exact ih

theorem eat_iff (es : List Elem) : ∀ (s t : Str), eat es (some s) = some t ↔ ∃ u, s = u ++ t ∧ List.Forall₂ Elem.Takes es u := by
  induction es with
  | nil =>
    intro s t
    constructor
    · intro h; cases h; exact ⟨[], rfl, .nil⟩
    · rintro ⟨u, rfl, h⟩; cases h; rfl
  | cons e es ih =>
    intro s t
    rw [eat]
    cases s with
    | nil =>
      constructor
      · intro h
        have h : eat es none = some t := h
        rw [eat_none] at h; cases h
      · rintro ⟨u, h1, h2⟩
        cases h2 with
        | cons _ _ => cases h1
    | cons c s =>
      show eat es (if e.takesB c then some s else none) = some t ↔ _
      by_cases hc : e.takesB c = true
      · rw [if_pos hc, ih]
        constructor
        · rintro ⟨u, rfl, h⟩; exact ⟨c :: u, rfl, .cons ((takesB_iff e c).1 hc) h⟩
        · rintro ⟨u, h1, h2⟩
          cases h2 with
          | cons h3 h4 =>
            obtain ⟨rfl, h5⟩ := List.cons.inj h1
            exact ⟨_, h5, h4⟩
      · rw [if_neg hc, eat_none]
        constructor
        · intro h; cases h
        · rintro ⟨u, h1, h2⟩
          cases h2 with
          | cons h3 h4 =>
            obtain ⟨rfl, h5⟩ := List.cons.inj h1
            exact absurd ((takesB_iff e _).2 h3) hc

/-! ### Scanning -/

theorem scanBody_append : ∀ (p : Str) (b e : Bool), (scanBody b e p).1 ++ (scanBody b e p).2 = p
  | [], _, _ => rfl
  | c :: cs, b, true => by
    unfold scanBody
    rw [List.cons_append, scanBody_append cs]
  | c :: cs, b, false => by
    unfold scanBody
    split
    · rw [List.cons_append, scanBody_append cs]
    · split
      · rw [List.cons_append, scanBody_append cs]
      · split
        · rw [List.cons_append, scanBody_append cs]
        · split
          · rfl
          · rw [List.cons_append, scanBody_append cs]

theorem scanBody_rest : ∀ (p : Str) (b e : Bool), (scanBody b e p).2 = [] ∨ (scanBody b e p).2.head? = some '*'
  | [], _, _ => .inl rfl
  | c :: cs, b, true => by
    unfold scanBody
    exact scanBody_rest cs _ _
  | c :: cs, b, false => by
    unfold scanBody
    split
    · exact scanBody_rest cs _ _
    · split
      · exact scanBody_rest cs _ _
      · split
        · exact scanBody_rest cs _ _
        · split
          · rename_i h; exact .inr (by rw [h.1]; rfl)
          · exact scanBody_rest cs _ _

theorem scan_char {t : Str} {c : Char} (h : CharText t c) (q : Str) : scanBody true false (t ++ q) = (t ++ (scanBody true false q).1, (scanBody true false q).2) := by
  cases h with
  | plain c h1 h2 h3 =>
    show scanBody true false (c :: q) = _
    rw [scanBody]
    rw [if_neg h1]
    by_cases h4 : c = '['
    · rw [if_pos h4]; rfl
    · rw [if_neg h4, if_neg h3, if_neg (by simp)]; rfl
  | esc c => rfl

theorem scan_ranges {ts : List Str} {rs : List (Char × Char)} (h : List.Forall₂ RangeText ts rs) (q : Str) :
    scanBody true false (ts.flatten ++ q) = (ts.flatten ++ (scanBody true false q).1, (scanBody true false q).2) := by
  induction h with
  | nil => rfl
  | cons h1 _ ih =>
    rw [List.flatten_cons, List.append_assoc]
    cases h1 with
    | single t c h1 => rw [scan_char h1, ih, List.append_assoc]
    | range t u lo hi h1 h2 =>
      rw [List.append_assoc, scan_char h1, List.cons_append]
      rw [show ∀ x, scanBody true false ('-' :: x) = ('-' :: (scanBody true false x).1, (scanBody true false x).2) from fun x => rfl]
      rw [scan_char h2, ih]
      simp

theorem scan_elem {t : Str} {e : Elem} (h : ElemText t e) (q : Str) : scanBody false false (t ++ q) = (t ++ (scanBody false false q).1, (scanBody false false q).2) := by
  cases h with
  | one => rfl
  | lit c h1 h2 h3 h4 =>
    show scanBody false false (c :: q) = _
    rw [scanBody]
    rw [if_neg h3, if_neg h4]
    by_cases h5 : c = ']'
    · rw [if_pos h5]; rfl
    · rw [if_neg h5, if_neg (fun h => h1 h.1)]; rfl
  | esc c => rfl
  | cls ts rs h1 h2 h3 =>
    rw [List.cons_append, List.append_assoc]
    rw [show ∀ x, scanBody false false ('[' :: x) = ('[' :: (scanBody true false x).1, (scanBody true false x).2) from fun x => rfl, scan_ranges h1, List.singleton_append]
    rw [show ∀ x, scanBody true false (']' :: x) = (']' :: (scanBody false false x).1, (scanBody false false x).2) from fun x => rfl]
    simp
  | ncls ts rs h1 h2 =>
    rw [List.cons_append, List.cons_append, List.append_assoc]
    rw [show ∀ x, scanBody false false ('[' :: '^' :: x) = ('[' :: '^' :: (scanBody true false x).1, (scanBody true false x).2) from fun x => rfl, scan_ranges h1, List.singleton_append]
    rw [show ∀ x, scanBody true false (']' :: x) = (']' :: (scanBody false false x).1, (scanBody false false x).2) from fun x => rfl]
    simp

theorem scan_plain {p : Str} {es : List Elem} (h : Plain p es) (q : Str) (hq : q = [] ∨ q.head? = some '*') : scanBody false false (p ++ q) = (p, q) := by
  induction h with
  | nil =>
    rcases hq with rfl | hq
    · rfl
    · obtain ⟨c, cs, rfl⟩ := List.exists_cons_of_ne_nil (show q ≠ [] by rintro rfl; cases hq)
      cases hq
      rfl
  | elem t p e es h _ ih => rw [List.append_assoc, scan_elem h, ih]

theorem loose_split {p : Str} {es : List Elem} (h : Loose p es) : Plain p es ∨ ∃ a b es', p = a ++ '*' :: b ∧ Plain a es' := by
  induction h with
  | nil => exact .inl .nil
  | star p es _ _ => exact .inr ⟨[], p, [], rfl, .nil⟩
  | elem t p e es h _ ih =>
    rcases ih with ih | ⟨a, b, es', rfl, ih⟩
    · exact .inl (.elem t p e es h ih)
    · exact .inr ⟨t ++ a, b, e :: es', by simp, .elem t a e es' h ih⟩

/-- A chunk that `scanChunk` cuts off and `matchChunk` accepts consists of elements other than stars. -/
theorem chunk_plain (p : Str) (es : List Elem) (h : Loose (scanBody false false p).1 es) : Plain (scanBody false false p).1 es := by
  rcases loose_split h with h | ⟨a, b, es', h1, h2⟩
  · exact h
  · have hp : p = a ++ '*' :: (b ++ (scanBody false false p).2) := by
      have := (scanBody_append p false false).symm
      rw [h1] at this
      simpa using this
    have := scan_plain h2 ('*' :: (b ++ (scanBody false false p).2)) (.inr rfl)
    rw [← hp] at this
    have h3 := congrArg Prod.fst this
    rw [h1] at h3
    have := congrArg List.length h3
    simp at this

/-! ### Patterns -/

theorem plain_pat {a : Str} {es : List Elem} (h : Plain a es) {r : Str} {es' : List Elem} (hr : PatText r es') : PatText (a ++ r) (es ++ es') := by
  induction h with
  | nil => exact hr
  | elem t p e es h _ ih => rw [List.append_assoc]; exact .elem t _ e _ h ih

theorem stars_pat (k : Nat) {r : Str} {es : List Elem} (hr : PatText r es) : PatText (List.replicate k '*' ++ r) (List.replicate k .star ++ es) := by
  induction k with
  | zero => exact hr
  | succ k ih => exact .star _ _ ih

theorem pat_stars {p : Str} {es : List Elem} (h : PatText p es) : ∃ k q es', p = List.replicate k '*' ++ q ∧ es = List.replicate k .star ++ es' ∧ PatText q es' ∧ q.head? ≠ some '*' := by
  induction h with
  | nil => exact ⟨0, [], [], rfl, rfl, .nil, by simp⟩
  | star p es _ ih =>
    obtain ⟨k, q, es', rfl, rfl, h1, h2⟩ := ih
    exact ⟨k + 1, q, es', rfl, rfl, h1, h2⟩
  | elem t p e es h hp _ =>
    refine ⟨0, t ++ p, e :: es, rfl, rfl, .elem t p e es h hp, ?_⟩
    cases h <;> simp_all

theorem pat_plain {p : Str} {es : List Elem} (h : PatText p es) : ∃ a r es1 es2, p = a ++ r ∧ es = es1 ++ es2 ∧ Plain a es1 ∧ PatText r es2 ∧ (r = [] ∨ r.head? = some '*') := by
  induction h with
  | nil => exact ⟨[], [], [], [], rfl, rfl, .nil, .nil, .inl rfl⟩
  | star p es hp _ => exact ⟨[], '*' :: p, [], .star :: es, rfl, rfl, .nil, .star p es hp, .inr rfl⟩
  | elem t p e es h hp ih =>
    obtain ⟨a, r, es1, es2, rfl, rfl, h1, h2, h3⟩ := ih
    exact ⟨t ++ a, r, e :: es1, es2, by simp, rfl, .elem t a e es1 h h1, h2, h3⟩

theorem dropStars (k : Nat) (q : Str) (h : q.head? ≠ some '*') : (List.replicate k '*' ++ q).dropWhile (· == '*') = q := by
  induction k with
  | zero =>
    cases q with
    | nil => rfl
    | cons c q =>
      have : ¬ c = '*' := by simpa using h
      simp [this]
  | succ k ih => rw [List.replicate_succ, List.cons_append, List.dropWhile_cons_of_pos (by rfl)]; exact ih

theorem stars_drop (p : Str) : ∃ k, p = List.replicate k '*' ++ p.dropWhile (· == '*') ∧ (p.head? == some '*') = decide (0 < k) ∧ (p.dropWhile (· == '*')).head? ≠ some '*' := by
  induction p with
  | nil => exact ⟨0, rfl, rfl, by simp⟩
  | cons c p ih =>
    by_cases h : c = '*'
    · obtain ⟨k, h1, _, h3⟩ := ih
      subst h
      rw [List.dropWhile_cons_of_pos (by rfl)]
      refine ⟨k + 1, ?_, by simp, h3⟩
      rw [List.replicate_succ, List.cons_append, ← h1]
    · rw [List.dropWhile_cons_of_neg (by simpa using h)]
      exact ⟨0, rfl, by simp [h], by simp [h]⟩

/-- How `scanChunk` cuts a pattern. -/
theorem scanChunk_cut (p : Str) : ∃ k, p = List.replicate k '*' ++ ((scanChunk p).2.1 ++ (scanChunk p).2.2) ∧ (scanChunk p).1 = decide (0 < k) ∧
    ((scanChunk p).2.2 = [] ∨ (scanChunk p).2.2.head? = some '*') ∧
    (p ≠ [] → (scanChunk p).2.2.length < p.length) ∧
    ∀ es, PatText p es ↔ ∃ es1 es2, Plain (scanChunk p).2.1 es1 ∧ PatText (scanChunk p).2.2 es2 ∧ es = List.replicate k .star ++ (es1 ++ es2) := by
  obtain ⟨k, h1, h2, h3⟩ := stars_drop p
  have happ := scanBody_append (p.dropWhile (· == '*')) false false
  have hrest := scanBody_rest (p.dropWhile (· == '*')) false false
  refine ⟨k, ?_, h2, hrest, ?_, ?_⟩
  · exact h1.trans (by rw [← happ]; rfl)
  · intro hp
    show (scanBody false false (p.dropWhile (· == '*'))).2.length < _
    have hl := congrArg List.length h1
    have hl2 := congrArg List.length happ
    rw [List.length_append, List.length_replicate] at hl
    rw [List.length_append] at hl2
    by_cases hk : k = 0
    · subst hk
      have hne : (scanBody false false (p.dropWhile (· == '*'))).1 ≠ [] := by
        intro he
        rw [he, List.nil_append] at happ
        rcases hrest with hr | hr
        · rw [hr] at happ
          rw [← happ] at h1
          exact hp h1
        · rw [happ] at hr
          exact h3 hr
      have := List.length_pos_iff.2 hne
      omega
    · omega
  · intro es
    constructor
    · intro h
      obtain ⟨k', q, es', e1, e2, h4, h5⟩ := pat_stars h
      obtain ⟨a, r, es1, es2, rfl, rfl, h6, h7, h8⟩ := pat_plain h4
      have hd : p.dropWhile (· == '*') = a ++ r := by rw [e1]; exact dropStars k' _ h5
      have hk : k = k' := by
        rw [hd] at h1
        have := congrArg List.length (h1.symm.trans e1)
        simp at this
        exact this
      subst hk
      have hs := scan_plain h6 r h8
      refine ⟨es1, es2, ?_, ?_, e2⟩
      · show Plain (scanBody false false (p.dropWhile (· == '*'))).1 es1
        rw [hd, hs]; exact h6
      · show PatText (scanBody false false (p.dropWhile (· == '*'))).2 es2
        rw [hd, hs]; exact h7
    · rintro ⟨es1, es2, h4, h5, rfl⟩
      have := stars_pat k (plain_pat h4 h5)
      rw [show (scanChunk p).2.1 ++ (scanChunk p).2.2 = p.dropWhile (· == '*') from happ, ← h1] at this
      exact this

theorem matches_plain {a : Str} {es1 : List Elem} (h : Plain a es1) (es2 : List Elem) : ∀ s : Str,
    Matches (es1 ++ es2) s ↔ ∃ u t, s = u ++ t ∧ List.Forall₂ Elem.Takes es1 u ∧ Matches es2 t := by
  induction h with
  | nil =>
    intro s
    constructor
    · intro h; exact ⟨[], s, rfl, .nil, h⟩
    · rintro ⟨u, t, rfl, h1, h2⟩; cases h1; exact h2
  | elem t p e es h _ ih =>
    intro s
    constructor
    · intro hm
      cases hm with
      | star => cases h
      | elem _ _ c s h1 h2 =>
        obtain ⟨u, t, rfl, h3, h4⟩ := (ih s).1 h2
        exact ⟨c :: u, t, rfl, .cons h1 h3, h4⟩
    · rintro ⟨u, t, rfl, h1, h2⟩
      cases h1 with
      | cons h3 h4 => exact .elem _ _ _ _ h3 ((ih _).2 ⟨_, t, rfl, h4, h2⟩)

theorem matches_stars (k : Nat) {es : List Elem} {x s : Str} (hk : 0 < k) (hx : '/' ∉ x) (h : Matches es s) : Matches (List.replicate k .star ++ es) (x ++ s) := by
  obtain ⟨k, rfl⟩ : ∃ j, k = j + 1 := ⟨k - 1, by omega⟩
  rw [List.replicate_succ, List.cons_append]
  refine .star _ x s hx ?_
  clear hk
  induction k with
  | zero => exact h
  | succ k ih => exact .star _ [] s (by simp) ih

theorem stars_matches (k : Nat) (es : List Elem) : ∀ s : Str, Matches (List.replicate k .star ++ es) s → ∃ x t, s = x ++ t ∧ (k = 0 → x = []) ∧ Matches es t := by
  induction k with
  | zero => intro s h; exact ⟨[], s, rfl, fun _ => rfl, h⟩
  | succ k ih =>
    intro s h
    rw [List.replicate_succ, List.cons_append] at h
    cases h with
    | star _ t s _ h2 =>
      obtain ⟨x, t', rfl, _, h3⟩ := ih s h2
      exact ⟨t ++ x, t', by simp, fun h => (by cases h), h3⟩
    | elem _ _ c s h1 _ => cases h1

theorem matchChunk_plain {a : Str} {es : List Elem} (h : Plain a es) (s : Str) : matchChunk a s = some (eat es (some s)) := matchChunkF_text h.loose _ _ (Nat.le_refl _)

theorem skipTo_sound {a : Str} {es : List Elem} (h : Plain a es) (last : Bool) : ∀ (name t : Str), skipTo a last name = some t →
    (last = true → t = []) ∧ ∃ x u, name = x ++ (u ++ t) ∧ '/' ∉ x ∧ List.Forall₂ Elem.Takes es u := by
  intro name
  induction name with
  | nil => intro t h; cases h
  | cons c cs ih =>
    intro t ht
    rw [skipTo] at ht
    by_cases hc : c = '/'
    · rw [if_pos hc] at ht; cases ht
    · rw [if_neg hc, matchChunk_plain h] at ht
      have keep : skipTo a last cs = some t → (last = true → t = []) ∧ ∃ x u, c :: cs = x ++ (u ++ t) ∧ '/' ∉ x ∧ List.Forall₂ Elem.Takes es u := by
        intro h
        obtain ⟨h0, x, u, h1, h2, h3⟩ := ih t h
        refine ⟨h0, c :: x, u, by rw [h1]; rfl, ?_, h3⟩
        intro hm
        rcases List.mem_cons.1 hm with hm | hm
        · exact hc hm.symm
        · exact h2 hm
      cases he : eat es (some cs) with
      | none => rw [he] at ht; exact keep ht
      | some t' =>
        rw [he] at ht
        dsimp only at ht
        by_cases hl : last = true ∧ t' ≠ []
        · rw [if_pos hl] at ht; exact keep ht
        · rw [if_neg hl] at ht
          cases ht
          obtain ⟨u, rfl, h4⟩ := (eat_iff es _ _).1 he
          exact ⟨fun h1 => Classical.byContradiction fun h2 => hl ⟨h1, h2⟩, [c], u, rfl, by simpa using fun h : '/' = c => hc h.symm, h4⟩

theorem skipTo_complete {a : Str} {es : List Elem} (h : Plain a es) (last : Bool) (t : Str) (ht : last = true → t = []) : ∀ (name x u : Str), '/' ∉ name → x ≠ [] →
    name = x ++ (u ++ t) → List.Forall₂ Elem.Takes es u → ∃ t0, skipTo a last name = some t0 ∧ t <:+ t0 ∧ (last = true → t0 = []) := by
  intro name
  induction name with
  | nil =>
    intro x u _ hx he _
    cases x with
    | nil => exact absurd rfl hx
    | cons _ _ => cases he
  | cons c cs ih =>
    intro x u hs hx he hu
    obtain ⟨d, x, rfl⟩ := List.exists_cons_of_ne_nil hx
    obtain ⟨rfl, he2⟩ := List.cons.inj he
    have he2 : cs = x ++ (u ++ t) := he2
    have hc : ¬ c = '/' := fun h => hs (by simp [h])
    rw [skipTo, if_neg hc, matchChunk_plain h]
    have keep : (x = [] → False) → ∃ t0, skipTo a last cs = some t0 ∧ t <:+ t0 ∧ (last = true → t0 = []) :=
      fun hx => ih x u (fun h => hs (by simp [h])) hx he2 hu
    cases hea : eat es (some cs) with
    | none =>
      refine keep ?_
      rintro rfl
      rw [(eat_iff es cs t).2 ⟨u, he2, hu⟩] at hea
      cases hea
    | some t' =>
      dsimp only
      obtain ⟨u', hcs, hu'⟩ := (eat_iff es _ _).1 hea
      by_cases hl : last = true ∧ t' ≠ []
      · rw [if_pos hl]
        refine keep ?_
        rintro rfl
        rw [(eat_iff es cs t).2 ⟨u, he2, hu⟩] at hea
        cases hea
        exact hl.2 (ht hl.1)
      · rw [if_neg hl]
        refine ⟨t', rfl, ?_, fun h1 => Classical.byContradiction fun h2 => hl ⟨h1, h2⟩⟩
        have h1 : t <:+ cs := by rw [he2, ← List.append_assoc]; exact List.suffix_append _ _
        have h2 : t' <:+ cs := by rw [hcs]; exact List.suffix_append _ _
        refine List.suffix_of_suffix_length_le h1 h2 ?_
        have l1 := congrArg List.length he2
        have l2 := congrArg List.length hcs
        have l3 := hu.length_eq
        have l4 := hu'.length_eq
        simp only [List.length_append] at l1 l2
        omega

theorem pathMatchF_sound : ∀ (n : Nat) (p name : Str), pathMatchF n p name = true → ∃ es, PatText p es ∧ Matches es name := by
  intro n
  have hnil : ∀ n name, pathMatchF n [] name = true → ∃ es, PatText [] es ∧ Matches es name := by
    intro n name h
    have : name = [] := by cases n <;> simpa [pathMatchF] using h
    subst this
    exact ⟨[], .nil, .nil⟩
  induction n with
  | zero =>
    intro p name h
    cases p with
    | nil => exact hnil _ _ h
    | cons c p => cases h
  | succ n ih =>
    intro p name h
    cases p with
    | nil => exact hnil _ _ h
    | cons c p =>
      obtain ⟨k, e1, e2, e3, e4, e5⟩ := scanChunk_cut (c :: p)
      unfold pathMatchF at h
      dsimp only at h
      generalize hsc : scanChunk (c :: p) = sc at h e1 e2 e3 e4 e5
      obtain ⟨star, chunk, rest⟩ := sc
      dsimp only at h e1 e2 e3 e4 e5
      subst e2
      have main : ∀ (x u t : Str) (es1 : List Elem), Plain chunk es1 → List.Forall₂ Elem.Takes es1 u → '/' ∉ x → (k = 0 → x = []) → name = x ++ (u ++ t) → pathMatchF n rest t = true →
          ∃ es, PatText (c :: p) es ∧ Matches es name := by
        intro x u t es1 h1 h2 h3 h4 h5 h6
        obtain ⟨es2, h7, h8⟩ := ih rest t h6
        refine ⟨_, (e5 _).2 ⟨es1, es2, h1, h7, rfl⟩, ?_⟩
        have hm : Matches (es1 ++ es2) (u ++ t) := (matches_plain h1 es2 _).2 ⟨u, t, rfl, h2, h8⟩
        rw [h5]
        by_cases hk : k = 0
        · rw [h4 hk, hk]; exact hm
        · exact matches_stars k (by omega) h3 hm
      by_cases hstar : decide (0 < k) = true ∧ chunk = []
      · rw [if_pos hstar] at h
        obtain ⟨hk, rfl⟩ := hstar
        have hr : rest = [] := by
          rcases e3 with h | h
          · exact h
          · exfalso
            have hd := (stars_drop (c :: p)).choose_spec.2.2
            have ha := scanBody_append ((c :: p).dropWhile (· == '*')) false false
            have e : (scanBody false false ((c :: p).dropWhile (· == '*'))) = ([], rest) := by
              have := congrArg Prod.snd hsc
              exact this
            rw [e] at ha
            rw [← ha] at hd
            exact hd h
        subst hr
        refine ⟨_, (e5 _).2 ⟨[], [], .nil, .nil, rfl⟩, ?_⟩
        have hn : '/' ∉ name := by simpa using h
        have := matches_stars k (of_decide_eq_true hk) hn Matches.nil
        simpa using this
      · rw [if_neg hstar] at h
        cases hm : matchChunk chunk name with
        | none => rw [hm] at h; cases h
        | some o =>
          have hpl : ∃ es1, Plain chunk es1 := by
            obtain ⟨es, hes⟩ := matchChunkF_some _ _ _ _ hm
            refine ⟨es, ?_⟩
            have := chunk_plain ((c :: p).dropWhile (· == '*')) es
            rw [show (scanBody false false ((c :: p).dropWhile (· == '*'))).1 = chunk from congrArg (fun x => x.2.1) hsc] at this
            exact this hes
          obtain ⟨es1, hpl⟩ := hpl
          have skip : (if decide (0 < k) = true then match skipTo chunk (rest == []) name with
              | some t => pathMatchF n rest t
              | none => false
              else false) = true → ∃ es, PatText (c :: p) es ∧ Matches es name := by
            intro h
            by_cases hk : decide (0 < k) = true
            · rw [if_pos hk] at h
              cases hsk : skipTo chunk (rest == []) name with
              | none => rw [hsk] at h; cases h
              | some t =>
                rw [hsk] at h
                obtain ⟨_, x, u, h1, h2, h3⟩ := skipTo_sound hpl _ _ _ hsk
                exact main x u t es1 hpl h3 h2 (fun h => (by rw [h] at hk; cases hk)) h1 h
            · rw [if_neg hk] at h; cases h
          rw [hm] at h
          cases o with
          | none => exact skip h
          | some t =>
            dsimp only at h
            by_cases ht : t = [] ∨ rest ≠ []
            · rw [if_pos ht] at h
              rw [matchChunk_plain hpl] at hm
              obtain ⟨u, h1, h2⟩ := (eat_iff es1 _ _).1 (Option.some.inj hm)
              exact main [] u t es1 hpl h2 (by simp) (fun _ => rfl) h1 h
            · rw [if_neg ht] at h
              exact skip h

theorem pathMatchF_complete : ∀ (n : Nat) (p name : Str) (es : List Elem), p.length ≤ n → '/' ∉ name → PatText p es → Matches es name → pathMatchF n p name = true := by
  intro n
  have hnil : ∀ n name es, PatText [] es → Matches es name → pathMatchF n [] name = true := by
    intro n name es h1 h2
    have : es = [] := by
      generalize hp : ([] : Str) = p at h1
      cases h1 with
      | nil => rfl
      | star => cases hp
      | elem t p e es h _ => cases h <;> cases hp
    subst this
    cases h2
    cases n <;> rfl
  induction n with
  | zero =>
    intro p name es hn hs h1 h2
    cases p with
    | nil => exact hnil _ _ _ h1 h2
    | cons c p => simp at hn
  | succ n ih =>
    intro p name es hn hs hp hm
    cases p with
    | nil => exact hnil _ _ _ hp hm
    | cons c p =>
      obtain ⟨k, e1, e2, e3, e4, e5⟩ := scanChunk_cut (c :: p)
      unfold pathMatchF
      dsimp only
      generalize hsc : scanChunk (c :: p) = sc at e1 e2 e3 e4 e5 ⊢
      obtain ⟨star, chunk, rest⟩ := sc
      dsimp only at e1 e2 e3 e4 e5 ⊢
      subst e2
      have e4 := e4 (by simp)
      obtain ⟨es1, es2, hpl, hrest, rfl⟩ := (e5 es).1 hp
      obtain ⟨x, s, hname, hx, hm2⟩ := stars_matches k _ _ hm
      obtain ⟨u, t, rfl, hu, hm3⟩ := (matches_plain hpl es2 _).1 hm2
      by_cases hstar : decide (0 < k) = true ∧ chunk = []
      · rw [if_pos hstar]
        simpa using hs
      · rw [if_neg hstar, matchChunk_plain hpl]
        -- what remains after the chunk, wherever it is found first
        have hlen : rest.length ≤ n := by simp only [List.length_cons] at hn e4; omega
        have next : ∀ t0, '/' ∉ t0 → t <:+ t0 → (rest = [] → t0 = []) → pathMatchF n rest t0 = true := by
          intro t0 h1 ⟨y, hy⟩ h3
          refine ih rest t0 es2 hlen h1 hrest ?_
          by_cases hr : rest = []
          · subst hr
            have h3 := h3 rfl
            have : t = [] := by rw [h3] at hy; exact (List.append_eq_nil_iff.1 hy).2
            rw [h3, ← this]; exact hm3
          · have hh : rest.head? = some '*' := e3.resolve_left hr
            obtain ⟨d, rest, rfl⟩ := List.exists_cons_of_ne_nil hr
            cases hh
            have hys : '/' ∉ y := fun h => h1 (by rw [← hy]; simp [h])
            generalize hq : '*' :: rest = q at hrest
            cases hrest with
            | nil => cases hq
            | elem t p e es h _ =>
              exfalso
              cases h <;> simp_all
            | star p es _ =>
              cases hm3 with
              | star _ a b ha hb =>
                rw [← hy, ← List.append_assoc]
                exact .star _ _ _ (fun h => by rcases List.mem_append.1 h with h | h; exact hys h; exact ha h) hb
              | elem _ _ c s h1 _ => cases h1
        have hsub : ∀ a b, name = a ++ b → '/' ∉ b := fun a b h h2 => hs (by rw [h]; simp [h2])
        have hlast : (rest == []) = true ↔ rest = [] := by simp
        have ht : (rest == []) = true → t = [] := by
          intro h
          have := hlast.1 h
          subst this
          have : es2 = [] := by
            generalize hq : ([] : Str) = q at hrest
            cases hrest with
            | nil => rfl
            | star => cases hq
            | elem t p e es h _ => cases h <;> cases hq
          subst this
          cases hm3
          rfl
        have skip : x ≠ [] → (if decide (0 < k) = true then match skipTo chunk (rest == []) name with
              | some t => pathMatchF n rest t
              | none => false
              else false) = true := by
          intro hne
          have hk : decide (0 < k) = true := by
            refine decide_eq_true ?_
            exact Nat.pos_of_ne_zero (fun h => hne (hx h))
          rw [if_pos hk]
          obtain ⟨t0, h1, h2, h3⟩ := skipTo_complete hpl (rest == []) t ht name x u hs hne hname hu
          obtain ⟨_, x', u', h4, _⟩ := skipTo_sound hpl _ _ _ h1
          rw [h1]
          refine next t0 (hsub (x' ++ u') t0 (by rw [h4, List.append_assoc])) h2 (fun h => h3 (hlast.2 h))
        cases hea : eat es1 (some name) with
        | none =>
          refine skip ?_
          rintro rfl
          rw [(eat_iff es1 name t).2 ⟨u, hname, hu⟩] at hea
          cases hea
        | some t' =>
          dsimp only
          obtain ⟨u', hn', hu'⟩ := (eat_iff es1 _ _).1 hea
          by_cases hc : t' = [] ∨ rest ≠ []
          · rw [if_pos hc]
            refine next t' (hsub u' t' hn') ?_ (fun h => hc.resolve_right (fun hh => hh h))
            have h1 : t <:+ name := by rw [hname, ← List.append_assoc]; exact List.suffix_append _ _
            have h2 : t' <:+ name := by rw [hn']; exact List.suffix_append _ _
            refine List.suffix_of_suffix_length_le h1 h2 ?_
            have l1 := congrArg List.length hname
            have l2 := congrArg List.length hn'
            have l3 := hu.length_eq
            have l4 := hu'.length_eq
            simp only [List.length_append] at l1 l2
            omega
          · rw [if_neg hc]
            refine skip ?_
            rintro rfl
            rw [(eat_iff es1 name t).2 ⟨u, hname, hu⟩] at hea
            cases hea
            exact hc (.inl (ht (hlast.2 (Classical.byContradiction fun h => hc (.inr h)))))

/-! ## C87 -/

/-- **C87** What a pattern accepts it denotes: if `path.Match` says yes, the pattern is well formed and the name matches it. -/
theorem pattern_sound (p name : Str) (h : pathMatch p name = true) : ∃ es, PatText p es ∧ Matches es name := pathMatchF_sound _ _ _ h

/-- **C87** For names without slash, `path.Match` says yes exactly when the pattern is well formed and the name matches it: looking for the leftmost occurrence of each chunk, without
trying others, misses nothing. -/
theorem pattern_iff (p name : Str) (hs : '/' ∉ name) : pathMatch p name = true ↔ ∃ es, PatText p es ∧ Matches es name :=
  ⟨pattern_sound p name, fun ⟨es, h1, h2⟩ => pathMatchF_complete _ p name es (Nat.le_refl _) hs h1 h2⟩

/-- **C87** With a slash in the name the leftmost occurrence can be the wrong one: `*[^b]*` denotes `a/`, which `path.Match` rejects. -/
theorem pattern_slash_incomplete : ∃ p name es, PatText p es ∧ Matches es name ∧ pathMatch p name = false := by
  refine ⟨"*[^b]*".toList, "a/".toList, [.star, .cls true [('b', 'b')], .star], ?_, ?_, by decide⟩
  · refine .star _ _ (.elem "[^b]".toList _ _ _ (.ncls [['b']] [('b', 'b')] ?_ (by simp)) (.star _ _ .nil))
    exact .cons (.single _ _ (.plain _ (by decide) (by decide) (by decide))) .nil
  · refine .star _ ['a'] _ (by decide) (.elem _ _ '/' _ ?_ (.star _ [] [] (by decide) .nil))
    show ¬ ∃ r ∈ [('b', 'b')], r.1 ≤ '/' ∧ '/' ≤ r.2
    decide

/-- **C87** A prefix followed by a star, the usual form: exactly the names beginning with the prefix. -/
theorem pattern_prefix (pre name : Str) (hp : ∀ c ∈ pre, c ≠ '*' ∧ c ≠ '?' ∧ c ≠ '\\' ∧ c ≠ '[') (hs : '/' ∉ name) :
    pathMatch (pre ++ ['*']) name = true ↔ pre <+: name := by
  have hpl : Plain pre (pre.map Elem.lit) := by
    induction pre with
    | nil => exact .nil
    | cons c pre ih =>
      obtain ⟨h1, h2, h3, h4⟩ := hp c (by simp)
      exact .elem [c] pre _ _ (.lit c h1 h2 h3 h4) (ih (fun d hd => hp d (by simp [hd])))
  have hlit : ∀ u, List.Forall₂ Elem.Takes (pre.map Elem.lit) u ↔ u = pre := by
    clear hpl hp
    induction pre with
    | nil => intro u; constructor <;> intro h <;> (cases h; first | rfl | exact .nil)
    | cons c pre ih =>
      intro u
      constructor
      · intro h
        cases h with
        | cons h1 h2 => rw [(ih _).1 h2, show _ = c from h1]
      · rintro rfl
        exact .cons rfl ((ih _).2 rfl)
  rw [pattern_iff _ _ hs]
  constructor
  · rintro ⟨es, h1, h2⟩
    clear hpl hlit
    induction pre generalizing es name with
    | nil => exact List.nil_prefix
    | cons c pre ih =>
      obtain ⟨c1, c2, c3, c4⟩ := hp c (by simp)
      generalize hq : (c :: pre) ++ ['*'] = q at h1
      rw [List.cons_append] at hq
      cases h1 with
      | nil => cases hq
      | star p es _ => exact absurd (List.cons.inj hq).1 c1
      | elem t p e es he hr =>
        cases he with
        | one => exact absurd (List.cons.inj hq).1 c2
        | esc d => exact absurd (List.cons.inj hq).1 c3
        | cls ts rs _ _ _ => exact absurd (List.cons.inj hq).1 c4
        | ncls ts rs _ _ => exact absurd (List.cons.inj hq).1 c4
        | lit d _ _ _ _ =>
          obtain ⟨rfl, hq2⟩ := List.cons.inj hq
          have hq2 : pre ++ ['*'] = p := hq2
          cases h2 with
          | elem _ _ a s ha hs2 =>
            have ha : a = c := ha
            subst ha
            obtain ⟨t, ht⟩ := ih s (fun d hd => hp d (by simp [hd])) (fun h => hs (by simp [h])) es (by rw [hq2]; exact hr) hs2
            exact ⟨t, by rw [List.cons_append, ht]⟩
  · rintro ⟨t, rfl⟩
    refine ⟨pre.map Elem.lit ++ [.star], plain_pat hpl (.star _ _ .nil), ?_⟩
    refine (matches_plain hpl _ _).2 ⟨pre, t, rfl, (hlit _).2 rfl, ?_⟩
    have := Matches.star [] t [] (fun h => hs (by simp [h])) .nil
    simpa using this

/-- Patterns with stars, question marks, classes and escapes. -/
example : pathMatch "sel*".toList "selection_1".toList = true ∧ pathMatch "*_1".toList "sel_1_1".toList = true ∧
    pathMatch "f?lt[a-f^x]r\\*".toList "filtxr*".toList = true ∧ pathMatch "f?lt[^a-f]r".toList "filter".toList = false ∧
    pathMatch "sel[".toList "sel[".toList = false ∧ pathMatch "a*b*c".toList "a-b-bc-c".toList = true := by decide

end Verif.Sigma
