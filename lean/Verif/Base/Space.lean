import Verif.Base.Strings
/-
`strings.TrimSpace` (Go standard library).
-/
namespace Verif.Strings
open Verif.Decimal (Str)

/-- `unicode.IsSpace` (Go standard library: unicode/graphic.go and the White_Space table). -/
def isSpace (c : Char) : Bool :=
  let n := c.toNat
  (9 ≤ n && n ≤ 13) || n == 32 || n == 0x85 || n == 0xA0 || n == 0x1680 || (0x2000 ≤ n && n ≤ 0x200a) ||
    n == 0x2028 || n == 0x2029 || n == 0x202f || n == 0x205f || n == 0x3000

/-- `strings.TrimSpace`. -/
def trimSpace (s : Str) : Str := ((s.dropWhile isSpace).reverse.dropWhile isSpace).reverse

/-- The code points of white space. -/
def whiteSpace : List Nat :=
  [0x09, 0x0a, 0x0b, 0x0c, 0x0d, 0x20, 0x85, 0xa0, 0x1680, 0x2000, 0x2001, 0x2002, 0x2003, 0x2004, 0x2005, 0x2006, 0x2007, 0x2008, 0x2009, 0x200a, 0x2028, 0x2029, 0x202f, 0x205f, 0x3000]

/-- Specification: `t` is `s` without its leading and trailing white space. -/
def Trimmed (s t : Str) : Prop :=
  (∃ pre post, s = pre ++ t ++ post ∧ (∀ c ∈ pre, c.toNat ∈ whiteSpace) ∧ (∀ c ∈ post, c.toNat ∈ whiteSpace)) ∧
  (∀ c, t.head? = some c → c.toNat ∉ whiteSpace) ∧ (∀ c, t.getLast? = some c → c.toNat ∉ whiteSpace)

theorem dropWhile_split (p : Char → Bool) (s : Str) : ∃ pre, s = pre ++ s.dropWhile p ∧ (∀ c ∈ pre, p c = true) ∧
    (∀ c, (s.dropWhile p).head? = some c → p c = false) := by
  induction s with
  | nil => exact ⟨[], by simp⟩
  | cons c cs ih =>
    by_cases h : p c = true
    · obtain ⟨pre, h1, h2, h3⟩ := ih
      rw [List.dropWhile_cons_of_pos h]
      refine ⟨c :: pre, by rw [List.cons_append, ← h1], ?_, h3⟩
      intro d hd
      rcases List.mem_cons.1 hd with rfl | hd
      · exact h
      · exact h2 d hd
    · rw [List.dropWhile_cons_of_neg h]
      exact ⟨[], by simp, by simp, by intro d hd; simp at hd; subst hd; simpa using h⟩

theorem isSpace_iff (c : Char) : isSpace c = true ↔ c.toNat ∈ whiteSpace := by
  unfold isSpace whiteSpace
  dsimp only
  simp only [Bool.or_eq_true, Bool.and_eq_true, decide_eq_true_eq, beq_iff_eq, List.mem_cons, List.not_mem_nil, or_false]
  omega

theorem isSpace_false (c : Char) (h : isSpace c = false) : c.toNat ∉ whiteSpace := by
  rw [← isSpace_iff, h]
  exact Bool.false_ne_true

theorem trimSpace_spec (s : Str) : Trimmed s (trimSpace s) := by
  obtain ⟨pre, h1, h2, h3⟩ := dropWhile_split isSpace s
  obtain ⟨post, k1, k2, k3⟩ := dropWhile_split isSpace (s.dropWhile isSpace).reverse
  have hk : s.dropWhile isSpace = trimSpace s ++ post.reverse := by
    have := congrArg List.reverse k1
    rw [List.reverse_reverse, List.reverse_append] at this
    exact this
  refine ⟨⟨pre, post.reverse, by rw [List.append_assoc, ← hk]; exact h1, fun c hc => (isSpace_iff c).1 (h2 c hc), fun c hc => (isSpace_iff c).1 (k2 c (List.mem_reverse.1 hc))⟩, ?_, ?_⟩
  · intro c hc
    apply isSpace_false
    apply h3 c
    rw [hk]
    cases ht : trimSpace s with
    | nil => rw [ht] at hc; cases hc
    | cons x xs => rw [ht] at hc; simpa using hc
  · intro c hc
    apply isSpace_false
    apply k3 c
    have : trimSpace s = ((s.dropWhile isSpace).reverse.dropWhile isSpace).reverse := rfl
    rw [this, List.getLast?_reverse] at hc
    exact hc

example : trimSpace " \tab c\n".toList = "ab c".toList := by decide

end Verif.Strings
