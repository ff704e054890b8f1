import Verif.Base.Decimal
/-
Go string functions on `List Char` (Go standard library: package strings) and facts about them.
Go strings are byte sequences; a `List Char` stands for valid UTF-8 text. All separators used by the
code are ASCII, for which byte-wise and character-wise splitting, slicing and searching agree.
-/
namespace Verif.Strings
open Verif.Decimal (Str)

/-- `strings.Split(s, sep)` for a one-character separator: never empty; `""` gives `[""]`. -/
def split (sep : Char) : Str → List Str
  | [] => [[]]
  | c :: cs =>
    if c = sep then [] :: split sep cs
    else
      match split sep cs with
      | [] => [[c]]
      | w :: ws => (c :: w) :: ws

/-- `strings.Join(ss, sep)` for a one-character separator. -/
def join (sep : Char) : List Str → Str
  | [] => []
  | [w] => w
  | w :: ws => w ++ sep :: join sep ws

/-- `strings.HasPrefix(l, r)`. -/
def hasPrefix (l r : Str) : Bool := r.isPrefixOf l
/-- `strings.HasSuffix(l, r)`. -/
def hasSuffix (l r : Str) : Bool := r.isSuffixOf l
/-- `strings.Contains(l, r)`: some position of `l` starts with `r`. -/
def contains : Str → Str → Bool
  | [], r => r.isEmpty
  | c :: cs, r => r.isPrefixOf (c :: cs) || contains cs r

/-- `TrimBoundingQuotes` (policyengine/common/utils.go:3-11). -/
def isQuote (c : Char) : Bool := c == '"' || c == '\''
def dropHeadQuote : Str → Str
  | [] => []
  | c :: cs => if isQuote c then cs else c :: cs
def dropLastQuote : Str → Str
  | [] => []
  | [c] => if isQuote c then [] else [c]
  | c :: d :: cs => c :: dropLastQuote (d :: cs)
def trimQuotes (s : Str) : Str := dropLastQuote (dropHeadQuote s)

/-- `filepath.Base` (Go standard library, Unix): "." for the empty path, trailing slashes removed,
everything after the last slash, "/" if nothing is left. -/
def dropTrailingSlashes (s : Str) : Str := (s.reverse.dropWhile (· == '/')).reverse
def afterLastSlash (s : Str) : Str := (s.reverse.takeWhile (· != '/')).reverse
def base (s : Str) : Str :=
  if s = [] then ['.']
  else
    let t := afterLastSlash (dropTrailingSlashes s)
    if t = [] then ['/'] else t

/-! ### specification of components -/

/-- `w` is one of the pieces of `s` delimited by `sep` (or by the ends of `s`). -/
def IsComponent (sep : Char) (s w : Str) : Prop :=
  sep ∉ w ∧ ∃ pre post, s = pre ++ w ++ post ∧ (pre = [] ∨ ∃ p, pre = p ++ [sep]) ∧ (post = [] ∨ ∃ q, post = sep :: q)

/-! ### facts -/

theorem split_ne_nil (sep : Char) (s : Str) : split sep s ≠ [] := by
  induction s with
  | nil => simp [split]
  | cons c cs ih => unfold split; split; simp; split <;> simp

theorem split_cons_ne (sep c : Char) (cs : Str) (h : c ≠ sep) :
    ∃ w ws, split sep cs = w :: ws ∧ split sep (c :: cs) = (c :: w) :: ws := by
  cases hs : split sep cs with
  | nil => exact absurd hs (split_ne_nil sep cs)
  | cons w ws => exact ⟨w, ws, rfl, by simp [split, h, hs]⟩

theorem join_split (sep : Char) (s : Str) : join sep (split sep s) = s := by
  induction s with
  | nil => rfl
  | cons c cs ih =>
    by_cases h : c = sep
    · subst h
      have : split c (c :: cs) = [] :: split c cs := by simp [split]
      rw [this]
      cases hs : split c cs with
      | nil => exact absurd hs (split_ne_nil c cs)
      | cons w ws => rw [hs] at ih; simp [join, ih]
    · obtain ⟨w, ws, h1, h2⟩ := split_cons_ne sep c cs h
      rw [h2]; rw [h1] at ih
      cases ws with
      | nil => simpa [join] using ih
      | cons x xs => simp [join] at ih ⊢; exact ih

theorem split_no_sep (sep : Char) (s : Str) : ∀ w ∈ split sep s, sep ∉ w := by
  induction s with
  | nil => simp [split]
  | cons c cs ih =>
    by_cases h : c = sep
    · subst h
      have : split c (c :: cs) = [] :: split c cs := by simp [split]
      rw [this]; simpa using ih
    · obtain ⟨w, ws, h1, h2⟩ := split_cons_ne sep c cs h
      rw [h1] at ih; rw [h2]
      intro x hx
      simp only [List.mem_cons] at hx
      rcases hx with rfl | hx
      · have := ih w (by simp); simp [this]; exact fun e => h e.symm
      · exact ih x (by simp [hx])

theorem split_append_sep (sep : Char) (a b : Str) (h : sep ∉ a) : split sep (a ++ sep :: b) = a :: split sep b := by
  induction a with
  | nil => simp [split]
  | cons c cs ih =>
    simp only [List.mem_cons, not_or] at h
    have hc : c ≠ sep := fun e => h.1 e.symm
    have : split sep (cs ++ sep :: b) = cs :: split sep b := ih h.2
    simp only [List.cons_append, split, hc, if_false, this]

theorem split_of_not_mem (sep : Char) (a : Str) (h : sep ∉ a) : split sep a = [a] := by
  induction a with
  | nil => rfl
  | cons c cs ih =>
    simp only [List.mem_cons, not_or] at h
    have hc : c ≠ sep := fun e => h.1 e.symm
    simp only [split, hc, if_false, ih h.2]

theorem split_join (sep : Char) (ws : List Str) (hne : ws ≠ []) (h : ∀ w ∈ ws, sep ∉ w) : split sep (join sep ws) = ws := by
  induction ws with
  | nil => exact absurd rfl hne
  | cons w ws ih =>
    cases ws with
    | nil => simp [join, split_of_not_mem sep w (h w (by simp))]
    | cons x xs =>
      simp only [join]
      rw [split_append_sep sep w _ (h w (by simp)), ih (by simp) (fun y hy => h y (by simp [hy]))]

theorem split_append_sep' (sep : Char) (p b : Str) : split sep (p ++ sep :: b) = split sep p ++ split sep b := by
  induction p with
  | nil => simp [split]
  | cons c cs ih =>
    by_cases h : c = sep
    · subst h; simp [split, ih]
    · obtain ⟨w, ws, h1, h2⟩ := split_cons_ne sep c cs h
      rw [h2]
      rw [h1] at ih
      simp only [List.cons_append, split, h, if_false, ih]

/-- The pieces returned by `split` are exactly the delimited components. -/
theorem mem_split_iff (sep : Char) (s w : Str) : w ∈ split sep s ↔ IsComponent sep s w := by
  constructor
  · intro h
    refine ⟨split_no_sep sep s w h, ?_⟩
    induction s generalizing w with
    | nil => simp [split] at h; subst h; exact ⟨[], [], rfl, Or.inl rfl, Or.inl rfl⟩
    | cons c cs ih =>
      by_cases hc : c = sep
      · subst hc
        have : split c (c :: cs) = [] :: split c cs := by simp [split]
        rw [this] at h
        simp only [List.mem_cons] at h
        rcases h with rfl | h
        · exact ⟨[], c :: cs, rfl, Or.inl rfl, Or.inr ⟨cs, rfl⟩⟩
        · obtain ⟨pre, post, e, hp, hq⟩ := ih w h
          refine ⟨c :: pre, post, by simp [e], Or.inr ?_, hq⟩
          rcases hp with rfl | ⟨p, rfl⟩
          · exact ⟨[], rfl⟩
          · exact ⟨c :: p, rfl⟩
      · obtain ⟨v, ws, h1, h2⟩ := split_cons_ne sep c cs hc
        rw [h2] at h
        simp only [List.mem_cons] at h
        rcases h with rfl | h
        · -- first component of the rest, extended
          have hj := join_split sep cs
          rw [h1] at hj
          cases ws with
          | nil => simp [join] at hj; exact ⟨[], [], by simp [hj], Or.inl rfl, Or.inl rfl⟩
          | cons x xs =>
            simp only [join] at hj
            exact ⟨[], sep :: join sep (x :: xs), by simp [← hj], Or.inl rfl, Or.inr ⟨_, rfl⟩⟩
        · -- a later component: it is preceded by a separator inside cs
          have hj := join_split sep cs
          rw [h1] at hj
          cases ws with
          | nil => simp at h
          | cons x xs =>
            simp only [join] at hj
            have hw : w ∈ split sep (join sep (x :: xs)) := by
              rw [split_join sep (x :: xs) (by simp)]
              · exact h
              · intro y hy; exact split_no_sep sep cs y (by rw [h1]; simp [List.mem_cons] at hy ⊢; right; exact hy)
            -- use mem via position: split h as xs1 ++ w :: xs2
            obtain ⟨l1, l2, hl⟩ := List.append_of_mem h
            have key : ∀ (l1 l2 : List Str) (w : Str), ∃ pre post, join sep (l1 ++ w :: l2) = pre ++ w ++ post ∧
                (pre = [] ∨ ∃ p, pre = p ++ [sep]) ∧ (post = [] ∨ ∃ q, post = sep :: q) := by
              intro l1 l2 w
              induction l1 with
              | nil =>
                cases l2 with
                | nil => exact ⟨[], [], by simp [join], Or.inl rfl, Or.inl rfl⟩
                | cons a b => exact ⟨[], sep :: join sep (a :: b), by simp [join], Or.inl rfl, Or.inr ⟨_, rfl⟩⟩
              | cons a as iha =>
                obtain ⟨pre, post, e, hp, hq⟩ := iha
                have : join sep (a :: as ++ w :: l2) = a ++ sep :: join sep (as ++ w :: l2) := by
                  cases as <;> rfl
                refine ⟨a ++ sep :: pre, post, by rw [this, e]; simp, Or.inr ?_, hq⟩
                rcases hp with rfl | ⟨p, rfl⟩
                · exact ⟨a, rfl⟩
                · exact ⟨a ++ sep :: p, by simp⟩
            obtain ⟨pre, post, e, hp, hq⟩ := key l1 l2 w
            rw [hl] at hj
            rw [e] at hj
            refine ⟨c :: v ++ sep :: pre, post, by simp [← hj], Or.inr ?_, hq⟩
            rcases hp with rfl | ⟨p, rfl⟩
            · exact ⟨c :: v, rfl⟩
            · exact ⟨c :: v ++ sep :: p, by simp⟩
  · rintro ⟨hw, pre, post, e, hp, hq⟩
    subst e
    have h1 : w ∈ split sep (w ++ post) := by
      rcases hq with rfl | ⟨q, rfl⟩
      · simp [split_of_not_mem sep w hw]
      · rw [split_append_sep sep w q hw]; simp
    rcases hp with rfl | ⟨p, rfl⟩
    · simpa using h1
    · have : p ++ [sep] ++ w ++ post = p ++ sep :: (w ++ post) := by simp
      rw [this, split_append_sep']
      exact List.mem_append_right _ h1

theorem hasPrefix_iff (l r : Str) : hasPrefix l r = true ↔ r <+: l := by simp [hasPrefix]
theorem hasSuffix_iff (l r : Str) : hasSuffix l r = true ↔ r <:+ l := by simp [hasSuffix]
theorem contains_iff (l r : Str) : contains l r = true ↔ r <:+: l := by
  induction l with
  | nil => simp [contains]
  | cons c cs ih =>
    simp only [contains, Bool.or_eq_true, List.isPrefixOf_iff_prefix, ih, List.infix_cons_iff]

/-! trimming -/

theorem dropLastQuote_append (s : Str) (c : Char) : dropLastQuote (s ++ [c]) = if isQuote c then s else s ++ [c] := by
  induction s with
  | nil => simp [dropLastQuote]
  | cons a as ih =>
    cases as with
    | nil =>
      show a :: dropLastQuote [c] = _
      simp only [dropLastQuote]; split <;> rfl
    | cons b bs =>
      show a :: dropLastQuote (b :: bs ++ [c]) = _
      rw [ih]; split <;> rfl

/-- A quoted text loses exactly its bounding quotes. -/
theorem trimQuotes_quoted (q q' : Char) (hq : isQuote q = true) (hq' : isQuote q' = true) (s : Str) :
    trimQuotes (q :: (s ++ [q'])) = s := by
  simp [trimQuotes, dropHeadQuote, hq, dropLastQuote_append, hq']

/-- Text that neither starts nor ends with a quote is left alone. -/
theorem trimQuotes_plain (s : Str) (h1 : ∀ c, s.head? = some c → isQuote c = false)
    (h2 : ∀ c, s.getLast? = some c → isQuote c = false) : trimQuotes s = s := by
  cases s with
  | nil => rfl
  | cons a as =>
    have ha := h1 a rfl
    simp only [trimQuotes, dropHeadQuote, ha]
    rcases List.eq_nil_or_concat (a :: as) with h | ⟨b, c, h⟩
    · simp at h
    · rw [h] at h2 ⊢
      have := h2 c (by simp)
      simp [dropLastQuote_append, this]

/-! base names -/

theorem base_of_path (d n : Str) (hn : n ≠ []) (hs : '/' ∉ n) : base (d ++ '/' :: n) = n := by
  have hrev : (n.reverse) ≠ [] := by simpa using hn
  have hd : dropTrailingSlashes (d ++ '/' :: n) = d ++ '/' :: n := by
    unfold dropTrailingSlashes
    have : (d ++ '/' :: n).reverse = n.reverse ++ '/' :: d.reverse := by simp
    rw [this]
    cases hn' : n.reverse with
    | nil => exact absurd hn' hrev
    | cons c cs =>
      have hc : c ≠ '/' := by
        intro e; subst e
        have : '/' ∈ n.reverse := by rw [hn']; simp
        exact hs (by simpa using this)
      rw [List.cons_append, List.dropWhile_cons_of_neg (by simpa using hc), ← List.cons_append, ← hn']
      simp
  have ha : afterLastSlash (d ++ '/' :: n) = n := by
    unfold afterLastSlash
    have : (d ++ '/' :: n).reverse = n.reverse ++ '/' :: d.reverse := by simp
    rw [this, List.takeWhile_append_of_pos]
    · simp
    · intro c hc
      simp only [bne_iff_ne, ne_eq]
      intro e; subst e
      exact hs (by simpa using hc)
  unfold base
  rw [if_neg (by simp)]
  simp only [hd, ha, hn, if_false]

theorem base_of_name (n : Str) (hn : n ≠ []) (hs : '/' ∉ n) : base n = n := by
  have hd : dropTrailingSlashes n = n := by
    unfold dropTrailingSlashes
    cases hn' : n.reverse with
    | nil => exact absurd (by simpa using hn') hn
    | cons c cs =>
      have hc : c ≠ '/' := by
        intro e; subst e
        have : '/' ∈ n.reverse := by rw [hn']; simp
        exact hs (by simpa using this)
      rw [List.dropWhile_cons_of_neg (by simpa using hc), ← hn']; simp
  have ha : afterLastSlash n = n := by
    unfold afterLastSlash
    have h := List.takeWhile_append_of_pos (p := fun c : Char => c != '/') (l₁ := n.reverse) (l₂ := []) ?_
    · rw [List.append_nil] at h; rw [h]; simp
    · intro c hc
      simp only [bne_iff_ne, ne_eq]
      intro e; subst e
      exact hs (by simpa using hc)
  unfold base
  rw [if_neg hn]
  simp only [hd, ha, hn, if_false]

theorem base_ne_nil (s : Str) : base s ≠ [] := by
  unfold base
  split
  · simp
  · dsimp only; split
    · simp
    · assumption

end Verif.Strings
