import Verif.Falco.PolicyProps
/-
C68, C67, C69: the words of the policy language: which texts the tokens have, by themselves and in the places where the parser looks at their types.
The tables of this file are taken from the documentation of the language and the grammar file, not from the model of the lexer.
-/
namespace Verif.Falco
open Verif.Decimal (Str)

/-! ### Specification -/

/-- The reserved words and signs. -/
def word : Tok → Option String
  | .RULE => some "rule" | .FILTER => some "filter" | .DROP => some "drop" | .MACRO => some "macro" | .LIST => some "list" | .NAME => some "name"
  | .ITEMS => some "items" | .COND => some "condition" | .DESC => some "desc" | .ACTIONS => some "actions" | .OUTPUT => some "output"
  | .PRIORITY => some "priority" | .TAGS => some "tags" | .PREFILTER => some "prefilter" | .ENABLED => some "enabled"
  | .WARNEVTTYPE => some "warn_evttypes" | .SKIPUNKNOWN => some "skip-if-unknown-filter" | .FAPPEND => some "append" | .REQ => some "required_engine_version"
  | .AND => some "and" | .OR => some "or" | .NOT => some "not" | .LT => some "<" | .LE => some "<=" | .GT => some ">" | .GE => some ">=" | .EQ => some "="
  | .NEQ => some "!=" | .IN => some "in" | .CONTAINS => some "contains" | .ICONTAINS => some "icontains" | .STARTSWITH => some "startswith"
  | .ENDSWITH => some "endswith" | .PMATCH => some "pmatch" | .EXISTS => some "exists" | .LBRACK => some "[" | .RBRACK => some "]" | .LPAREN => some "("
  | .RPAREN => some ")" | .LISTSEP => some "," | .DECL => some "-"
  | _ => none

/-- The sign or word of an operator of conditions. -/
def opText : BinOp → String
  | .lt => "<" | .le => "<=" | .gt => ">" | .ge => ">=" | .eq => "=" | .neq => "!="
  | .contains => "contains" | .icontains => "icontains" | .startswith => "startswith" | .endswith => "endswith"

/-- The severities: the ones of SysFlow and the ones of Falco. -/
def severityWords : List String :=
  ["high", "medium", "low", "emergency", "alert", "critical", "error", "warning", "notice", "info", "informational", "debug"]

/-- The same word up to the case of letters. -/
def SameWord (w v : Str) : Prop := w.length = v.length ∧ ∀ (i : Nat) (c d : Char), w[i]? = some c → v[i]? = some d → c = d ∨ c = d.toUpper

/-- A plain name. -/
def NameText (w : Str) : Prop := ∃ c cs, w = c :: cs ∧ (c.isAlphanum = true ∨ c = '_') ∧ ∀ d ∈ cs, d.isAlphanum = true ∨ d ∈ ['_', '-', '.', '*']

/-- A path. -/
def PathText (w : Str) : Prop := ∃ c cs, w = c :: cs ∧ (c.isAlphanum = true ∨ c ∈ ['/', '.']) ∧ ∀ d ∈ cs, d.isAlphanum = true ∨ d ∈ ['_', '-', '.', '/', '*']

/-! ### Tokens and the rules that match their texts -/

/-- Each token is what the lexer finds next in some rest of the text. -/
theorem lexed_token {str : Str → Option Nat} (hs : StrRule str) (s : Str) : ∀ t ∈ lex str s, ∃ c s' n, nextTok str (c :: s') = some (t.kind, n) ∧
    t.text = (c :: s').take n ∧ 0 < n ∧ n ≤ (c :: s').length := by
  refine lex_induct hs (P := fun s => ∀ t ∈ lex str s, ∃ c s' n, nextTok str (c :: s') = some (t.kind, n) ∧
    t.text = (c :: s').take n ∧ 0 < n ∧ n ≤ (c :: s').length) ?_ ?_ s
  · intro t ht; cases ht
  · intro c s k l hk hl hle ih t ht
    rw [lex_cons hs c s hk] at ht
    rcases List.mem_cons.1 ht with rfl | ht
    · exact ⟨c, s, l, hk, rfl, hl, hle⟩
    · exact ih t ht

/-- A text that matches a rule, but none of the rules before it, belongs to a token of that rule. -/
theorem kind_of_match {str : Str → Option Nat} (hs : StrRule str) {s : Str} {t : Token} (ht : t ∈ lex str s) {pre post : List (Tok × Re)} {k : Tok} {r : Re}
    (hsplit : rulesA = pre ++ (k, r) :: post) (hr : r.M t.text) (hpre : ∀ x ∈ pre, ¬ x.2.M t.text) : t.kind = k := by
  obtain ⟨c, s', n, h1, h2, h3, h4⟩ := lexed_token hs s t ht
  obtain ⟨hm, hle⟩ := longest_rule_wins h1
  have hA : ∀ x ∈ rulesA, ∀ m, x.2.longest (c :: s') = some m → m ≤ n := by
    intro x hx m hxm
    refine hle x.1 m ?_
    unfold Matches matches'
    exact List.mem_append_left _ (List.mem_map.2 ⟨x, hx, by rw [hxm]⟩)
  have hB : ∀ x ∈ rulesB, ∀ m, x.2.longest (c :: s') = some m → m ≤ n := by
    intro x hx m hxm
    refine hle x.1 m ?_
    unfold Matches matches'
    exact List.mem_append_right _ (List.mem_cons_of_mem _ (List.mem_map.2 ⟨x, hx, by rw [hxm]⟩))
  have hS : ∀ m, str (c :: s') = some m → m ≤ n := by
    intro m hxm
    refine hle .STRING m ?_
    unfold Matches matches'
    exact List.mem_append_right _ (by rw [hxm]; exact List.mem_cons_self)
  rw [h2] at hr
  have hlong : r.longest (c :: s') = some n := by
    rw [Re.longest_some]
    refine ⟨h4, hr, fun m hml hmm => ?_⟩
    cases hl : r.longest (c :: s') with
    | none =>
      exfalso
      exact (Re.longest_none r _).1 hl m hml hmm
    | some q =>
      obtain ⟨_, _, q3⟩ := (Re.longest_some _ _ _).1 hl
      exact Nat.le_trans (q3 m hml hmm) (hA (k, r) (by rw [hsplit]; simp) q hl)
  have hnext : nextTok str (c :: s') = some (k, n) := by
    refine nextTok_A hsplit hlong ?_ ?_ hS hB
    · intro x hx m hxm
      have hle' := hA x (by rw [hsplit]; exact List.mem_append_left _ hx) m hxm
      rcases Nat.lt_or_ge m n with h | h
      · exact h
      · exfalso
        have : m = n := by omega
        subst this
        have := ((Re.longest_some _ _ _).1 hxm).2.1
        rw [← h2] at this
        exact hpre x hx this
    · intro x hx m hxm
      exact hA x (by rw [hsplit]; exact List.mem_append_right _ (List.mem_cons_of_mem _ hx)) m hxm
  rw [h1] at hnext
  cases hnext
  rfl

/-- The text of a token matches the rule of its type. -/
theorem text_matches {str : Str → Option Nat} (hs : StrRule str) {s : Str} {t : Token} (ht : t ∈ lex str s) :
    (∃ r, (t.kind, r) ∈ rulesA ++ rulesB ∧ r.M t.text) ∨ (t.kind = .STRING ∧ ∃ c w, t.text = c :: w ∧ (c = '"' ∨ c = '\'' ∨ c = '\\')) := by
  obtain ⟨c, s', n, h1, h2, h3, h4⟩ := lexed_token hs s t ht
  obtain ⟨hm, _⟩ := longest_rule_wins h1
  unfold Matches matches' at hm
  rcases List.mem_append.1 hm with hm | hm
  · obtain ⟨x, hx, he⟩ := List.mem_map.1 hm
    rw [Prod.mk.injEq] at he
    refine .inl ⟨x.2, List.mem_append_left _ (by rw [← he.1]; exact hx), ?_⟩
    rw [h2]
    exact ((Re.longest_some _ _ _).1 he.2).2.1
  · rcases List.mem_cons.1 hm with he | hm
    · rw [Prod.mk.injEq] at he
      obtain ⟨p1, p2, d, s2, e, hq⟩ := hs.start _ _ he.2.symm
      refine .inr ⟨he.1, d, s2.take (n - 1), ?_, hq⟩
      rw [h2, e]
      obtain ⟨n, rfl⟩ : ∃ m, n = m + 1 := ⟨n - 1, by omega⟩
      rfl
    · obtain ⟨x, hx, he⟩ := List.mem_map.1 hm
      rw [Prod.mk.injEq] at he
      refine .inl ⟨x.2, List.mem_append_right _ (by rw [← he.1]; exact hx), ?_⟩
      rw [h2]
      exact ((Re.longest_some _ _ _).1 he.2).2.1

/-! ### Reserved words -/

theorem fixed_words : ∀ x ∈ fixedTexts, (word x.1).map String.toList = some x.2 := by decide +kernel
theorem other_words : ∀ x ∈ rulesA.drop fixedTexts.length ++ rulesB, word x.1 = none := by decide +kernel

theorem fixed_mem {k : Tok} {w : String} (h : word k = some w) : (k, w.toList) ∈ fixedTexts := by
  have : ∀ k : Tok, (word k).map (fun w => decide ((k, w.toList) ∈ fixedTexts)) ≠ some false := by
    intro k; cases k <;> decide +kernel
  have := this k
  rw [h] at this
  simpa using this

theorem fixed_split {k : Tok} {w : Str} (h : (k, w) ∈ fixedTexts) : ∃ f1 f2, fixedTexts = f1 ++ (k, w) :: f2 ∧ ∀ x ∈ f1, x.2 ≠ w := by
  obtain ⟨f1, f2, he⟩ := List.append_of_mem h
  refine ⟨f1, f2, he, fun x hx hw => ?_⟩
  have hnd : (fixedTexts.map (·.2)).Nodup := by decide +kernel
  rw [he, List.map_append, List.map_cons] at hnd
  have := (List.nodup_append.1 hnd).2.2 x.2 (List.mem_map.2 ⟨x, hx, rfl⟩) w List.mem_cons_self
  exact this hw

/-- **C68** In the tokens of a text: a token has the type of a reserved word or sign exactly if it is that word or sign. -/
theorem reserved_iff {str : Str → Option Nat} (hs : StrRule str) {s : Str} {t : Token} (ht : t ∈ lex str s) {k : Tok} {w : String} (hk : word k = some w) :
    t.kind = k ↔ t.text = w.toList := by
  have hm := fixed_mem hk
  constructor
  · intro e
    rcases text_matches hs ht with ⟨r, hr, hM⟩ | ⟨e', _⟩
    · rcases List.mem_append.1 hr with hr | hr
      · unfold rulesA at hr
        rcases List.mem_append.1 hr with hr | hr
        · obtain ⟨x, hx, he⟩ := List.mem_map.1 hr
          rw [Prod.mk.injEq] at he
          have h2 := fixed_words x hx
          rw [he.1, e, hk] at h2
          rw [← he.2, lit_M] at hM
          rw [hM]
          exact (Option.some.inj h2).symm
        · have := other_words (t.kind, r) (List.mem_append_left _ (by
            have : rulesA.drop fixedTexts.length = [(.DEF, reDef), (.SEVERITY, reSev), (.SFSEVERITY, reSf), (.FSEVERITY, reF), (.ID, reId), (.NUMBER, reNumber), (.PATH, rePath)] := rfl
            rw [this]; exact hr))
          rw [e, hk] at this
          cases this
      · have := other_words (t.kind, r) (List.mem_append_right _ hr)
        rw [e, hk] at this
        cases this
    · rw [e'] at e
      subst e
      cases hk
  · intro e
    obtain ⟨f1, f2, hf, hne⟩ := fixed_split hm
    refine kind_of_match hs ht (pre := f1.map (fun x => (x.1, Re.lit x.2)))
      (post := f2.map (fun x => (x.1, Re.lit x.2)) ++ [(.DEF, reDef), (.SEVERITY, reSev), (.SFSEVERITY, reSf), (.FSEVERITY, reF), (.ID, reId), (.NUMBER, reNumber), (.PATH, rePath)])
      (r := Re.lit w.toList) ?_ ?_ ?_
    · unfold rulesA
      rw [hf, List.map_append, List.map_cons, List.append_assoc, List.cons_append]
    · rw [lit_M]; exact e
    · intro x hx hM
      obtain ⟨y, hy, rfl⟩ := List.mem_map.1 hx
      rw [lit_M] at hM
      exact hne y hy (hM.symm.trans e)

/-- **C67** The operator between two atoms is the one that is written there. -/
theorem operator_iff {str : Str → Option Nat} (hs : StrRule str) {s : Str} {t : Token} (ht : t ∈ lex str s) (op : BinOp) :
    binOp t.kind = some op ↔ t.text = (opText op).toList := by
  cases op
  case lt => exact Iff.trans (by generalize t.kind = q; cases q <;> decide) (reserved_iff hs ht (k := .LT) rfl)
  case le => exact Iff.trans (by generalize t.kind = q; cases q <;> decide) (reserved_iff hs ht (k := .LE) rfl)
  case gt => exact Iff.trans (by generalize t.kind = q; cases q <;> decide) (reserved_iff hs ht (k := .GT) rfl)
  case ge => exact Iff.trans (by generalize t.kind = q; cases q <;> decide) (reserved_iff hs ht (k := .GE) rfl)
  case eq => exact Iff.trans (by generalize t.kind = q; cases q <;> decide) (reserved_iff hs ht (k := .EQ) rfl)
  case neq => exact Iff.trans (by generalize t.kind = q; cases q <;> decide) (reserved_iff hs ht (k := .NEQ) rfl)
  case contains => exact Iff.trans (by generalize t.kind = q; cases q <;> decide) (reserved_iff hs ht (k := .CONTAINS) rfl)
  case icontains => exact Iff.trans (by generalize t.kind = q; cases q <;> decide) (reserved_iff hs ht (k := .ICONTAINS) rfl)
  case startswith => exact Iff.trans (by generalize t.kind = q; cases q <;> decide) (reserved_iff hs ht (k := .STARTSWITH) rfl)
  case endswith => exact Iff.trans (by generalize t.kind = q; cases q <;> decide) (reserved_iff hs ht (k := .ENDSWITH) rfl)

/-- The words that end the text of a name, description or output. -/
def endsText : List String := ["desc", "condition", "actions", "output", "priority", "tags", "prefilter", "enabled", "warn_evttypes", "skip-if-unknown-filter", "append"]

/-- The types of the tokens that start an attribute of a rule or macro. -/
def attributeStarts : List Tok := [.DESC, .COND, .ACTIONS, .OUTPUT, .PRIORITY, .TAGS, .PREFILTER, .ENABLED, .WARNEVTTYPE, .SKIPUNKNOWN, .FAPPEND]

/-- **C69** A free text (name, description, output) goes on up to the next token that starts an attribute. -/
theorem text_ends_iff {str : Str → Option Nat} (hs : StrRule str) {s : Str} {t : LTok} (ht : t.tok ∈ lex str s) :
    (isTextTok t = false ↔ ∃ w ∈ endsText, t.tok.text = w.toList) ∧ (isTextTok t = false ↔ t.tok.kind ∈ attributeStarts) := by
  have h1 : isTextTok t = false ↔ t.tok.text ∈ textStops := by
    unfold isTextTok
    rw [Bool.not_eq_false', List.contains_iff_mem]
  have h2 : t.tok.text ∈ textStops ↔ ∃ w ∈ endsText, t.tok.text = w.toList := by
    have : textStops = endsText.map String.toList := by decide +kernel
    rw [this]
    constructor
    · intro h; obtain ⟨w, hw, e⟩ := List.mem_map.1 h; exact ⟨w, hw, e.symm⟩
    · rintro ⟨w, hw, e⟩; exact List.mem_map.2 ⟨w, hw, e.symm⟩
  refine ⟨h1.trans h2, (h1.trans h2).trans ?_⟩
  have pair : ∀ w ∈ endsText, ∃ k ∈ attributeStarts, word k = some w := by decide +kernel
  have pair' : ∀ k ∈ attributeStarts, ∃ w ∈ endsText, word k = some w := by decide +kernel
  constructor
  · rintro ⟨w, hw, e⟩
    obtain ⟨k, hk, hkw⟩ := pair w hw
    rw [(reserved_iff hs ht hkw).2 e]
    exact hk
  · intro hk
    obtain ⟨w, hw, hkw⟩ := pair' _ hk
    exact ⟨w, hw, (reserved_iff hs ht hkw).1 rfl⟩

/-! ### Severities -/

theorem severity_list : sfSeverities ++ fSeverities = severityWords.map String.toList := by decide +kernel

theorem isSeverity_iff (w : Str) : IsSeverity w ↔ ∃ v ∈ severityWords, SameWord w v.toList := by
  unfold IsSeverity SameWord
  rw [severity_list]
  constructor
  · rintro ⟨v, hv, h⟩
    obtain ⟨x, hx, rfl⟩ := List.mem_map.1 hv
    exact ⟨x, hx, h⟩
  · rintro ⟨x, hx, h⟩
    exact ⟨_, List.mem_map.2 ⟨x, hx, rfl⟩, h⟩

theorem def_colon {w : Str} (h : reDef.M w) : ∃ cs, w = ':' :: cs := by
  unfold reDef at h
  rw [Re.seq_M] at h
  obtain ⟨u, v, rfl, hu, _⟩ := h
  unfold Re.ch at hu
  cases hu with
  | set hx =>
    rw [inSet_one] at hx
    rw [of_decide_eq_true hx]
    exact ⟨v, rfl⟩

/-- **C68** A token is a severity exactly if it is one of the twelve words, in any mixture of cases. -/
theorem severity_iff {str : Str → Option Nat} (hs : StrRule str) {s : Str} {t : Token} (ht : t ∈ lex str s) :
    t.kind = .SEVERITY ↔ ∃ v ∈ severityWords, SameWord t.text v.toList := by
  rw [← isSeverity_iff]
  constructor
  · intro e
    rcases text_matches hs ht with ⟨r, hr, hM⟩ | ⟨e', _⟩
    · rw [e] at hr
      have huniq : ∀ x ∈ rulesA ++ rulesB, x.1 = .SEVERITY → x.2 = reSev := by decide +kernel
      have hreq : r = reSev := huniq _ hr rfl
      rw [hreq] at hM
      exact (severity_M _).1 hM
    · rw [e'] at e; cases e
  · intro h
    refine kind_of_match hs ht (pre := fixedTexts.map (fun x => (x.1, Re.lit x.2)) ++ [(.DEF, reDef)])
      (post := [(.SFSEVERITY, reSf), (.FSEVERITY, reF), (.ID, reId), (.NUMBER, reNumber), (.PATH, rePath)]) (r := reSev) ?_ ((severity_M _).2 h) ?_
    · unfold rulesA
      rw [List.append_assoc]
      rfl
    · intro x hx hM
      rcases List.mem_append.1 hx with hx | hx
      · obtain ⟨y, hy, rfl⟩ := List.mem_map.1 hx
        rw [lit_M] at hM
        have hno : ∀ y ∈ fixedTexts, reSev.longest y.2 ≠ some y.2.length := by decide +kernel
        rw [hM] at h
        exact hno y hy (longest_full ((severity_M _).2 h))
      · rw [List.mem_singleton] at hx
        subst hx
        obtain ⟨cs, he⟩ := def_colon hM
        have hM2 := (severity_M _).2 h
        rw [he] at hM2
        have hl := longest_full hM2
        rw [longest_first (by decide +kernel) (by decide +kernel)] at hl
        cases hl

/-! ### Names and paths -/

theorem alnum_set (more : List (Char × Char)) (c : Char) : inSet false (letters ++ digits ++ more) c = (c.isAlphanum || inSet false more c) := by
  have h2 : ∀ b : Bool, (b != false) = b := by intro b; cases b <;> rfl
  unfold inSet letters digits
  rw [h2, h2, List.any_append]
  congr 1
  rw [Bool.eq_iff_iff]
  simp only [Char.isAlphanum, Char.isAlpha, Char.isUpper, Char.isLower, Char.isDigit, List.any_append, List.any_cons, List.any_nil, Bool.or_false, Bool.or_eq_true,
    Bool.and_eq_true, decide_eq_true_eq, ge_iff_le, UInt32.le_iff_toNat_le, Char.toNat]
  constructor
  · rintro ((h | h) | h)
    · exact .inl (.inr h)
    · exact .inl (.inl h)
    · exact .inr h
  · rintro ((h | h) | h)
    · exact .inl (.inr h)
    · exact .inl (.inl h)
    · exact .inr h

theorem inSet_singles (l : List Char) (c : Char) : inSet false (l.map (fun x => (x, x))) c = decide (c ∈ l) := by
  have h2 : ∀ b : Bool, (b != false) = b := by intro b; cases b <;> rfl
  induction l with
  | nil => rfl
  | cons x l ih =>
    have h1 := inSet_one x c
    unfold inSet at ih h1 ⊢
    rw [h2] at ih h1 ⊢
    rw [List.map_cons, List.any_cons, ih]
    rw [List.any_cons, List.any_nil, Bool.or_false] at h1
    rw [h1, Bool.eq_iff_iff]
    simp

theorem idStart_iff (c : Char) : idStart c = true ↔ c.isAlphanum = true ∨ c = '_' := by
  unfold idStart
  rw [alnum_set, show [('_', '_')] = [('_' : Char)].map (fun x => (x, x)) from rfl, inSet_singles, Bool.or_eq_true, decide_eq_true_eq, List.mem_singleton]

theorem idChar_iff (c : Char) : idChar c = true ↔ c.isAlphanum = true ∨ c ∈ ['_', '-', '.', '*'] := by
  unfold idChar
  rw [alnum_set, show [('_', '_'), ('-', '-'), ('.', '.'), ('*', '*')] = ['_', '-', '.', '*'].map (fun x => (x, x)) from rfl, inSet_singles, Bool.or_eq_true, decide_eq_true_eq]

theorem pathStart_iff (c : Char) : pathStart c = true ↔ c.isAlphanum = true ∨ c ∈ ['/', '.'] := by
  unfold pathStart
  rw [alnum_set, show [('/', '/'), ('.', '.')] = ['/', '.'].map (fun x => (x, x)) from rfl, inSet_singles, Bool.or_eq_true, decide_eq_true_eq]

theorem pathChar_iff (c : Char) : pathChar c = true ↔ c.isAlphanum = true ∨ c ∈ ['_', '-', '.', '/', '*'] := by
  unfold pathChar
  rw [alnum_set, show [('_', '_'), ('-', '-'), ('.', '.'), ('/', '/'), ('*', '*')] = ['_', '-', '.', '/', '*'].map (fun x => (x, x)) from rfl, inSet_singles, Bool.or_eq_true,
    decide_eq_true_eq]

theorem plainWord_iff (w : Str) : PlainWord w ↔ NameText w := by
  unfold PlainWord NameText
  constructor
  · rintro ⟨c, cs, rfl, h1, h2⟩; exact ⟨c, cs, rfl, (idStart_iff c).1 h1, fun d hd => (idChar_iff d).1 (h2 d hd)⟩
  · rintro ⟨c, cs, rfl, h1, h2⟩; exact ⟨c, cs, rfl, (idStart_iff c).2 h1, fun d hd => (idChar_iff d).2 (h2 d hd)⟩

theorem path_M (w : Str) : rePath.M w ↔ PathText w := by
  unfold rePath PathText
  rw [Re.seq_M]
  constructor
  · rintro ⟨u, v, rfl, hu, hv⟩
    cases hu with
    | set hc => exact ⟨_, v, rfl, (pathStart_iff _).1 hc, fun d hd => (pathChar_iff d).1 (star_set_all hv d hd)⟩
  · rintro ⟨c, cs, rfl, h1, h2⟩
    exact ⟨[c], cs, rfl, .set ((pathStart_iff c).2 h1), star_set (fun d hd => (pathChar_iff d).2 (h2 d hd))⟩

/-- The texts of the rule `ID` without brackets are the plain names. -/
theorem id_plain {w : Str} (h : reId.M w) (hb : '[' ∉ w) : PlainWord w := by
  unfold reId at h
  rw [Re.seq_M] at h
  obtain ⟨u, v, rfl, hu, hv⟩ := h
  simp only [List.mem_append, not_or] at hb
  have key : ∀ (r : Re) (v : Str), r = Re.star (.alt (.set false (letters ++ digits ++ [('_', '_'), ('-', '-'), ('.', '.'), ('*', '*')])) reIndex) →
      r.M v → '[' ∉ v → ∀ d ∈ v, idChar d = true := by
    intro r v hr hM
    induction hM with
    | eps => cases hr
    | set _ => cases hr
    | seq _ _ => cases hr
    | altL _ => cases hr
    | altR _ => cases hr
    | starNil => intro _ d hd; cases hd
    | @starCons a u v hu _ _ ih =>
      cases hr
      intro hb' d hd
      simp only [List.mem_append, not_or] at hb'
      rcases List.mem_append.1 hd with hd | hd
      · rw [Re.alt_M] at hu
        rcases hu with hu | hu
        · cases hu with
          | set hc => rw [List.mem_singleton.1 hd]; exact hc
        · exfalso
          apply hb'.1
          unfold reIndex at hu
          rw [Re.seq_M] at hu
          obtain ⟨u1, u2, rfl, _, h2⟩ := hu
          rw [Re.seq_M] at h2
          obtain ⟨u3, u4, rfl, h3, _⟩ := h2
          unfold Re.ch at h3
          cases h3 with
          | set hx =>
            rw [inSet_one] at hx
            rw [of_decide_eq_true hx]
            simp
      · exact ih rfl hb'.2 d hd
  cases hu with
  | set hc => exact ⟨_, v, rfl, hc, key _ _ rfl hv hb.2⟩

/-- A text that has a meaning of its own. -/
def ReservedText (w : Str) : Prop := (∃ k v, word k = some v ∧ w = v.toList) ∨ ∃ v ∈ severityWords, SameWord w v.toList

theorem number_plain {w : Str} (h : reNumber.M w) : PlainWord w := by
  have dig : ∀ c, inSet false digits c = true → idStart c = true ∧ idChar c = true := by
    intro c hc
    have h2 : ∀ more : List (Char × Char), inSet false (letters ++ digits ++ more) c = true := by
      intro more
      unfold inSet at hc ⊢
      have h3 : ∀ b : Bool, (b != false) = b := by intro b; cases b <;> rfl
      rw [h3] at hc ⊢
      rw [List.any_append, List.any_append, hc]
      simp
    exact ⟨h2 _, h2 _⟩
  unfold reNumber at h
  rw [Re.seq_M] at h
  obtain ⟨u, v, rfl, hu, hv⟩ := h
  unfold Re.plus at hu
  rw [Re.seq_M] at hu
  obtain ⟨a, b, rfl, ha, hb⟩ := hu
  cases ha with
  | set hc =>
    rename_i c
    refine ⟨c, b ++ v, by simp, (dig c hc).1, fun d hd => ?_⟩
    rcases List.mem_append.1 hd with hd | hd
    · exact (dig d (star_set_all hb d hd)).2
    · unfold Re.opt at hv
      rw [Re.alt_M] at hv
      rcases hv with hv | hv
      · rw [Re.seq_M] at hv
        obtain ⟨p, q, rfl, hp, hq⟩ := hv
        rcases List.mem_append.1 hd with hd | hd
        · unfold Re.ch at hp
          cases hp with
          | set hx =>
            rw [inSet_one] at hx
            rw [List.mem_singleton.1 hd, of_decide_eq_true hx]
            decide +kernel
        · unfold Re.plus at hq
          rw [Re.seq_M] at hq
          obtain ⟨a', b', rfl, ha', hb'⟩ := hq
          rcases List.mem_append.1 hd with hd | hd
          · cases ha' with
            | set hc' => rw [List.mem_singleton.1 hd]; exact (dig _ hc').2
          · exact (dig d (star_set_all hb' d hd)).2
      · cases hv
        cases hd

theorem reserved_split {w : Str} (h : ¬ ReservedText w) : ∀ x ∈ fixedTexts.map (fun x => (x.1, Re.lit x.2)), ¬ x.2.M w := by
  intro x hx hM
  obtain ⟨y, hy, rfl⟩ := List.mem_map.1 hx
  rw [lit_M] at hM
  have := fixed_words y hy
  obtain ⟨v, hv, he⟩ := Option.map_eq_some_iff.1 this
  exact h (.inl ⟨y.1, v, hv, hM.trans he.symm⟩)

/-- **C68** A token without brackets is an identifier exactly if it is a plain name that is not reserved. (Numbers are identifiers.) -/
theorem name_iff {str : Str → Option Nat} (hs : StrRule str) {s : Str} {t : Token} (ht : t ∈ lex str s) (hb : '[' ∉ t.text) :
    t.kind = .ID ↔ NameText t.text ∧ ¬ ReservedText t.text := by
  constructor
  · intro e
    constructor
    · rcases text_matches hs ht with ⟨r, hr, hM⟩ | ⟨e', _⟩
      · rw [e] at hr
        have huniq : ∀ x ∈ rulesA ++ rulesB, x.1 = .ID → x.2 = reId := by decide +kernel
        have hreq : r = reId := huniq _ hr rfl
        rw [hreq] at hM
        exact (plainWord_iff _).1 (id_plain hM hb)
      · rw [e'] at e; cases e
    · rintro (⟨k, v, hk, hv⟩ | hsev)
      · rw [(reserved_iff hs ht hk).2 hv] at e
        subst e
        cases hk
      · rw [(severity_iff hs ht).2 hsev] at e
        cases e
  · rintro ⟨hn, hr⟩
    have hsev : ¬ reSev.M t.text := fun h => hr (.inr ((isSeverity_iff _).1 ((severity_M _).1 h)))
    refine kind_of_match hs ht (pre := fixedTexts.map (fun x => (x.1, Re.lit x.2)) ++ [(.DEF, reDef), (.SEVERITY, reSev), (.SFSEVERITY, reSf), (.FSEVERITY, reF)])
      (post := [(.NUMBER, reNumber), (.PATH, rePath)]) (r := reId) ?_ (plain_id ((plainWord_iff _).2 hn)) ?_
    · unfold rulesA
      rw [List.append_assoc]
      rfl
    · intro x hx hM
      rcases List.mem_append.1 hx with hx | hx
      · exact reserved_split hr x hx hM
      · simp only [List.mem_cons, List.not_mem_nil, or_false] at hx
        rcases hx with rfl | rfl | rfl | rfl
        · obtain ⟨cs, he⟩ := def_colon hM
          obtain ⟨c, cs', he', hc, _⟩ := hn
          rw [he] at he'
          cases he'
          rcases hc with hc | hc
          · exact absurd hc (by decide)
          · exact absurd hc (by decide)
        · exact hsev hM
        · exact hsev (by unfold reSev; rw [Re.alt_M]; exact .inl hM)
        · exact hsev (by unfold reSev; rw [Re.alt_M]; exact .inr hM)

/-- **C68** A token is a path exactly if it is made of the characters of paths and is no plain name. -/
theorem path_iff {str : Str → Option Nat} (hs : StrRule str) {s : Str} {t : Token} (ht : t ∈ lex str s) :
    t.kind = .PATH ↔ PathText t.text ∧ ¬ NameText t.text := by
  have nob : PathText t.text → '[' ∉ t.text := by
    rintro ⟨c, cs, e, h1, h2⟩ hm
    rw [e] at hm
    rcases List.mem_cons.1 hm with rfl | hm
    · rcases h1 with h1 | h1
      · exact absurd h1 (by decide)
      · exact absurd h1 (by decide)
    · rcases h2 _ hm with h | h
      · exact absurd h (by decide)
      · exact absurd h (by decide)
  constructor
  · intro e
    have hp : PathText t.text := by
      rcases text_matches hs ht with ⟨r, hr, hM⟩ | ⟨e', _⟩
      · rw [e] at hr
        have huniq : ∀ x ∈ rulesA ++ rulesB, x.1 = .PATH → x.2 = rePath := by decide +kernel
        have hreq : r = rePath := huniq _ hr rfl
        rw [hreq] at hM
        exact (path_M _).1 hM
      · rw [e'] at e; cases e
    refine ⟨hp, fun hn => ?_⟩
    by_cases hr : ReservedText t.text
    · rcases hr with ⟨k, v, hk, hv⟩ | hsev
      · rw [(reserved_iff hs ht hk).2 hv] at e
        subst e
        cases hk
      · rw [(severity_iff hs ht).2 hsev] at e
        cases e
    · rw [(name_iff hs ht (nob hp)).2 ⟨hn, hr⟩] at e
      cases e
  · rintro ⟨hp, hn⟩
    have hnid : ¬ reId.M t.text := fun h => hn ((plainWord_iff _).1 (id_plain h (nob hp)))
    have hnum : ¬ reNumber.M t.text := fun h => hn ((plainWord_iff _).1 (number_plain h))
    have fixedNo : ∀ y ∈ fixedTexts, reId.longest y.2 = some y.2.length ∨ rePath.longest y.2 ≠ some y.2.length := by decide +kernel
    have hsev : ¬ reSev.M t.text := by
      intro h
      obtain ⟨v, hv, h1, h2⟩ := (isSeverity_iff _).1 ((severity_M _).1 h)
      apply hn
      have up : ∀ v ∈ severityWords, v.toList ≠ [] ∧ ∀ d ∈ v.toList, d.isAlphanum = true ∧ d.toUpper.isAlphanum = true := by decide +kernel
      obtain ⟨hne, hall⟩ := up v hv
      have allw : ∀ c ∈ t.text, c.isAlphanum = true := by
        intro c hc
        obtain ⟨i, hi, he⟩ := List.getElem_of_mem hc
        have hi' : i < v.toList.length := by rw [← h1]; exact hi
        rcases h2 i c v.toList[i] (by rw [List.getElem?_eq_getElem hi, he]) (List.getElem?_eq_getElem hi') with e | e
        · rw [e]; exact (hall _ (List.getElem_mem hi')).1
        · rw [e]; exact (hall _ (List.getElem_mem hi')).2
      cases hw : t.text with
      | nil =>
        rw [hw] at h1
        exact absurd (List.eq_nil_of_length_eq_zero h1.symm) hne
      | cons c cs =>
        rw [hw] at allw
        exact ⟨c, cs, rfl, .inl (allw c List.mem_cons_self), fun d hd => .inl (allw d (List.mem_cons_of_mem _ hd))⟩
    refine kind_of_match hs ht
      (pre := fixedTexts.map (fun x => (x.1, Re.lit x.2)) ++ [(.DEF, reDef), (.SEVERITY, reSev), (.SFSEVERITY, reSf), (.FSEVERITY, reF), (.ID, reId), (.NUMBER, reNumber)])
      (post := []) (r := rePath) ?_ ((path_M _).2 hp) ?_
    · unfold rulesA
      rw [List.append_assoc]
      rfl
    · intro x hx hM
      rcases List.mem_append.1 hx with hx | hx
      · obtain ⟨y, hy, rfl⟩ := List.mem_map.1 hx
        rw [lit_M] at hM
        have hpm := (path_M _).2 hp
        rw [hM] at hpm hnid
        rcases fixedNo y hy with h | h
        · have := ((Re.longest_some _ _ _).1 h).2.1
          rw [List.take_length] at this
          exact hnid this
        · exact h (longest_full hpm)
      · simp only [List.mem_cons, List.not_mem_nil, or_false] at hx
        rcases hx with rfl | rfl | rfl | rfl | rfl | rfl
        · obtain ⟨cs, he⟩ := def_colon hM
          obtain ⟨c, cs', he', hc, _⟩ := hp
          rw [he] at he'
          cases he'
          rcases hc with hc | hc
          · exact absurd hc (by decide)
          · exact absurd hc (by decide)
        · exact hsev hM
        · exact hsev (by unfold reSev; rw [Re.alt_M]; exact .inl hM)
        · exact hsev (by unfold reSev; rw [Re.alt_M]; exact .inr hM)
        · exact hnid hM
        · exact hnum hM

/-- **C67** What can stand on either side of an operator: names, paths, quoted texts, tags (and the signs `<`, `>`, by a quirk of the grammar); the types for numbers and for the two kinds of
severities never occur. -/
theorem atom_iff {str : Str → Option Nat} (hs : StrRule str) {s : Str} {t : Token} (ht : t ∈ lex str s) :
    (isAtom t.kind = true ↔ t.kind = .ID ∨ t.kind = .PATH ∨ t.kind = .STRING ∨ t.kind = .TAG ∨ t.text = ['<'] ∨ t.text = ['>']) ∧
    t.kind ≠ .NUMBER ∧ t.kind ≠ .SFSEVERITY ∧ t.kind ≠ .FSEVERITY := by
  have hnum : t.kind ≠ .NUMBER := by
    intro e
    rcases text_matches hs ht with ⟨r, hr, hM⟩ | ⟨e', _⟩
    · rw [e] at hr
      have huniq : ∀ x ∈ rulesA ++ rulesB, x.1 = .NUMBER → x.2 = reNumber := by decide +kernel
      have hreq : r = reNumber := huniq _ hr rfl
      rw [hreq] at hM
      have hp := (plainWord_iff _).1 (number_plain hM)
      have hb : '[' ∉ t.text := by
        obtain ⟨c, cs, e1, h1, h2⟩ := hp
        rw [e1]
        intro hm
        rcases List.mem_cons.1 hm with rfl | hm
        · rcases h1 with h | h <;> exact absurd h (by decide)
        · rcases h2 _ hm with h | h <;> exact absurd h (by decide)
      by_cases hr' : ReservedText t.text
      · rcases hr' with ⟨k, v, hk, hv⟩ | hsev
        · rw [(reserved_iff hs ht hk).2 hv] at e
          subst e
          cases hk
        · rw [(severity_iff hs ht).2 hsev] at e; cases e
      · rw [(name_iff hs ht hb).2 ⟨hp, hr'⟩] at e; cases e
    · rw [e'] at e; cases e
  have hsf : t.kind ≠ .SFSEVERITY := by
    intro e
    rcases text_matches hs ht with ⟨r, hr, hM⟩ | ⟨e', _⟩
    · rw [e] at hr
      have huniq : ∀ x ∈ rulesA ++ rulesB, x.1 = .SFSEVERITY → x.2 = reSf := by decide +kernel
      have hreq : r = reSf := huniq _ hr rfl
      rw [hreq] at hM
      have : reSev.M t.text := by unfold reSev; rw [Re.alt_M]; exact .inl hM
      rw [(severity_iff hs ht).2 ((isSeverity_iff _).1 ((severity_M _).1 this))] at e
      cases e
    · rw [e'] at e; cases e
  have hfs : t.kind ≠ .FSEVERITY := by
    intro e
    rcases text_matches hs ht with ⟨r, hr, hM⟩ | ⟨e', _⟩
    · rw [e] at hr
      have huniq : ∀ x ∈ rulesA ++ rulesB, x.1 = .FSEVERITY → x.2 = reF := by decide +kernel
      have hreq : r = reF := huniq _ hr rfl
      rw [hreq] at hM
      have : reSev.M t.text := by unfold reSev; rw [Re.alt_M]; exact .inr hM
      rw [(severity_iff hs ht).2 ((isSeverity_iff _).1 ((severity_M _).1 this))] at e
      cases e
    · rw [e'] at e; cases e
  refine ⟨?_, hnum, hsf, hfs⟩
  have h1 := reserved_iff hs ht (k := .LT) rfl
  have h2 := reserved_iff hs ht (k := .GT) rfl
  rw [show t.text = ['<'] ↔ t.kind = .LT from h1.symm, show t.text = ['>'] ↔ t.kind = .GT from h2.symm]
  revert hnum
  generalize t.kind = k
  cases k <;> decide

/-- **C68** What the parser does not see: exactly the tokens made of blanks, and comments. -/
theorem hidden_iff {str : Str → Option Nat} (hs : StrRule str) {s : Str} {t : Token} (ht : t ∈ lex str s) :
    t.hidden = true ↔ (∀ c ∈ t.text, c ∈ [' ', '\t', '\r', '\n', '\x0c']) ∨ t.text.head? = some '#' := by
  obtain ⟨c, s', n, h1, h2, h3, h4⟩ := lexed_token hs s t ht
  obtain ⟨n, rfl⟩ : ∃ m, n = m + 1 := ⟨n - 1, by omega⟩
  have htext : t.text = c :: s'.take n := h2
  have hkind : t.hidden = true ↔ t.kind = .WS ∨ t.kind = .NL ∨ t.kind = .COMMENT := by
    unfold Token.hidden
    cases t.kind <;> decide
  rw [hkind]
  constructor
  · intro hk
    rcases text_matches hs ht with ⟨r, hr, hM⟩ | ⟨e', _⟩
    · rcases hk with e | e | e
      · rw [e] at hr
        have huniq : ∀ x ∈ rulesA ++ rulesB, x.1 = .WS → x.2 = reWs := by decide +kernel
        have hreq : r = reWs := huniq _ hr rfl
        rw [hreq] at hM
        left
        unfold reWs Re.plus at hM
        rw [Re.seq_M] at hM
        obtain ⟨u, v, he, hu, hv⟩ := hM
        rw [he]
        intro d hd
        rw [← show blankChars = [' ', '\t', '\r', '\n', '\x0c'] from rfl, ← isBlank_iff, ← ws_set]
        rcases List.mem_append.1 hd with hd | hd
        · cases hu with
          | set hc => rw [List.mem_singleton.1 hd]; exact hc
        · exact star_set_all hv d hd
      · rw [e] at hr
        have huniq : ∀ x ∈ rulesA ++ rulesB, x.1 = .NL → x.2 = reNl := by decide +kernel
        have hreq : r = reNl := huniq _ hr rfl
        rw [hreq] at hM
        left
        intro d hd
        rw [← show blankChars = [' ', '\t', '\r', '\n', '\x0c'] from rfl, ← isBlank_iff]
        exact nl_all_blank hM d hd
      · rw [e] at hr
        have huniq : ∀ x ∈ rulesA ++ rulesB, x.1 = .COMMENT → x.2 = reComment := by decide +kernel
        have hreq : r = reComment := huniq _ hr rfl
        rw [hreq] at hM
        right
        unfold reComment at hM
        rw [Re.seq_M] at hM
        obtain ⟨u, v, he, hu, hv⟩ := hM
        unfold Re.ch at hu
        cases hu with
        | set hx =>
          rw [inSet_one] at hx
          rw [he, of_decide_eq_true hx]
          rfl
    · rw [e'] at hk; rcases hk with hk | hk | hk <;> cases hk
  · rintro (h | h)
    · have hb : isBlank c = true := (isBlank_iff c).2 (h c (by rw [htext]; exact List.mem_cons_self))
      rw [blank_token hs hb] at h1
      left
      exact (Prod.mk.inj (Option.some.inj h1)).1.symm
    · rw [htext] at h
      cases h
      rw [comment_token hs] at h1
      right; right
      exact (Prod.mk.inj (Option.some.inj h1)).1.symm

/-! ### Attributes of a rule -/

/-- `x` is the first text among the attributes that `sel` selects. -/
def FirstOf (sel : Attr → Option Str) (as : List Attr) (x : Option Str) : Prop :=
  (x = none ∧ ∀ a ∈ as, sel a = none) ∨ ∃ pre a post s, x = some s ∧ as = pre ++ a :: post ∧ sel a = some s ∧ ∀ b ∈ pre, sel b = none

/-- The text of an attribute, if it is of the given sort. -/
def Attr.theActions : Attr → Option Str | .actions s => some s | _ => none
def Attr.thePriority : Attr → Option Str | .priority s => some s | _ => none
def Attr.theTags : Attr → Option Str | .tags s => some s | _ => none
def Attr.thePrefilter : Attr → Option Str | .prefilter s => some s | _ => none
def Attr.theEnabled : Attr → Option Str | .enabled s => some s | _ => none

theorem firstOf_intro {sel : Attr → Option Str} {f : List Attr → Option Str} (h0 : f [] = none) (hs : ∀ a as s, sel a = some s → f (a :: as) = some s)
    (hn : ∀ a as, sel a = none → f (a :: as) = f as) (as : List Attr) : FirstOf sel as (f as) := by
  induction as with
  | nil => exact .inl ⟨h0, fun a ha => (by cases ha)⟩
  | cons a as ih =>
    cases hsel : sel a with
    | some s => exact .inr ⟨[], a, as, s, hs a as s hsel, rfl, hsel, fun b hb => (by cases hb)⟩
    | none =>
      rw [hn a as hsel]
      rcases ih with ⟨h1, h2⟩ | ⟨pre, b, post, s, h1, h2, h3, h4⟩
      · refine .inl ⟨h1, fun b hb => ?_⟩
        rcases List.mem_cons.1 hb with rfl | hb
        · exact hsel
        · exact h2 b hb
      · refine .inr ⟨a :: pre, b, post, s, h1, by rw [h2]; rfl, h3, fun c hc => ?_⟩
        rcases List.mem_cons.1 hc with rfl | hc
        · exact hsel
        · exact h4 c hc

/-- **C69** Of several attributes of the same sort a rule has the first; it has none if none is given. Name, description and condition are what is written. -/
theorem rule_attributes (name desc : Str) (cond : Expr) (as : List Attr) : ∃ r : RuleDecl, ruleDecl name desc cond as = .rule r ∧ r.name = name ∧ r.desc = desc ∧ r.cond = cond ∧
    FirstOf Attr.theActions as r.actions ∧ FirstOf Attr.theTags as r.tags ∧ FirstOf Attr.thePriority as r.severity ∧ FirstOf Attr.thePrefilter as r.prefilter ∧
    FirstOf Attr.theEnabled as r.enabled := by
  refine ⟨_, rfl, rfl, rfl, rfl, ?_, ?_, ?_, ?_, ?_⟩
  · refine firstOf_intro (f := firstActions) rfl ?_ ?_ as
    · intro a as s h; cases a <;> cases h <;> rfl
    · intro a as h; cases a <;> first | (cases h; done) | rfl
  · refine firstOf_intro (f := firstTags) rfl ?_ ?_ as
    · intro a as s h; cases a <;> cases h <;> rfl
    · intro a as h; cases a <;> first | (cases h; done) | rfl
  · refine firstOf_intro (f := firstPriority) rfl ?_ ?_ as
    · intro a as s h; cases a <;> cases h <;> rfl
    · intro a as h; cases a <;> first | (cases h; done) | rfl
  · refine firstOf_intro (f := firstPrefilter) rfl ?_ ?_ as
    · intro a as s h; cases a <;> cases h <;> rfl
    · intro a as h; cases a <;> first | (cases h; done) | rfl
  · refine firstOf_intro (f := firstEnabled) rfl ?_ ?_ as
    · intro a as s h; cases a <;> cases h <;> rfl
    · intro a as h; cases a <;> first | (cases h; done) | rfl

/-- The tokens of a text with a comment, a severity in mixed case and an operator. -/
example : (lex simpleStr "a >= 5 # x\npriority: HIGH".toList).map (fun t => (t.kind, String.ofList t.text)) =
    [(.ID, "a"), (.WS, " "), (.GE, ">="), (.WS, " "), (.ID, "5"), (.WS, " "), (.COMMENT, "# x"), (.WS, "\n"), (.PRIORITY, "priority"), (.DEF, ":"), (.WS, " "), (.SEVERITY, "HIGH")] := by
  decide +kernel

end Verif.Falco
