import Verif.Falco.Words
/-
Policy texts as sequences of words with blanks and comments between them.
Sources: /repo/core/policyengine/policy/falco/lang/Sfpl.g4 (lexer rules); compiler.go:80-86 (the parser's token stream),
compiler.go:179-184 (`getOffChannelText`: the text between two tokens, hidden tokens included).
-/
namespace Verif.Falco
open Verif.Decimal (Str)

/-- A token the parser sees, with the hidden text before it. -/
structure LTok where
  lead : Str
  tok : Token
deriving DecidableEq, Repr

/-- Attach hidden tokens to the next visible one. -/
def attach : Str → List Token → List LTok
  | _, [] => []
  | g, t :: ts => if t.hidden then attach (g ++ t.text) ts else ⟨g, t⟩ :: attach [] ts

/-- The parser's input for a text: the visible tokens, each with the hidden text before it. -/
def ltokens (str : Str → Option Nat) (s : Str) : List LTok := attach [] (lex str s)

theorem attach_toks (ts : List Token) : ∀ g, (attach g ts).map (·.tok) = ts.filter (fun t => !t.hidden) := by
  induction ts with
  | nil => intro g; rfl
  | cons t ts ih =>
    intro g
    rw [attach, List.filter_cons]
    cases h : t.hidden with
    | true => simp only [if_true, Bool.not_true, Bool.false_eq_true, if_false]; exact ih _
    | false => simp only [Bool.false_eq_true, if_false, Bool.not_false, if_true, List.map_cons, ih]

theorem ltokens_toks (str : Str → Option Nat) (s : Str) : (ltokens str s).map (·.tok) = tokens str s := attach_toks _ _

/-! ### Specification: what a layout of tokens is -/

/-- Blanks and whole comments (each up to and with the end of its line). -/
inductive Gap : Str → Prop where
  | nil : Gap []
  | blank (c : Char) (g : Str) : isBlank c = true → Gap g → Gap (c :: g)
  | comment (body : Str) (e : Char) (g : Str) : (∀ c ∈ body, isEol c = false) → isEol e = true → Gap g → Gap ('#' :: (body ++ e :: g))

/-- The reserved words that are spelled with letters. -/
def keywordTexts : List (Tok × Str) := fixedTexts.filter (fun x => (x.2.all wordChar) && x.1 != .DECL)

/-- `Fits t rest`: the token `t`, followed by `rest`, is of one of the classes of words, and `rest` does not run into it. -/
inductive Fits : Token → Str → Prop where
  | word (w rest : Str) : PlainWord w → ¬ Reserved w → Stops rest → Fits ⟨.ID, w⟩ rest
  | path (w rest : Str) : PlainPath w → Stops rest → Fits ⟨.PATH, w⟩ rest
  | quoted (w rest : Str) : PlainQuoted w → Fits ⟨.STRING, w⟩ rest
  | keyword (k : Tok) (w rest : Str) : (k, w) ∈ keywordTexts → Stops rest → Fits ⟨k, w⟩ rest
  | severity (w rest : Str) : IsSeverity w → Stops rest → Fits ⟨.SEVERITY, w⟩ rest
  | symbol (k : Tok) (w rest : Str) : (k, w) ∈ symbolTexts → Fits ⟨k, w⟩ rest
  | angle (k : Tok) (w rest : Str) : (k, w) ∈ angleTexts → rest.head? ≠ some '=' → Fits ⟨k, w⟩ rest
  | colon (rest : Str) : NoFold rest → Fits ⟨.DEF, [':']⟩ rest
  | fold (n : Nat) (rest : Str) : Fits ⟨.DEF, ':' :: (List.replicate n ' ' ++ ['>'])⟩ rest

/-- `Lay ts s`: the text `s` consists of the tokens `ts`, each after its lead, with blanks and comments between and after them. -/
inductive Lay : List LTok → Str → Prop where
  | done (g : Str) : Gap g → Lay [] g
  | doneComment (g body : Str) : Gap g → (∀ c ∈ body, isEol c = false) → Lay [] (g ++ '#' :: body)
  | tok (g : Str) (t : Token) (ts : List LTok) (rest : Str) : Gap g → Fits t rest → Lay ts rest → Lay (⟨g, t⟩ :: ts) (g ++ t.text ++ rest)

/-! ### The lexer recovers the tokens of a layout -/

theorem keyword_wordy {k : Tok} {w : Str} (h : (k, w) ∈ keywordTexts) : Wordy w ∧ (k, w) ∈ fixedTexts := by
  have hall : ∀ x ∈ keywordTexts, (match x.2 with | [] => false | c :: _ => idStart c) = true ∧ (∀ d ∈ x.2, wordChar d = true) := by decide +kernel
  obtain ⟨h1, h2⟩ := hall _ h
  refine ⟨?_, (List.mem_filter.mp h).1⟩
  cases w with
  | nil => cases h1
  | cons c cs => exact ⟨c, cs, rfl, .inl h1, h2⟩

theorem idChar_of_start {c : Char} (h : idStart c = true) : idChar c = true := by
  unfold idStart at h
  unfold idChar
  have hx : ∀ (a b : List (Char × Char)), inSet false a c = true → inSet false (a ++ b) c = true := by
    intro a b h
    unfold inSet at h ⊢
    rw [List.any_append]
    cases hh : (a.any fun r => decide (r.1.toNat ≤ c.toNat) && decide (c.toNat ≤ r.2.toNat)) with
    | true => rfl
    | false => rw [hh] at h; cases h
  have := hx (letters ++ digits ++ [('_', '_')]) [('-', '-'), ('.', '.'), ('*', '*')] h
  rw [List.append_assoc] at this
  exact this

theorem plain_wordy {w : Str} (h : PlainWord w) : Wordy w := by
  obtain ⟨c, cs, rfl, hc, hcs⟩ := h
  refine ⟨c, cs, rfl, .inl hc, ?_⟩
  intro d hd
  unfold wordChar
  rcases List.mem_cons.mp hd with rfl | hd
  · rw [idChar_of_start hc]; rfl
  · rw [hcs d hd]; rfl

/-- Membership in a list of ranges. -/
theorem inSet_mem (rs : List (Char × Char)) (c : Char) : inSet false rs c = true ↔ ∃ r ∈ rs, r.1.toNat ≤ c.toNat ∧ c.toNat ≤ r.2.toNat := by
  have h2 : ∀ b : Bool, (b != false) = b := by intro b; cases b <;> rfl
  unfold inSet
  rw [h2, List.any_eq_true]
  simp only [Bool.and_eq_true, decide_eq_true_eq]

theorem slash_of (c : Char) (h : ('/' : Char).toNat ≤ c.toNat ∧ c.toNat ≤ ('/' : Char).toNat) : c = '/' := by
  have : c.toNat = ('/' : Char).toNat := by omega
  exact Char.ext (UInt32.toNat_inj.mp this)

theorem wordChar_of_path {c : Char} (h : pathStart c = true ∨ pathChar c = true) : wordChar c = true := by
  unfold wordChar
  rw [Bool.or_eq_true]
  by_cases hs : c = '/'
  · exact .inr (decide_eq_true hs)
  · left
    unfold idChar
    rw [inSet_mem]
    have hr : ∃ r ∈ letters ++ digits ++ [('_', '_'), ('-', '-'), ('.', '.'), ('/', '/'), ('*', '*')], r.1.toNat ≤ c.toNat ∧ c.toNat ≤ r.2.toNat := by
      rcases h with h | h
      · unfold pathStart at h
        rw [inSet_mem] at h
        obtain ⟨r, hr, hx⟩ := h
        have hall : ∀ r ∈ letters ++ digits ++ [('/', '/'), ('.', '.')], r ∈ letters ++ digits ++ [('_', '_'), ('-', '-'), ('.', '.'), ('/', '/'), ('*', '*')] := by decide
        exact ⟨r, hall r hr, hx⟩
      · unfold pathChar at h
        exact (inSet_mem _ _).mp h
    obtain ⟨r, hr, hx⟩ := hr
    have hall : ∀ r ∈ letters ++ digits ++ [('_', '_'), ('-', '-'), ('.', '.'), ('/', '/'), ('*', '*')],
        r = ('/', '/') ∨ r ∈ letters ++ digits ++ [('_', '_'), ('-', '-'), ('.', '.'), ('*', '*')] := by decide
    rcases hall r hr with rfl | h'
    · exact absurd (slash_of c hx) hs
    · exact ⟨r, h', hx⟩

theorem path_wordy {w : Str} (h : PlainPath w) : Wordy w := by
  obtain ⟨⟨c, cs, rfl, hc, hcs⟩, _⟩ := h
  refine ⟨c, cs, rfl, .inr hc, ?_⟩
  intro d hd
  rcases List.mem_cons.mp hd with rfl | hd
  · exact wordChar_of_path (.inl hc)
  · exact wordChar_of_path (.inr (hcs d hd))

theorem severity_wordy {w : Str} (h : IsSeverity w) : Wordy w := by
  obtain ⟨v, hv, hl, hi⟩ := h
  have hall : ∀ v ∈ sfSeverities ++ fSeverities, v ≠ [] ∧ ∀ d ∈ v, (idStart d = true ∧ idStart d.toUpper = true) := by decide +kernel
  obtain ⟨h1, h2⟩ := hall v hv
  have hch : ∀ c ∈ w, idStart c = true := by
    intro c hc
    obtain ⟨i, hi', hg⟩ := List.getElem_of_mem hc
    have hiv : i < v.length := by omega
    have e1 : w[i]? = some c := by rw [List.getElem?_eq_getElem hi', hg]
    have e2 : v[i]? = some v[i] := List.getElem?_eq_getElem hiv
    obtain ⟨a, b⟩ := h2 v[i] (List.getElem_mem hiv)
    rcases hi i c v[i] e1 e2 with h | h
    · rw [h]; exact a
    · rw [h]; exact b
  cases w with
  | nil =>
    exfalso
    apply h1
    exact List.eq_nil_of_length_eq_zero hl.symm
  | cons c cs =>
    refine ⟨c, cs, rfl, .inl (hch c List.mem_cons_self), ?_⟩
    intro d hd
    unfold wordChar
    rw [idChar_of_start (hch d hd)]
    rfl

/-- A token that fits is the next token. -/
theorem fits_next {str : Str → Option Nat} (hs : StrRule str) {t : Token} {rest : Str} (h : Fits t rest) :
    nextTok str (t.text ++ rest) = some (t.kind, t.text.length) := by
  cases h with
  | word w _ h1 h2 h3 => exact whole_word hs (plain_wordy h1) (plain_word_is_id hs h1 h2) h3
  | path w _ h1 h3 => exact whole_word hs (path_wordy h1) (path_alone hs h1) h3
  | quoted w _ h1 => exact quoted_is_string hs h1 rest
  | keyword k w _ h1 h3 => exact whole_word hs (keyword_wordy h1).1 (reserved_alone hs (keyword_wordy h1).2) h3
  | severity w _ h1 h3 => exact whole_word hs (severity_wordy h1) (severity_alone hs h1) h3
  | symbol k w _ h1 => exact symbol_whole hs h1 rest
  | angle k w _ h1 h2 => exact angle_whole hs h1 h2
  | colon _ h => exact colon_whole hs (.inl ⟨rfl, h⟩)
  | fold n _ => exact colon_whole hs (.inr ⟨n, rfl⟩)

theorem fits_visible {t : Token} {rest : Str} (h : Fits t rest) : t.hidden = false ∧ t.text ≠ [] := by
  have hk : ∀ x ∈ fixedTexts, Token.hidden ⟨x.1, x.2⟩ = false ∧ x.2 ≠ [] := by decide +kernel
  have hsym : ∀ x ∈ symbolTexts ++ angleTexts, Token.hidden ⟨x.1, x.2⟩ = false ∧ x.2 ≠ [] := by decide +kernel
  cases h with
  | word w _ h1 _ _ => obtain ⟨c, cs, rfl, _⟩ := h1; exact ⟨rfl, by simp⟩
  | path w _ h1 _ => obtain ⟨⟨c, cs, rfl, _⟩, _⟩ := h1; exact ⟨rfl, by simp⟩
  | quoted w _ h1 => obtain ⟨q, b, rfl, _⟩ := h1; exact ⟨rfl, by simp⟩
  | keyword k w _ h1 _ => exact hk _ (keyword_wordy h1).2
  | severity w _ h1 _ => obtain ⟨c, cs, rfl, _⟩ := severity_wordy h1; exact ⟨rfl, by simp⟩
  | symbol k w _ h1 => exact hsym _ (List.mem_append_left _ h1)
  | angle k w _ h1 _ => exact hsym _ (List.mem_append_right _ h1)
  | colon => exact ⟨rfl, by simp⟩
  | fold => exact ⟨rfl, by simp⟩

/-- The lexer's equation for a text that starts with a token. -/
theorem lex_token {str : Str → Option Nat} (hs : StrRule str) {k : Tok} {w rest : Str} (hne : w ≠ []) (h : nextTok str (w ++ rest) = some (k, w.length)) :
    lex str (w ++ rest) = ⟨k, w⟩ :: lex str rest := by
  cases w with
  | nil => exact absurd rfl hne
  | cons c w =>
    rw [List.cons_append] at h ⊢
    rw [lex_cons hs c _ h]
    have e1 : (c :: (w ++ rest)).take (c :: w).length = c :: w := by rw [← List.cons_append]; exact List.take_left
    have e2 : (c :: (w ++ rest)).drop (c :: w).length = rest := by rw [← List.cons_append]; exact List.drop_left
    rw [e1, e2]

/-- Hidden tokens at the beginning of a text. -/
theorem attach_blank {str : Str → Option Nat} (hs : StrRule str) {c : Char} (hc : isBlank c = true) (s g : Str) :
    attach g (lex str (c :: s)) = attach (g ++ [c]) (lex str s) := by
  have hstep : ∀ (c : Char) (s g : Str), isBlank c = true →
      attach g (lex str (c :: s)) = attach (g ++ c :: s.takeWhile isBlank) (lex str (s.dropWhile isBlank)) := by
    intro c s g hc
    rw [lex_cons hs c s (blank_token hs hc s), attach]
    have : Token.hidden ⟨.WS, (c :: s).take (blanks s + 1)⟩ = true := rfl
    rw [if_pos this, List.take_succ_cons, List.drop_succ_cons]
    unfold blanks
    rw [takeWhile_take, drop_takeWhile]
  rw [hstep c s g hc]
  cases s with
  | nil => rfl
  | cons d s =>
    rw [List.takeWhile_cons, List.dropWhile_cons]
    split
    · next hd => rw [hstep d s (g ++ [c]) hd, List.append_assoc]; rfl
    · rfl

theorem takeWhile_stop {p : Char → Bool} {body : Str} {e : Char} {g : Str} (hb : ∀ c ∈ body, p c = true) (he : p e = false) :
    (body ++ e :: g).takeWhile p = body ∧ (body ++ e :: g).dropWhile p = e :: g := by
  induction body with
  | nil => rw [List.nil_append, List.takeWhile_cons, List.dropWhile_cons, he]; exact ⟨rfl, rfl⟩
  | cons c body ih =>
    have hc := hb c List.mem_cons_self
    obtain ⟨h1, h2⟩ := ih (fun d hd => hb d (List.mem_cons_of_mem _ hd))
    rw [List.cons_append, List.takeWhile_cons, List.dropWhile_cons, hc, if_pos rfl, if_pos rfl, h1, h2]
    exact ⟨rfl, rfl⟩

theorem attach_comment {str : Str → Option Nat} (hs : StrRule str) (s g : Str) :
    attach g (lex str ('#' :: s)) = attach (g ++ '#' :: s.takeWhile (fun c => !isEol c)) (lex str (s.dropWhile (fun c => !isEol c))) := by
  rw [lex_cons hs _ s (comment_token hs s), attach]
  have : ∀ w, Token.hidden ⟨.COMMENT, w⟩ = true := fun _ => rfl
  rw [if_pos (this _), List.take_succ_cons, List.drop_succ_cons, takeWhile_take, drop_takeWhile]

theorem eol_blank {c : Char} (h : isEol c = true) : isBlank c = true := by
  unfold isEol at h
  simp only [Bool.or_eq_true, decide_eq_true_eq] at h
  rcases h with rfl | rfl <;> rfl

theorem attach_gap {str : Str → Option Nat} (hs : StrRule str) {g : Str} (hg : Gap g) : ∀ (g0 s : Str),
    attach g0 (lex str (g ++ s)) = attach (g0 ++ g) (lex str s) := by
  induction hg with
  | nil => intro g0 s; rw [List.nil_append, List.append_nil]
  | blank c g hc _ ih =>
    intro g0 s
    rw [List.cons_append, attach_blank hs hc, ih, List.append_assoc]
    rfl
  | comment body e g hb he _ ih =>
    intro g0 s
    have e1 : '#' :: (body ++ e :: g) ++ s = '#' :: (body ++ e :: (g ++ s)) := by simp
    obtain ⟨h1, h2⟩ := takeWhile_stop (p := fun c => !isEol c) (g := g ++ s) (fun c hc => by rw [hb c hc]; rfl) (by rw [he]; rfl : (!isEol e) = false)
    rw [e1, attach_comment hs, h1, h2, attach_blank hs (eol_blank he), ih]
    simp

/-- **C68** The lexer recovers the tokens of a text from any layout: whatever blanks and comments are between them, and without
any where the tokens cannot run together. -/
theorem lay_tokens {str : Str → Option Nat} (hs : StrRule str) {ts : List LTok} {s : Str} (h : Lay ts s) : ltokens str s = ts := by
  unfold ltokens
  induction h with
  | done g hg =>
    have := attach_gap hs hg [] []
    rw [List.append_nil] at this
    rw [this]
    rfl
  | doneComment g body hg hb =>
    rw [attach_gap hs hg, attach_comment hs]
    have h2 : body.dropWhile (fun c => !isEol c) = [] := by
      clear hg
      induction body with
      | nil => rfl
      | cons c body ih =>
        rw [List.dropWhile_cons, hb c List.mem_cons_self]
        exact ih (fun d hd => hb d (List.mem_cons_of_mem _ hd))
    rw [h2]
    rfl
  | tok g t ts rest hg hf _ ih =>
    obtain ⟨hv, hne⟩ := fits_visible hf
    rw [List.append_assoc, attach_gap hs hg, lex_token hs hne (fits_next hs hf), attach]
    rw [if_neg (by rw [show (⟨t.kind, t.text⟩ : Token) = t from rfl, hv]; decide), ih]
    rfl

/-- **C68** The same for the tokens without their leads. -/
theorem lay_visible {str : Str → Option Nat} (hs : StrRule str) {ts : List LTok} {s : Str} (h : Lay ts s) : tokens str s = ts.map (·.tok) := by
  rw [← ltokens_toks, lay_tokens hs h]

/-! ### Example -/

/-- Words shorter than every severity that are in no table are not reserved. -/
theorem short_not_reserved {w : Str} (hl : w.length < 3) (hf : ∀ x ∈ fixedTexts, x.2 ≠ w) : ¬ Reserved w := by
  rintro (⟨k, h⟩ | ⟨v, hv, hlen, _⟩)
  · exact hf _ h rfl
  · have hall : ∀ v ∈ sfSeverities ++ fSeverities, 3 ≤ v.length := by decide +kernel
    have := hall v hv
    omega

/-- A layout with a comment, a blank, a severity and no blanks around the operator. -/
example : Lay [⟨"#x\n ".toList, ⟨.ID, "a".toList⟩⟩, ⟨[], ⟨.EQ, "=".toList⟩⟩, ⟨[], ⟨.SEVERITY, "Low".toList⟩⟩] "#x\n a=Low # no".toList := by
  have h3 : Lay [] " # no".toList := .doneComment " ".toList " no".toList (.blank ' ' _ rfl .nil) (by decide +kernel)
  have hsev : IsSeverity "Low".toList := by
    rw [← severity_M]
    have h : reSev.longest "Low".toList = some 3 := by decide +kernel
    apply Classical.byContradiction
    intro hn
    exact absurd (longest_lt hn h) (by decide)
  have h2 := Lay.tok [] ⟨.SEVERITY, "Low".toList⟩ _ _ .nil (.severity _ _ hsev (.inr (.inl ⟨' ', _, rfl, .inl rfl⟩))) h3
  have h1 := Lay.tok [] ⟨.EQ, "=".toList⟩ _ _ .nil (.symbol _ _ _ (by decide +kernel)) h2
  exact Lay.tok "#x\n ".toList ⟨.ID, "a".toList⟩ _ _ (.comment "x".toList '\n' _ (by decide +kernel) rfl (.blank ' ' _ rfl .nil))
    (.word _ _ ⟨'a', [], rfl, by decide +kernel, by decide +kernel⟩ (short_not_reserved (by decide) (by decide +kernel))
      (.inr (.inl ⟨'=', _, rfl, .inr (by decide)⟩))) h1

end Verif.Falco
