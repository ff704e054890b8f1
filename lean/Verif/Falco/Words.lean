import Verif.Falco.LexerProps
/-
Words and symbols without blanks between them: where tokens end when the next one follows immediately.
Sources: /repo/core/policyengine/policy/falco/lang/Sfpl.g4 (lexer rules), lang/parser/sfpl_lexer.go.
-/
namespace Verif.Falco
open Verif.Decimal (Str)

/-! ### Where a match can end -/

/-- If no longer beginning of the text matches, what follows `w` makes no difference. -/
theorem Re.longest_cut (r : Re) (w rest : Str) (h : ∀ m, w.length < m → m ≤ (w ++ rest).length → ¬ r.M ((w ++ rest).take m)) :
    r.longest (w ++ rest) = r.longest w := by
  have hcut : ∀ m, m ≤ (w ++ rest).length → r.M ((w ++ rest).take m) → m ≤ w.length ∧ r.M (w.take m) := by
    intro m hm hM
    have hle : m ≤ w.length := by
      refine Classical.byContradiction (fun hlt => ?_)
      exact h m (by omega) hm hM
    rw [List.take_append_of_le_length hle] at hM
    exact ⟨hle, hM⟩
  cases hl : r.longest w with
  | some n =>
    obtain ⟨h1, h2, h3⟩ := (Re.longest_some r w n).mp hl
    rw [Re.longest_some]
    refine ⟨by rw [List.length_append]; omega, by rw [List.take_append_of_le_length h1]; exact h2, ?_⟩
    intro m hm hM
    obtain ⟨a, b⟩ := hcut m hm hM
    exact h3 m a b
  | none =>
    cases hl2 : r.longest (w ++ rest) with
    | none => rfl
    | some m =>
      exfalso
      obtain ⟨h1, h2, _⟩ := (Re.longest_some r _ m).mp hl2
      obtain ⟨a, b⟩ := hcut m h1 h2
      obtain ⟨n, hn, _⟩ := Re.longest_exists r w a b
      rw [hl] at hn
      cases hn

/-- The symbols at which a word ends. -/
def stopSyms : List Char := ['#', '(', ')', ',', '=', '!', '<', '>', ']']

/-- What may follow a word immediately: the end, a blank, a comment, a symbol other than `[`, or a colon that is itself followed by the
end, a blank or a comment. -/
def Stops (rest : Str) : Prop :=
  rest = [] ∨ (∃ c r, rest = c :: r ∧ (isBlank c = true ∨ c ∈ stopSyms)) ∨ ∃ r, rest = ':' :: r ∧ Ends r

/-- The characters of words and paths. -/
def wordChar (c : Char) : Bool := idChar c || c = '/'

/-- A non-empty text of letters, digits, `_`, `-`, `.`, `*`, `/` that does not start with `-` or `*`. -/
def Wordy (w : Str) : Prop := ∃ c cs, w = c :: cs ∧ (idStart c = true ∨ pathStart c = true) ∧ ∀ d ∈ w, wordChar d = true

/-! Characters of words are none of the others. -/

theorem wordChar_not {c : Char} (h : wordChar c = true) : c ∉ ['[', ']', ':', '#', '(', ')', ',', '=', '!', '<', '>', '"', '\'', '\\'] ∧ isBlank c = false := by
  have hall : ∀ d ∈ ['[', ']', ':', '#', '(', ')', ',', '=', '!', '<', '>', '"', '\'', '\\'] ++ blankChars, wordChar d = false := by decide +kernel
  constructor
  · intro hc
    rw [hall c (List.mem_append_left _ hc)] at h
    cases h
  · cases hb : isBlank c with
    | false => rfl
    | true =>
      rw [hall c (List.mem_append_right _ ((isBlank_iff c).mp hb))] at h
      cases h

/-- `Bal u`: every closing bracket of `u` comes after an opening one. -/
def Bal (u : Str) : Prop := ∀ a b, u = a ++ ']' :: b → '[' ∈ a

theorem bal_nil : Bal [] := by
  intro a b h
  have := congrArg List.length h
  simp at this

theorem bal_none {u : Str} (h : ']' ∉ u) : Bal u := by
  rintro a b rfl
  exact absurd (by simp) h

theorem bal_append {u v : Str} (hu : Bal u) (hv : Bal v) : Bal (u ++ v) := by
  intro a b h
  rcases List.append_eq_append_iff.mp h with ⟨x, hx, hy⟩ | ⟨x, hx, hy⟩
  · subst hx
    have := hv _ _ hy
    exact List.mem_append_right _ this
  · cases x with
    | nil =>
      rw [List.nil_append] at hy
      have := hv [] b (by rw [List.nil_append]; exact hy.symm)
      cases this
    | cons y ys =>
      rw [List.cons_append] at hy
      simp only [List.cons.injEq] at hy
      rw [← hy.1] at hx
      exact hu a ys hx

/-- No word of the rules ends with a colon. -/
def NoColonEnd (u : Str) : Prop := ∀ a, u ≠ a ++ [':']

theorem noColonEnd_append {u v : Str} (hu : NoColonEnd u) (hv : NoColonEnd v) : NoColonEnd (u ++ v) := by
  intro a h
  rcases List.append_eq_append_iff.mp h with ⟨x, _, hy⟩ | ⟨x, hx, hy⟩
  · exact hv x hy
  · cases x with
    | nil =>
      rw [List.nil_append] at hy
      exact hv [] hy.symm
    | cons y ys =>
      rw [List.cons_append] at hy
      simp only [List.cons.injEq] at hy
      have : ys = [] ∧ v = [] := List.append_eq_nil_iff.mp hy.2.symm
      obtain ⟨rfl, _⟩ := this
      rw [← hy.1] at hx
      exact hu a hx

theorem noColonEnd_of_set {neg : Bool} {rs : List (Char × Char)} (h : inSet neg rs ':' = false) {u : Str} (hu : (Re.set neg rs).M u) : NoColonEnd u := by
  intro a ha
  have := Re.uses_sound hu (c := ':') h
  rw [ha] at this
  exact this (by simp)

theorem star_pred {P : Str → Prop} (h0 : P []) (happ : ∀ u v, P u → P v → P (u ++ v)) {r : Re} (hr : ∀ u, r.M u → P u) :
    ∀ {v : Str}, (Re.star r).M v → P v := by
  intro v hv
  generalize he : Re.star r = s at hv
  induction hv with
  | starNil => exact h0
  | starCons hu _ _ ih =>
    cases he
    exact happ _ _ (hr _ hu) (ih rfl)
  | _ => cases he

theorem index_shape {u : Str} (h : reIndex.M u) : Bal u ∧ NoColonEnd u ∧ u ≠ [] := by
  unfold reIndex at h
  rw [Re.seq_M] at h
  obtain ⟨u1, u2, rfl, h1, h2⟩ := h
  rw [Re.seq_M] at h2
  obtain ⟨u3, u4, rfl, h3, h4⟩ := h2
  rw [Re.seq_M] at h4
  obtain ⟨u5, u6, rfl, h5, h6⟩ := h4
  rw [Re.seq_M] at h6
  obtain ⟨u7, u8, rfl, h7, h8⟩ := h6
  have e3 : u3 = ['['] := by
    unfold Re.ch at h3
    cases h3 with
    | set hx => rw [inSet_one] at hx; rw [of_decide_eq_true hx]
  have e8 : u8 = [']'] := by
    unfold Re.ch at h8
    cases h8 with
    | set hx => rw [inSet_one] at hx; rw [of_decide_eq_true hx]
  subst e3 e8
  refine ⟨?_, ?_, by simp⟩
  · have n1 : ']' ∉ u1 := Re.uses_sound h1 (by decide +kernel)
    intro a b h
    rcases List.append_eq_append_iff.mp h with ⟨x, hx, hy⟩ | ⟨x, hx, hy⟩
    · subst hx
      cases x with
      | nil =>
        rw [List.nil_append, List.cons_append] at hy
        simp only [List.cons.injEq] at hy
        exact absurd hy.1 (by decide)
      | cons y ys =>
        rw [List.cons_append, List.cons_append] at hy
        simp only [List.cons.injEq] at hy
        rw [← hy.1]
        simp
    · cases x with
      | nil =>
        rw [List.nil_append] at hy
        rw [List.cons_append] at hy
        simp only [List.cons.injEq] at hy
        exact absurd hy.1.symm (by decide)
      | cons y ys =>
        rw [List.cons_append] at hy
        simp only [List.cons.injEq] at hy
        exfalso
        apply n1
        rw [hx, ← hy.1]
        simp
  · intro a h
    have e : u1 ++ (['['] ++ (u5 ++ (u7 ++ [']']))) = (u1 ++ (['['] ++ (u5 ++ u7))) ++ [']'] := by simp
    rw [e] at h
    have := (List.append_inj' h rfl).2
    exact absurd this (by decide)

/-- The texts of the rule `ID`. -/
theorem id_shape {u : Str} (h : reId.M u) : Bal u ∧ NoColonEnd u := by
  unfold reId at h
  rw [Re.seq_M] at h
  obtain ⟨u1, u2, rfl, h1, h2⟩ := h
  have b1 : Bal u1 := bal_none (Re.uses_sound h1 (by decide +kernel))
  have c1 : NoColonEnd u1 := noColonEnd_of_set (by decide +kernel) h1
  have b2 : Bal u2 ∧ NoColonEnd u2 := by
    refine star_pred (P := fun u => Bal u ∧ NoColonEnd u) ⟨bal_nil, fun a ha => ?_⟩ (fun u v hu hv => ⟨bal_append hu.1 hv.1, noColonEnd_append hu.2 hv.2⟩) ?_ h2
    · exact absurd (congrArg List.length ha) (by simp)
    · intro u hu
      rw [Re.alt_M] at hu
      rcases hu with hu | hu
      · exact ⟨bal_none (Re.uses_sound hu (by decide +kernel)), noColonEnd_of_set (by decide +kernel) hu⟩
      · exact ⟨(index_shape hu).1, (index_shape hu).2.1⟩
  exact ⟨bal_append b1 b2.1, noColonEnd_append c1 b2.2⟩

theorem tag_shape {u : Str} (h : reTag.M u) : Bal u ∧ NoColonEnd u := by
  unfold reTag at h
  rw [Re.seq_M] at h
  obtain ⟨u1, u2, rfl, h1, h2⟩ := h
  rw [Re.seq_M] at h2
  obtain ⟨u3, u4, rfl, h3, h4⟩ := h2
  obtain ⟨b1, _⟩ := id_shape h1
  obtain ⟨b4, c4⟩ := id_shape h4
  have n3 : ']' ∉ u3 := Re.uses_sound h3 (by decide +kernel)
  obtain ⟨c, cs, rfl, _⟩ := id_start_M h4
  refine ⟨bal_append b1 (bal_append (bal_none n3) b4), ?_⟩
  intro a ha
  have hl := congrArg List.getLast? ha
  rw [List.getLast?_append, List.getLast?_append] at hl
  have hne : (c :: cs).getLast? ≠ some ':' := by
    intro hx
    obtain ⟨ys, hys⟩ := List.getLast?_eq_some_iff.mp hx
    exact c4 ys hys
  cases hg : (c :: cs).getLast? with
  | none => simp at hg
  | some x =>
    rw [hg] at hl hne
    simp at hl
    rw [hl] at hne
    exact hne rfl

/-! ### Words followed immediately by something else -/

/-- How a longer beginning of `w ++ rest` looks. -/
theorem longer_take {w rest : Str} {m : Nat} (h : w.length < m) (hm : m ≤ (w ++ rest).length) :
    ∃ d v r, rest = d :: v ++ r ∧ (w ++ rest).take m = w ++ d :: v := by
  obtain ⟨j, hj⟩ : ∃ j, m = w.length + (j + 1) := ⟨m - w.length - 1, by omega⟩
  cases rest with
  | nil => simp at hm; omega
  | cons d v =>
    refine ⟨d, v.take j, v.drop j, by simp, ?_⟩
    rw [hj, List.take_append, List.take_of_length_le (Nat.le_add_right _ _)]
    simp

/-- The rules that can use none of the characters a word may be followed by. -/
theorem rules_stop : ∀ d ∈ ':' :: (stopSyms ++ blankChars), ∀ r ∈ [reSev, reSf, reF, reNumber, rePath], r.uses d = false := by decide +kernel

theorem id_stop : ∀ d ∈ '#' :: '(' :: ')' :: ',' :: '=' :: '!' :: '<' :: '>' :: blankChars, reId.uses d = false ∧ reTag.uses d = false := by decide +kernel

/-- The fixed texts that start with a character of a word use none of these. -/
theorem fixed_stop : ∀ x ∈ fixedTexts, ((match x.2 with | [] => true | c :: _ => !wordChar c || c = '-') ||
    (':' :: (stopSyms ++ blankChars)).all (fun d => !(x.2.contains d))) = true := by decide +kernel

theorem stops_head {rest : Str} (h : Stops rest) {d : Char} {v : Str} (hr : rest = d :: v) : d ∈ ':' :: (stopSyms ++ blankChars) := by
  subst hr
  rcases h with h | ⟨c, r, h, hc⟩ | ⟨r, h, _⟩
  · cases h
  · cases h
    rcases hc with hc | hc
    · exact List.mem_cons_of_mem _ (List.mem_append_right _ ((isBlank_iff _).mp hc))
    · exact List.mem_cons_of_mem _ (List.mem_append_left _ hc)
  · cases h; exact List.mem_cons_self

theorem id_tag_no_longer {r : Re} (hr : r = reId ∨ r = reTag) {w rest : Str} (hw : ∀ d ∈ w, wordChar d = true) (hs : Stops rest) {m : Nat}
    (hlt : w.length < m) (hm : m ≤ (w ++ rest).length) : ¬ r.M ((w ++ rest).take m) := by
  obtain ⟨d, v, rr, hrest, htake⟩ := longer_take hlt hm
  rw [htake]
  intro hM
  have hshape : Bal (w ++ d :: v) ∧ NoColonEnd (w ++ d :: v) := by
    rcases hr with rfl | rfl
    · exact id_shape hM
    · exact tag_shape hM
  have huse : ∀ e ∈ '#' :: '(' :: ')' :: ',' :: '=' :: '!' :: '<' :: '>' :: blankChars, e ∉ w ++ d :: v := by
    intro e he
    rcases hr with rfl | rfl
    · exact Re.uses_sound hM (id_stop e he).1
    · exact Re.uses_sound hM (id_stop e he).2
  rw [List.cons_append] at hrest
  subst hrest
  rcases hs with h | ⟨c, r', h, hc⟩ | ⟨r', h, hc⟩
  · cases h
  · cases h
    by_cases hb : d = ']'
    · subst hb
      have := hshape.1 w v rfl
      exact (wordChar_not (hw _ this)).1 (by simp)
    · refine huse d ?_ (by simp)
      rcases hc with hc | hc
      · have := (isBlank_iff _).mp hc
        simp only [List.mem_cons]
        simp only [this, or_true]
      · simp only [stopSyms, List.mem_cons, List.not_mem_nil, or_false] at hc
        simp only [List.mem_cons]
        rcases hc with h | h | h | h | h | h | h | h | h
        all_goals first | exact absurd h hb | simp only [h, true_or, or_true]
  · simp only [List.cons.injEq] at h
    obtain ⟨rfl, rfl⟩ := h
    cases v with
    | nil => exact hshape.2 w rfl
    | cons e v =>
      rw [List.cons_append] at hc
      rcases hc with h | ⟨c, r'', h, hc⟩
      · cases h
      · cases h
        refine huse e ?_ (by simp)
        rcases hc with hc | hc
        · have := (isBlank_iff _).mp hc
          simp only [List.mem_cons]
          simp only [this, or_true]
        · simp only [hc, List.mem_cons, true_or]

/-- What the rules match at a word does not depend on what follows it. -/
theorem word_matches {str : Str → Option Nat} (hs : StrRule str) {w : Str} (hw : Wordy w) {rest : Str} (hr : Stops rest) :
    matches' str (w ++ rest) = matches' str w := by
  obtain ⟨c, cs, rfl, hc, hall⟩ := hw
  obtain ⟨hc1, hc2⟩ := wordChar_not (hall c List.mem_cons_self)
  simp only [List.mem_cons, List.not_mem_nil, or_false, not_or] at hc1
  have hstr : ∀ s', str (c :: s') = none := by
    intro s'
    cases hx : str (c :: s') with
    | none => rfl
    | some n =>
      obtain ⟨_, _, d, s2, he, hq⟩ := hs.start _ _ hx
      cases he
      rcases hq with h | h | h <;> simp only [h, not_true_eq_false, and_false, false_and] at hc1
  have hA : ∀ r ∈ rulesA, r.2.longest (c :: cs ++ rest) = r.2.longest (c :: cs) := by
    intro r hr'
    unfold rulesA at hr'
    rcases List.mem_append.mp hr' with hr' | hr'
    · obtain ⟨y, hy, rfl⟩ := List.mem_map.mp hr'
      apply Re.longest_cut
      intro m hlt hm hM
      obtain ⟨d, v, rr, hrest, htake⟩ := longer_take hlt hm
      rw [htake] at hM
      have he : c :: cs ++ d :: v = y.2 := (lit_M _ _).mp hM
      have hd := stops_head hr (show rest = d :: (v ++ rr) by rw [hrest]; rfl)
      have hf := fixed_stop y hy
      rw [← he] at hf
      simp only [List.cons_append, Bool.or_eq_true] at hf
      rcases hf with hf | hf
      · rw [Bool.not_eq_true'] at hf
        rcases hf with hf | hf
        · rw [hall c List.mem_cons_self] at hf; cases hf
        · have : c = '-' := of_decide_eq_true hf
          subst this
          rcases hc with hc | hc <;> exact absurd hc (by decide +kernel)
      · have := List.all_eq_true.mp hf d hd
        rw [Bool.not_eq_true'] at this
        have hin : d ∈ c :: (cs ++ d :: v) := by simp
        rw [← List.contains_iff_mem] at hin
        rw [hin] at this
        cases this
    · have hmem : r.2 = reDef ∨ r.2 ∈ [reSev, reSf, reF, reNumber, rePath] ∨ r.2 = reId := by
        simp only [List.mem_cons, List.not_mem_nil, or_false] at hr' ⊢
        rcases hr' with rfl | rfl | rfl | rfl | rfl | rfl | rfl
        · exact .inl rfl
        · exact .inr (.inl (.inl rfl))
        · exact .inr (.inl (.inr (.inl rfl)))
        · exact .inr (.inl (.inr (.inr (.inl rfl))))
        · exact .inr (.inr rfl)
        · exact .inr (.inl (.inr (.inr (.inr (.inl rfl)))))
        · exact .inr (.inl (.inr (.inr (.inr (.inr rfl)))))
      rcases hmem with h | h | h
      · rw [h, List.cons_append, def_first hc1.2.2.1, def_first hc1.2.2.1]
      · apply Re.longest_cut
        intro m hlt hm hM
        obtain ⟨d, v, rr, hrest, htake⟩ := longer_take hlt hm
        rw [htake] at hM
        have hd := stops_head hr (show rest = d :: (v ++ rr) by rw [hrest]; rfl)
        exact Re.uses_sound hM (rules_stop d hd _ h) (by simp)
      · rw [h]
        apply Re.longest_cut
        intro m hlt hm
        exact id_tag_no_longer (.inl rfl) hall hr hlt hm
  have hT : reTag.longest (c :: cs ++ rest) = reTag.longest (c :: cs) := by
    apply Re.longest_cut
    intro m hlt hm
    exact id_tag_no_longer (.inr rfl) hall hr hlt hm
  unfold matches'
  congr 1
  · exact List.map_congr_left (fun r hr' => by rw [hA r hr'])
  · simp only [rulesB, List.map_cons, List.map_nil]
    rw [hT]
    simp only [List.cons_append]
    have hh : c ≠ '#' := hc1.2.2.2.1
    rw [hstr, hstr, ws_first hc2, ws_first hc2, nl_first hc2, nl_first hc2, comment_first hh, comment_first hh, any_matches, any_matches]

/-- A word that is a token when it stands alone is that token wherever it stops. -/
theorem whole_word {str : Str → Option Nat} (hs : StrRule str) {k : Tok} {w : Str} (hw : Wordy w) (h : Alone str k w) {rest : Str}
    (hr : Stops rest) : nextTok str (w ++ rest) = some (k, w.length) := by
  unfold nextTok
  rw [word_matches hs hw hr]
  have := h.2 [] (.inl rfl)
  rw [List.append_nil] at this
  exact this

/-! ### Symbols -/

/-- The symbols that are one token whatever follows. -/
def symbolTexts : List (Tok × Str) :=
  [(.LE, "<=".toList), (.GE, ">=".toList), (.EQ, "=".toList), (.NEQ, "!=".toList), (.LBRACK, "[".toList), (.RBRACK, "]".toList),
    (.LPAREN, "(".toList), (.RPAREN, ")".toList), (.LISTSEP, ",".toList), (.DECL, "-".toList)]

/-- Nothing but the fixed texts (and the rule for single characters) starts with these. -/
theorem symbol_start : ∀ c ∈ ['<', '>', '=', '!', '[', ']', '(', ')', ',', '-'],
    (∀ r ∈ [reDef, reSev, reSf, reF, reId, reNumber, rePath, reTag, reWs, reNl, reComment], r.deriv c = .none) ∧ c ≠ '"' ∧ c ≠ '\'' ∧ c ≠ '\\' := by
  decide +kernel

theorem lit_longest {t s : Str} {m : Nat} (h : (Re.lit t).longest s = some m) : m = t.length ∧ ∃ r, s = t ++ r := by
  obtain ⟨h1, h2, _⟩ := (Re.longest_some _ _ _).mp h
  have := (lit_M _ _).mp h2
  refine ⟨?_, s.drop m, ?_⟩
  · rw [← this, List.length_take]; omega
  · rw [← this, List.take_append_drop]

theorem longest_lit (t r : Str) : (Re.lit t).longest (t ++ r) = some t.length := by
  rw [Re.longest_some]
  refine ⟨by simp, by rw [List.take_left]; exact (lit_M _ _).mpr rfl, ?_⟩
  intro m hm hM
  have := (lit_M _ _).mp hM
  have := congrArg List.length this
  rw [List.length_take] at this
  omega

/-- A symbol is read as itself if no longer fixed text is there. -/
theorem symbol_token {str : Str → Option Nat} (hs : StrRule str) {c : Char} {cs : Str} {k : Tok} (hc : c ∈ ['<', '>', '=', '!', '[', ']', '(', ')', ',', '-'])
    {pre post : List (Tok × Str)} (hsplit : fixedTexts = pre ++ (k, c :: cs) :: post) (rest : Str)
    (hlong : ∀ x ∈ pre ++ post, ∀ r, c :: cs ++ rest = x.2 ++ r → x.2.length < (c :: cs).length) :
    nextTok str (c :: cs ++ rest) = some (k, (c :: cs).length) := by
  obtain ⟨h1, hq1, hq2, hq3⟩ := symbol_start c hc
  have hnull : ∀ r ∈ [reDef, reSev, reSf, reF, reId, reNumber, rePath, reTag, reWs, reNl, reComment], r.nullable = false := by decide +kernel
  have hdead : ∀ r ∈ [reDef, reSev, reSf, reF, reId, reNumber, rePath, reTag, reWs, reNl, reComment], ∀ s, r.longest (c :: s) = none :=
    fun r hr s => longest_first (h1 r hr) (hnull r hr) s
  have hrules : rulesA = pre.map (fun x => (x.1, Re.lit x.2)) ++ (k, Re.lit (c :: cs)) :: (post.map (fun x => (x.1, Re.lit x.2)) ++
      [(.DEF, reDef), (.SEVERITY, reSev), (.SFSEVERITY, reSf), (.FSEVERITY, reF), (.ID, reId), (.NUMBER, reNumber), (.PATH, rePath)]) := by
    unfold rulesA
    rw [hsplit]
    simp
  refine nextTok_A hrules (longest_lit _ _) ?_ ?_ ?_ ?_
  · intro x hx m hm
    obtain ⟨y, hy, rfl⟩ := List.mem_map.mp hx
    obtain ⟨rfl, r, hr⟩ := lit_longest hm
    exact hlong y (List.mem_append_left _ hy) r hr
  · intro x hx m hm
    rcases List.mem_append.mp hx with hx | hx
    · obtain ⟨y, hy, rfl⟩ := List.mem_map.mp hx
      obtain ⟨rfl, r, hr⟩ := lit_longest hm
      exact Nat.le_of_lt (hlong y (List.mem_append_right _ hy) r hr)
    · have : x.2 ∈ [reDef, reSev, reSf, reF, reId, reNumber, rePath, reTag, reWs, reNl, reComment] := by
        simp only [List.mem_cons, List.not_mem_nil, or_false] at hx ⊢
        rcases hx with rfl | rfl | rfl | rfl | rfl | rfl | rfl <;> simp only [true_or, or_true]
      rw [List.cons_append, hdead _ this] at hm
      cases hm
  · intro m hm
    obtain ⟨_, _, d, s2, he, hq⟩ := hs.start _ _ hm
    cases he
    rcases hq with h | h | h
    · exact absurd h hq1
    · exact absurd h hq2
    · exact absurd h hq3
  · intro x hx m hm
    by_cases hany : x.2 = reAny
    · rw [hany, List.cons_append, any_matches] at hm
      cases hm
      simp
    · have : x.2 ∈ [reDef, reSev, reSf, reF, reId, reNumber, rePath, reTag, reWs, reNl, reComment] := by
        simp only [rulesB, List.mem_cons, List.not_mem_nil, or_false] at hx ⊢
        rcases hx with rfl | rfl | rfl | rfl | rfl
        · simp only [true_or, or_true]
        · simp only [true_or, or_true]
        · simp only [true_or, or_true]
        · simp only [or_true]
        · exact absurd rfl hany
      rw [List.cons_append, hdead _ this] at hm
      cases hm

/-- Where `x` stands in the table, and how the other entries with the same first character compare. -/
theorem symbol_table : ∀ x ∈ symbolTexts, ∃ i, fixedTexts[i]? = some x ∧ i < fixedTexts.length ∧
    (∀ y ∈ fixedTexts.take i ++ fixedTexts.drop (i + 1), y.2.head? = x.2.head? → y.2.length < x.2.length) ∧ 
    (∀ y ∈ fixedTexts, y.2 ≠ []) ∧ x.2 ≠ [] ∧
    ∀ c ∈ x.2.head?, c ∈ ['<', '>', '=', '!', '[', ']', '(', ')', ',', '-'] := by
  intro x hx
  have : ∀ x ∈ symbolTexts, ∃ i < fixedTexts.length, fixedTexts[i]? = some x ∧ 
    (∀ y ∈ fixedTexts.take i ++ fixedTexts.drop (i + 1), y.2.head? = x.2.head? → y.2.length < x.2.length) ∧ 
    (∀ y ∈ fixedTexts, y.2 ≠ []) ∧ x.2 ≠ [] ∧
    ∀ c ∈ x.2.head?, c ∈ ['<', '>', '=', '!', '[', ']', '(', ')', ',', '-'] := by decide +kernel
  obtain ⟨i, h1, h2, h3⟩ := this x hx
  exact ⟨i, h2, h1, h3⟩

/-- **C68** A symbol is one token, whatever follows it. -/
theorem symbol_whole {str : Str → Option Nat} (hs : StrRule str) {k : Tok} {w : Str} (h : (k, w) ∈ symbolTexts) (rest : Str) :
    nextTok str (w ++ rest) = some (k, w.length) := by
  obtain ⟨i, h1, hlt, h2, h3, h4, h5⟩ := symbol_table _ h
  cases w with
  | nil => exact absurd rfl h4
  | cons c cs =>
    have hsplit : fixedTexts = fixedTexts.take i ++ (k, c :: cs) :: fixedTexts.drop (i + 1) := by
      have hg : fixedTexts[i] = (k, c :: cs) := by
        rw [List.getElem?_eq_getElem hlt] at h1
        exact Option.some.inj h1
      rw [← hg, List.getElem_cons_drop, List.take_append_drop]
    refine symbol_token hs (h5 c rfl) hsplit rest ?_
    intro x hx r hr
    have hxm : x ∈ fixedTexts := by
      rw [hsplit]
      rcases List.mem_append.mp hx with h | h
      · exact List.mem_append_left _ h
      · exact List.mem_append_right _ (List.mem_cons_of_mem _ h)
    refine h2 x hx ?_
    have hne := h3 x hxm
    cases hx2 : x.2 with
    | nil => exact absurd hx2 hne
    | cons d ds =>
      rw [hx2] at hr
      simp only [List.cons_append, List.cons.injEq] at hr
      rw [hr.1]
      rfl

/-- The symbols that a following `=` would extend. -/
def angleTexts : List (Tok × Str) := [(.LT, "<".toList), (.GT, ">".toList)]

theorem angle_table : ∀ x ∈ angleTexts, ∃ i, fixedTexts[i]? = some x ∧ i < fixedTexts.length ∧
    (∀ y ∈ fixedTexts.take i ++ fixedTexts.drop (i + 1), y.2.head? = x.2.head? → y.2 = x.2 ++ ['=']) ∧ 
    (∀ y ∈ fixedTexts, y.2 ≠ []) ∧ x.2.length = 1 ∧
    ∀ c ∈ x.2.head?, c ∈ ['<', '>', '=', '!', '[', ']', '(', ')', ',', '-'] := by
  intro x hx
  have : ∀ x ∈ angleTexts, ∃ i < fixedTexts.length, fixedTexts[i]? = some x ∧ 
    (∀ y ∈ fixedTexts.take i ++ fixedTexts.drop (i + 1), y.2.head? = x.2.head? → y.2 = x.2 ++ ['=']) ∧ 
    (∀ y ∈ fixedTexts, y.2 ≠ []) ∧ x.2.length = 1 ∧
    ∀ c ∈ x.2.head?, c ∈ ['<', '>', '=', '!', '[', ']', '(', ')', ',', '-'] := by decide +kernel
  obtain ⟨i, h1, h2, h3⟩ := this x hx
  exact ⟨i, h2, h1, h3⟩

/-- **C68** `<` and `>` are tokens of their own unless `=` follows immediately. -/
theorem angle_whole {str : Str → Option Nat} (hs : StrRule str) {k : Tok} {w : Str} (h : (k, w) ∈ angleTexts) {rest : Str}
    (hr : rest.head? ≠ some '=') : nextTok str (w ++ rest) = some (k, w.length) := by
  obtain ⟨i, h1, hlt, h2, h3, h4, h5⟩ := angle_table _ h
  cases w with
  | nil => cases h4
  | cons c cs =>
    have hcs : cs = [] := List.eq_nil_of_length_eq_zero (by simpa using h4)
    subst hcs
    have hsplit : fixedTexts = fixedTexts.take i ++ (k, [c]) :: fixedTexts.drop (i + 1) := by
      have hg : fixedTexts[i] = (k, [c]) := by
        rw [List.getElem?_eq_getElem hlt] at h1
        exact Option.some.inj h1
      rw [← hg, List.getElem_cons_drop, List.take_append_drop]
    refine symbol_token hs (h5 c rfl) hsplit rest ?_
    intro x hx r hr'
    exfalso
    have hxm : x ∈ fixedTexts := by
      rw [hsplit]
      rcases List.mem_append.mp hx with h | h
      · exact List.mem_append_left _ h
      · exact List.mem_append_right _ (List.mem_cons_of_mem _ h)
    have hne := h3 x hxm
    have hhead : x.2.head? = ([c] : Str).head? := by
      cases hx2 : x.2 with
      | nil => exact absurd hx2 hne
      | cons d ds =>
        rw [hx2] at hr'
        simp only [List.cons_append, List.cons.injEq] at hr'
        rw [hr'.1]
        rfl
    have := h2 x hx hhead
    rw [this] at hr'
    simp only [List.cons_append, List.nil_append, List.cons.injEq, true_and] at hr'
    rw [hr'] at hr
    exact hr rfl

/-! ### Colons -/

theorem colon_start : (∀ r ∈ rulesA, r.2 = reDef ∨ r.2.deriv ':' = .none) ∧
    (∀ r ∈ [reTag, reWs, reNl, reComment], r.deriv ':' = .none) := by decide +kernel

/-- The texts of the rule `DEF`. -/
theorem def_M (w : Str) : reDef.M w ↔ w = [':'] ∨ ∃ n, w = ':' :: (List.replicate n ' ' ++ ['>']) := by
  have hch : ∀ x u, (Re.ch x).M u ↔ u = [x] := by
    intro x u
    constructor
    · intro h
      unfold Re.ch at h
      cases h with
      | set hx => rw [inSet_one] at hx; rw [of_decide_eq_true hx]
    · rintro rfl
      exact .set (by rw [inSet_one]; simp)
  unfold reDef Re.opt
  rw [Re.seq_M]
  constructor
  · rintro ⟨u, v, rfl, hu, hv⟩
    rw [(hch _ _).mp hu]
    rw [Re.alt_M] at hv
    have hv' : v = [] ∨ (Re.seq (Re.star (Re.ch ' ')) (Re.ch '>')).M v := by
      rcases hv with h | h
      all_goals first | (cases h; exact .inl rfl) | exact .inr h
    rcases hv' with rfl | h
    · exact .inl rfl
    · rw [Re.seq_M] at h
      obtain ⟨a, b, rfl, ha, hb⟩ := h
      rw [(hch _ _).mp hb]
      right
      refine ⟨a.length, ?_⟩
      have : a = List.replicate a.length ' ' := by
        apply List.eq_replicate_of_mem
        intro d hd
        unfold Re.ch at ha
        have := star_set_all ha d hd
        rw [inSet_one] at this
        exact of_decide_eq_true this
      rw [← this]
      rfl
  · rintro (rfl | ⟨n, rfl⟩)
    · exact ⟨[':'], [], rfl, (hch _ _).mpr rfl, by rw [Re.alt_M]; first | exact .inl .eps | exact .inr .eps⟩
    · refine ⟨[':'], _, rfl, (hch _ _).mpr rfl, ?_⟩
      rw [Re.alt_M]
      have hb : (Re.seq (Re.star (Re.ch ' ')) (Re.ch '>')).M (List.replicate n ' ' ++ ['>']) := by
        refine .seq (star_set ?_) ((hch _ _).mpr rfl)
        intro d hd
        rw [inSet_one, (List.mem_replicate.mp hd).2]
        rfl
      first | exact .inl hb | exact .inr hb

/-- What follows a colon that is not the mark of a folded text. -/
def NoFold (rest : Str) : Prop := ∀ n r, rest ≠ List.replicate n ' ' ++ '>' :: r

/-- **C68** A colon is one token, alone or with the blanks and `>` that follow it. -/
theorem colon_whole {str : Str → Option Nat} (hs : StrRule str) {w rest : Str}
    (hw : (w = [':'] ∧ NoFold rest) ∨ ∃ n, w = ':' :: (List.replicate n ' ' ++ ['>'])) : nextTok str (w ++ rest) = some (.DEF, w.length) := by
  obtain ⟨hA, hB⟩ := colon_start
  have hM : reDef.M w := by
    rw [def_M]
    rcases hw with ⟨h, _⟩ | h
    · exact .inl h
    · exact .inr h
  obtain ⟨ws, rfl⟩ : ∃ ws, w = ':' :: ws := by
    rcases hw with ⟨h, _⟩ | ⟨n, h⟩
    · exact ⟨_, h⟩
    · exact ⟨_, h⟩
  have hlong : reDef.longest (':' :: ws ++ rest) = some (':' :: ws).length := by
    rw [Re.longest_some]
    refine ⟨by simp, by rw [List.take_left]; exact hM, ?_⟩
    intro m hm hM'
    refine Classical.byContradiction (fun hgt => ?_)
    obtain ⟨d, v, rr, hrest, htake⟩ := longer_take (by omega) hm
    rw [htake, def_M] at hM'
    rcases hw with ⟨he, hnf⟩ | ⟨n, he⟩
    · simp only [List.cons.injEq, true_and] at he
      subst he
      rcases hM' with h | ⟨n, h⟩
      · simp at h
      · simp only [List.cons_append, List.nil_append, List.cons.injEq, true_and] at h
        refine hnf n rr ?_
        rw [hrest, h]
        simp
    · simp only [List.cons.injEq, true_and] at he
      rcases hM' with h | ⟨n', h⟩
      · have := congrArg List.length h
        simp at this
      · rw [he] at h
        simp only [List.cons_append, List.cons.injEq, true_and, List.append_assoc, List.nil_append] at h
        -- `replicate n ' ' ++ '>' :: d :: v = replicate n' ' ' ++ ['>']`
        have hidx : (List.replicate n' ' ' ++ ['>'])[n]? = some '>' := by rw [← h]; simp
        have hl := congrArg List.length h
        simp only [List.length_append, List.length_replicate, List.length_cons, List.length_nil] at hl
        rw [List.getElem?_append_left (by rw [List.length_replicate]; omega), List.getElem?_replicate, if_pos (by omega)] at hidx
        cases hidx
  refine nextTok_A (pre := fixedTexts.map (fun x => (x.1, Re.lit x.2)))
    (post := [(.SEVERITY, reSev), (.SFSEVERITY, reSf), (.FSEVERITY, reF), (.ID, reId), (.NUMBER, reNumber), (.PATH, rePath)]) rfl hlong ?_ ?_ ?_ ?_
  · intro x hx m hm
    obtain ⟨y, hy, rfl⟩ := List.mem_map.mp hx
    obtain ⟨_, r, hr⟩ := lit_longest hm
    exfalso
    have hall : ∀ y ∈ fixedTexts, y.2 ≠ [] ∧ y.2.head? ≠ some ':' := by decide +kernel
    obtain ⟨g1, g2⟩ := hall y hy
    cases hy2 : y.2 with
    | nil => exact g1 hy2
    | cons e es =>
      rw [hy2] at hr g2
      simp only [List.cons_append, List.cons.injEq] at hr
      rw [← hr.1] at g2
      exact g2 rfl
  · intro x hx m hm
    have hxA : x ∈ rulesA := by
      unfold rulesA
      exact List.mem_append_right _ (List.mem_cons_of_mem _ hx)
    rcases hA x hxA with h | h
    · exfalso
      have hall : ∀ x ∈ ([(.SEVERITY, reSev), (.SFSEVERITY, reSf), (.FSEVERITY, reF), (.ID, reId), (.NUMBER, reNumber), (.PATH, rePath)] : List (Tok × Re)),
          x.2.deriv ':' = .none := by decide +kernel
      have hx' := hall x hx
      rw [List.cons_append, longest_first hx' (no_rule_nullable.1 x hxA)] at hm
      cases hm
    · rw [List.cons_append, longest_first h (no_rule_nullable.1 x hxA)] at hm
      cases hm
  · intro m hm
    obtain ⟨_, _, d, s2, he, hq⟩ := hs.start _ _ hm
    cases he
    rcases hq with h | h | h <;> exact absurd h (by decide)
  · intro x hx m hm
    simp only [rulesB, List.mem_cons, List.not_mem_nil, or_false] at hx
    rw [List.cons_append] at hm
    rcases hx with rfl | rfl | rfl | rfl | rfl
    · rw [longest_first (hB reTag (by simp)) rfl] at hm; cases hm
    · rw [longest_first (hB reWs (by simp)) rfl] at hm; cases hm
    · rw [longest_first (hB reNl (by simp)) rfl] at hm; cases hm
    · rw [longest_first (hB reComment (by simp)) rfl] at hm; cases hm
    · rw [any_matches] at hm
      cases hm
      simp

end Verif.Falco
