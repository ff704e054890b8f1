import Verif.Falco.Policy
import Verif.Falco.ParserProps
/-
The policy parser accepts exactly the grammar; policies have one reading.
-/
namespace Verif.Falco
open Verif.Decimal (Str)

/-! ### Tokens of the lexer -/

/-- The fixed token types have their fixed texts. -/
def Coherent (t : Token) : Prop := ∀ x ∈ fixedTexts, t.kind = x.1 → t.text = x.2

theorem next_coherent {str : Str → Option Nat} {s : Str} {k : Tok} {n : Nat} (h : nextTok str s = some (k, n)) :
    Coherent ⟨k, s.take n⟩ := by
  intro x hx hk
  change k = x.1 at hk
  subst hk
  obtain ⟨hm, _⟩ := longest_rule_wins h
  unfold Matches matches' at hm
  have hkinds : ∀ x ∈ fixedTexts, (∀ y ∈ fixedTexts, y.1 = x.1 → y.2 = x.2) ∧ (∀ r ∈ rulesA.drop fixedTexts.length ++ rulesB, r.1 ≠ x.1) ∧ x.1 ≠ .STRING := by
    decide +kernel
  obtain ⟨h1, h2, h3⟩ := hkinds x hx
  have hrules : rulesA = fixedTexts.map (fun x => (x.1, Re.lit x.2)) ++ rulesA.drop fixedTexts.length := by decide +kernel
  rcases List.mem_append.mp hm with hm | hm
  · obtain ⟨r, hr, he⟩ := List.mem_map.mp hm
    simp only [Prod.mk.injEq] at he
    rw [hrules] at hr
    rcases List.mem_append.mp hr with hr | hr
    · obtain ⟨y, hy, rfl⟩ := List.mem_map.mp hr
      have e2 := h1 y hy he.1
      obtain ⟨_, hM, _⟩ := (Re.longest_some _ _ _).mp he.2
      have := (lit_M _ _).mp hM
      rw [e2] at this
      exact this
    · exact absurd he.1 (h2 r (List.mem_append_left _ hr))
  · rcases List.mem_cons.mp hm with hm | hm
    · simp only [Prod.mk.injEq] at hm
      exact absurd hm.1 h3
    · obtain ⟨r, hr, he⟩ := List.mem_map.mp hm
      simp only [Prod.mk.injEq] at he
      exact absurd he.1 (h2 r (List.mem_append_right _ hr))

/-- The lexer's tokens are coherent. -/
theorem lex_coherent {str : Str → Option Nat} (hs : StrRule str) (s : Str) : ∀ t ∈ lex str s, Coherent t := by
  refine lex_induct hs (P := fun s => ∀ t ∈ lex str s, Coherent t) ?_ ?_ s
  · intro t ht; cases ht
  · intro c s k l hk _ _ ih t ht
    rw [lex_cons hs c s hk] at ht
    rcases List.mem_cons.mp ht with rfl | ht
    · exact next_coherent hk
    · exact ih t ht

def Coh (ts : List LTok) : Prop := ∀ t ∈ ts, Coherent t.tok

theorem attach_coherent : ∀ (ts : List Token) (g : Str), (∀ t ∈ ts, Coherent t) → Coh (attach g ts) := by
  intro ts
  induction ts with
  | nil => intro g _ t ht; cases ht
  | cons t ts ih =>
    intro g h
    rw [attach]
    split
    · exact ih _ (fun x hx => h x (List.mem_cons_of_mem _ hx))
    · intro x hx
      rcases List.mem_cons.mp hx with rfl | hx
      · exact h t List.mem_cons_self
      · exact ih [] (fun x hx => h x (List.mem_cons_of_mem _ hx)) x hx

theorem ltokens_coherent {str : Str → Option Nat} (hs : StrRule str) (s : Str) : Coh (ltokens str s) := attach_coherent _ _ (lex_coherent hs s)

theorem Coh.left {u v : List LTok} (h : Coh (u ++ v)) : Coh u := fun t ht => h t (List.mem_append_left _ ht)
theorem Coh.right {u v : List LTok} (h : Coh (u ++ v)) : Coh v := fun t ht => h t (List.mem_append_right _ ht)
theorem Coh.head {t : LTok} {v : List LTok} (h : Coh (t :: v)) : Coherent t.tok := h t List.mem_cons_self
theorem Coh.tail {t : LTok} {v : List LTok} (h : Coh (t :: v)) : Coh v := fun x hx => h x (List.mem_cons_of_mem _ hx)

/-- The token types whose texts end a text. -/
def stopKinds : List Tok := [.DESC, .COND, .ACTIONS, .OUTPUT, .PRIORITY, .TAGS, .PREFILTER, .ENABLED, .WARNEVTTYPE, .SKIPUNKNOWN, .FAPPEND]

theorem stop_kind {t : LTok} (hc : Coherent t.tok) (h : t.tok.kind ∈ stopKinds) : isTextTok t = false := by
  have hall : ∀ k ∈ stopKinds, ∃ w ∈ textStops, (k, w) ∈ fixedTexts := by decide +kernel
  obtain ⟨w, hw, hf⟩ := hall _ h
  have := hc _ hf rfl
  unfold isTextTok
  rw [this, List.contains_iff_mem.mpr hw]
  rfl

theorem decl_text {t : LTok} (hc : Coherent t.tok) (h : t.tok.kind = .DECL) : isTextTok t = true := by
  have := hc (.DECL, "-".toList) (by decide +kernel) h
  unfold isTextTok
  rw [this]
  decide +kernel

/-! ### Pieces -/

theorem expect_some {k : Tok} {ts rest : List LTok} : expect k ts = some rest ↔ ∃ t, ts = t :: rest ∧ t.tok.kind = k := by
  cases ts with
  | nil =>
    constructor
    · intro h; cases h
    · rintro ⟨t, h, _⟩; cases h
  | cons t r =>
    rw [expect]
    constructor
    · intro h
      split at h
      · next hk => cases h; exact ⟨t, rfl, hk⟩
      · cases h
    · rintro ⟨t', h, hk⟩
      cases h
      rw [if_pos hk]

theorem pTok_some {k : Tok} {ts rest : List LTok} {x : Str} : pTok k ts = some (x, rest) ↔ ∃ t, ts = t :: rest ∧ t.tok.kind = k ∧ t.tok.text = x := by
  cases ts with
  | nil =>
    constructor
    · intro h; cases h
    · rintro ⟨t, h, _⟩; cases h
  | cons t r =>
    rw [pTok]
    constructor
    · intro h
      split at h
      · next hk => cases h; exact ⟨t, rfl, hk, rfl⟩
      · cases h
    · rintro ⟨t', h, hk, rfl⟩
      cases h
      rw [if_pos hk]

theorem pAtomL_some {ts rest : List LTok} {x : Str} : pAtomL ts = some (x, rest) ↔ ∃ t, ts = t :: rest ∧ isAtom t.tok.kind = true ∧ t.tok.text = x := by
  cases ts with
  | nil =>
    constructor
    · intro h; cases h
    · rintro ⟨t, h, _⟩; cases h
  | cons t r =>
    rw [pAtomL]
    constructor
    · intro h
      split at h
      · next hk => cases h; exact ⟨t, rfl, hk, rfl⟩
      · cases h
    · rintro ⟨t', h, hk, rfl⟩
      cases h
      rw [if_pos hk]

/-- The rest of a text starts with a word that ends it. -/
def Stopped (rest : List LTok) : Prop := ∀ t r, rest = t :: r → isTextTok t = false

theorem takeWhile_append_stop {p : LTok → Bool} {w rest : List LTok} (hw : ∀ t ∈ w, p t = true) (hr : ∀ t r, rest = t :: r → p t = false) :
    (w ++ rest).takeWhile p = w ∧ (w ++ rest).dropWhile p = rest := by
  induction w with
  | nil =>
    cases rest with
    | nil => exact ⟨rfl, rfl⟩
    | cons t r => rw [List.nil_append, List.takeWhile_cons, List.dropWhile_cons, hr t r rfl]; exact ⟨rfl, rfl⟩
  | cons c w ih =>
    obtain ⟨h1, h2⟩ := ih (fun t ht => hw t (List.mem_cons_of_mem _ ht))
    rw [List.cons_append, List.takeWhile_cons, List.dropWhile_cons, hw c List.mem_cons_self, if_pos rfl, if_pos rfl, h1, h2]
    exact ⟨rfl, rfl⟩

theorem mem_takeWhileL {p : LTok → Bool} {s : List LTok} {c : LTok} (h : c ∈ s.takeWhile p) : p c = true := by
  induction s with
  | nil => cases h
  | cons d s ih =>
    rw [List.takeWhile_cons] at h
    split at h
    · next hd =>
      rcases List.mem_cons.mp h with rfl | h
      · exact hd
      · exact ih h
    · cases h

theorem dropWhile_headL {p : LTok → Bool} {s : List LTok} {t : LTok} {r : List LTok} (h : s.dropWhile p = t :: r) : p t = false := by
  induction s with
  | nil => cases h
  | cons d s ih =>
    rw [List.dropWhile_cons] at h
    split at h
    · exact ih h
    · next hd => cases h; simpa using hd

theorem pText_some {ts w rest : List LTok} : pText ts = some (w, rest) ↔ ts = w ++ rest ∧ w ≠ [] ∧ (∀ t ∈ w, isTextTok t = true) ∧ Stopped rest := by
  constructor
  · intro h
    unfold pText at h
    split at h
    · cases h
    · next t w' he =>
      simp only [Option.some.injEq, Prod.mk.injEq] at h
      obtain ⟨rfl, rfl⟩ := h
      refine ⟨?_, by simp, ?_, ?_⟩
      · rw [← he, List.takeWhile_append_dropWhile]
      · rw [← he]; exact fun t ht => mem_takeWhileL ht
      · exact fun t r hr => dropWhile_headL hr
  · rintro ⟨rfl, hne, hw, hr⟩
    obtain ⟨h1, h2⟩ := takeWhile_append_stop hw hr
    unfold pText
    cases w with
    | nil => exact absurd rfl hne
    | cons t w =>
      rw [h1, h2]

theorem toks_append (u v : List LTok) : toks (u ++ v) = toks u ++ toks v := List.map_append
theorem toks_length (u : List LTok) : (toks u).length = u.length := List.length_map _

/-- Tokens split as their texts do. -/
theorem toks_split {ts : List LTok} {w rest : List Token} (h : toks ts = w ++ rest) :
    ts = ts.take w.length ++ ts.drop (ts.length - rest.length) ∧ toks (ts.take w.length) = w := by
  have hl : ts.length = w.length + rest.length := by rw [← toks_length, h, List.length_append]
  have e : ts.length - rest.length = w.length := by omega
  rw [e]
  refine ⟨(List.take_append_drop _ _).symm, ?_⟩
  unfold toks at h ⊢
  rw [List.map_take, h, List.take_left]

theorem pCond_sound {ts rest : List LTok} {e : Expr} (h : pCond ts = some (e, rest)) : ∃ w, ts = w ++ rest ∧ Der .expr (toks w) e := by
  unfold pCond at h
  split at h
  · next e' r hp =>
    simp only [Option.some.injEq, Prod.mk.injEq] at h
    obtain ⟨rfl, rfl⟩ := h
    obtain ⟨w, hw, hd⟩ := (parser_sound _).2.2 hp
    obtain ⟨h1, h2⟩ := toks_split hw
    exact ⟨_, h1, by rw [h2]; exact hd⟩
  · cases h

theorem pCond_complete {w rest : List LTok} {e : Expr} (h : Der .expr (toks w) e) (hf : Follow stopExpr (toks rest)) : pCond (w ++ rest) = some (e, rest) := by
  obtain ⟨_, h2⟩ := good_of_der h
  have hp := h2 (3 * (w ++ rest).length + 3) (by rw [toks_length, List.length_append]; omega) (toks rest) hf
  unfold pCond
  rw [toks_append, hp]
  dsimp only
  rw [toks_length, List.length_append, Nat.add_sub_cancel, List.drop_left]

theorem pBracket_sound {ts rest : List LTok} {x : Str} (h : pBracket ts = some (x, rest)) : ∃ w, ts = w ++ rest ∧ GItems (toks w) ∧ x = textOf (toks w) := by
  cases ts with
  | nil => cases h
  | cons t r =>
    rw [pBracket] at h
    split at h
    · next hl =>
      split at h
      · next w rest' hp =>
        simp only [Option.some.injEq, Prod.mk.injEq] at h
        obtain ⟨rfl, rfl⟩ := h
        obtain ⟨h1, h2⟩ := pItems_sound hp
        obtain ⟨h3, h4⟩ := toks_split h1
        refine ⟨t :: r.take w.length, by rw [List.cons_append, ← h3], ?_, ?_⟩
        · have : toks (t :: r.take w.length) = t.tok :: w := congrArg (t.tok :: ·) h4
          rw [this]
          exact h2 _ hl
        · have : toks (t :: r.take w.length) = t.tok :: w := congrArg (t.tok :: ·) h4
          rw [this]
      · cases h
    · cases h

theorem pBracket_complete {w : List LTok} (h : GItems (toks w)) (rest : List LTok) : pBracket (w ++ rest) = some (textOf (toks w), rest) := by
  obtain ⟨l, w', hw, hl, hp⟩ := pItems_complete h
  cases w with
  | nil => cases hw
  | cons t w =>
    have hw' : t.tok = l ∧ toks w = w' := by
      simp only [toks, List.map_cons, List.cons.injEq] at hw
      exact hw
    obtain ⟨rfl, rfl⟩ := hw'
    rw [List.cons_append, pBracket, if_pos hl, toks_append, hp (toks rest)]
    dsimp only
    rw [toks_length, List.length_append, Nat.add_sub_cancel, List.drop_left]
    rfl

/-! ### Attributes -/

/-- What follows a declaration. -/
def AtEnd (rest : List LTok) : Prop := ∀ t r, rest = t :: r → t.tok.kind = .DECL

/-- Token types of attributes. -/
def attrKinds : List Tok := [.OUTPUT, .ACTIONS, .PRIORITY, .TAGS, .PREFILTER, .ENABLED, .WARNEVTTYPE, .SKIPUNKNOWN]

theorem gAttrs_head {w : List LTok} {as : List Attr} {o : Bool} (h : GAttrs w as o) {t : LTok} {r : List LTok} (hw : w = t :: r) : t.tok.kind ∈ attrKinds := by
  cases h with
  | nil => cases hw
  | output k d w w' as o hk _ _ _ _ => cases hw; rw [hk]; decide
  | actions k d w w' as o hk _ _ _ => cases hw; rw [hk]; decide
  | priority k d s w' as o hk _ _ _ => cases hw; rw [hk]; decide
  | tags k d w w' as o hk _ _ _ => cases hw; rw [hk]; decide
  | prefilter k d w w' as o hk _ _ _ => cases hw; rw [hk]; decide
  | enabled k d a w' as o hk _ _ _ => cases hw; rw [hk]; decide
  | other k d a w' as o hk _ _ _ => cases hw; rcases hk with hk | hk <;> rw [hk] <;> decide

theorem expect_ok {k : Tok} {t : LTok} (h : t.tok.kind = k) (r : List LTok) : expect k (t :: r) = some r := by rw [expect, if_pos h]

theorem pAttrs_complete {w : List LTok} {as : List Attr} {o : Bool} (h : GAttrs w as o) : ∀ (n : Nat) (rest : List LTok), w.length < n → Coh w → AtEnd rest →
    (o = true → rest = []) → pAttrs n (w ++ rest) = some (as, rest) := by
  induction h with
  | nil =>
    intro n rest hn _ hr _
    obtain ⟨n, rfl⟩ : ∃ m, n = m + 1 := ⟨n - 1, by omega⟩
    cases rest with
    | nil => rfl
    | cons t r =>
      have := hr t r rfl
      rw [List.nil_append, pAttrs]
      rw [if_neg (by rw [this]; decide), if_neg (by rw [this]; decide), if_neg (by rw [this]; decide), if_neg (by rw [this]; decide),
        if_neg (by rw [this]; decide), if_neg (by rw [this]; decide), if_neg (by rw [this]; decide)]
  | output k d w w' as o hk hd hne hw hg ih =>
    intro n rest hn hc hr ho
    simp only [List.length_cons, List.length_append] at hn
    obtain ⟨n, rfl⟩ : ∃ m, n = m + 1 := ⟨n - 1, by omega⟩
    have e : k :: d :: (w ++ w') ++ rest = k :: d :: (w ++ (w' ++ rest)) := by simp
    have hcw : Coh w' := hc.tail.tail.right
    have hstop : Stopped (w' ++ rest) := by
      cases w' with
      | nil =>
        rw [if_pos rfl] at ho
        rw [ho rfl]
        intro t r h; cases h
      | cons t r =>
        intro t' r' h
        rw [List.cons_append] at h
        cases h
        refine stop_kind hcw.head ?_
        have := gAttrs_head hg rfl
        have hall : ∀ k ∈ attrKinds, k ∈ stopKinds := by decide
        exact hall _ this
    have ho' : o = true → rest = [] := by
      intro h
      apply ho
      split
      · rfl
      · exact h
    rw [e, pAttrs, if_pos hk, expect_ok hd, Option.bind_some, pText_some.mpr ⟨rfl, hne, hw, hstop⟩, Option.bind_some, ih n rest (by omega) hcw hr ho']
    rfl
  | actions k d w w' as o hk hd hw hg ih =>
    intro n rest hn hc hr ho
    simp only [List.length_cons, List.length_append] at hn
    obtain ⟨n, rfl⟩ : ∃ m, n = m + 1 := ⟨n - 1, by omega⟩
    have e : k :: d :: (w ++ w') ++ rest = k :: d :: (w ++ (w' ++ rest)) := by simp
    rw [e, pAttrs, if_neg (by rw [hk]; decide), if_pos hk, expect_ok hd, Option.bind_some, pBracket_complete hw, Option.bind_some,
      ih n rest (by omega) hc.tail.tail.right hr ho]
    rfl
  | priority k d s w' as o hk hd hs hg ih =>
    intro n rest hn hc hr ho
    simp only [List.length_cons] at hn
    obtain ⟨n, rfl⟩ : ∃ m, n = m + 1 := ⟨n - 1, by omega⟩
    rw [List.cons_append, List.cons_append, List.cons_append, pAttrs, if_neg (by rw [hk]; decide), if_neg (by rw [hk]; decide), if_pos hk, expect_ok hd,
      Option.bind_some, pTok_some.mpr ⟨s, rfl, hs, rfl⟩, Option.bind_some, ih n rest (by omega) hc.tail.tail.tail hr ho]
    rfl
  | tags k d w w' as o hk hd hw hg ih =>
    intro n rest hn hc hr ho
    simp only [List.length_cons, List.length_append] at hn
    obtain ⟨n, rfl⟩ : ∃ m, n = m + 1 := ⟨n - 1, by omega⟩
    have e : k :: d :: (w ++ w') ++ rest = k :: d :: (w ++ (w' ++ rest)) := by simp
    rw [e, pAttrs, if_neg (by rw [hk]; decide), if_neg (by rw [hk]; decide), if_neg (by rw [hk]; decide), if_pos hk, expect_ok hd, Option.bind_some,
      pBracket_complete hw, Option.bind_some, ih n rest (by omega) hc.tail.tail.right hr ho]
    rfl
  | prefilter k d w w' as o hk hd hw hg ih =>
    intro n rest hn hc hr ho
    simp only [List.length_cons, List.length_append] at hn
    obtain ⟨n, rfl⟩ : ∃ m, n = m + 1 := ⟨n - 1, by omega⟩
    have e : k :: d :: (w ++ w') ++ rest = k :: d :: (w ++ (w' ++ rest)) := by simp
    rw [e, pAttrs, if_neg (by rw [hk]; decide), if_neg (by rw [hk]; decide), if_neg (by rw [hk]; decide), if_neg (by rw [hk]; decide), if_pos hk,
      expect_ok hd, Option.bind_some, pBracket_complete hw, Option.bind_some, ih n rest (by omega) hc.tail.tail.right hr ho]
    rfl
  | enabled k d a w' as o hk hd ha hg ih =>
    intro n rest hn hc hr ho
    simp only [List.length_cons] at hn
    obtain ⟨n, rfl⟩ : ∃ m, n = m + 1 := ⟨n - 1, by omega⟩
    rw [List.cons_append, List.cons_append, List.cons_append, pAttrs, if_neg (by rw [hk]; decide), if_neg (by rw [hk]; decide), if_neg (by rw [hk]; decide),
      if_neg (by rw [hk]; decide), if_neg (by rw [hk]; decide), if_pos hk, expect_ok hd,
      Option.bind_some, pAtomL_some.mpr ⟨a, rfl, ha, rfl⟩, Option.bind_some, ih n rest (by omega) hc.tail.tail.tail hr ho]
    rfl
  | other k d a w' as o hk hd ha hg ih =>
    intro n rest hn hc hr ho
    simp only [List.length_cons] at hn
    obtain ⟨n, rfl⟩ : ∃ m, n = m + 1 := ⟨n - 1, by omega⟩
    have hneg : ∀ k', k' ≠ .WARNEVTTYPE → k' ≠ .SKIPUNKNOWN → ¬ k.tok.kind = k' := by
      intro k' h1 h2 h3
      rcases hk with hk | hk
      · rw [h3] at hk; exact h1 hk
      · rw [h3] at hk; exact h2 hk
    rw [List.cons_append, List.cons_append, List.cons_append, pAttrs, if_neg (hneg _ (by decide) (by decide)), if_neg (hneg _ (by decide) (by decide)),
      if_neg (hneg _ (by decide) (by decide)), if_neg (hneg _ (by decide) (by decide)), if_neg (hneg _ (by decide) (by decide)),
      if_neg (hneg _ (by decide) (by decide)), if_pos hk, expect_ok hd,
      Option.bind_some, pAtomL_some.mpr ⟨a, rfl, ha, rfl⟩, Option.bind_some, ih n rest (by omega) hc.tail.tail.tail hr ho]
    rfl

theorem pAttrs_sound : ∀ (n : Nat) {ts rest : List LTok} {as : List Attr}, pAttrs n ts = some (as, rest) →
    ∃ w o, ts = w ++ rest ∧ GAttrs w as o ∧ (o = true → Stopped rest) := by
  intro n
  induction n with
  | zero => intro ts rest as h; cases h
  | succ n ih =>
    intro ts rest as h
    cases ts with
    | nil =>
      rw [pAttrs] at h
      simp only [Option.some.injEq, Prod.mk.injEq] at h
      obtain ⟨rfl, rfl⟩ := h
      exact ⟨[], false, rfl, .nil, fun h => by cases h⟩
    | cons t r =>
      rw [pAttrs] at h
      split at h
      · next hk =>
        obtain ⟨r1, h1, h⟩ := Option.bind_eq_some_iff.mp h
        obtain ⟨⟨w, r2⟩, h2, h⟩ := Option.bind_eq_some_iff.mp h
        obtain ⟨⟨as', r3⟩, h3, h⟩ := Option.map_eq_some_iff.mp h
        simp only [Prod.mk.injEq] at h
        obtain ⟨rfl, rfl⟩ := h
        obtain ⟨d, rfl, hd⟩ := expect_some.mp h1
        obtain ⟨rfl, hne, hw, hst⟩ := pText_some.mp h2
        obtain ⟨w', o, he, hg, ho⟩ := ih h3
        change r2 = w' ++ r3 at he
        subst he
        refine ⟨t :: d :: (w ++ w'), _, by simp, .output t d w w' as' o hk hd hne hw hg, ?_⟩
        split
        · next hw' => subst hw'; intro _; exact hst
        · exact ho
      · split at h
        · next hk =>
          obtain ⟨r1, h1, h⟩ := Option.bind_eq_some_iff.mp h
          obtain ⟨⟨x, r2⟩, h2, h⟩ := Option.bind_eq_some_iff.mp h
          obtain ⟨⟨as', r3⟩, h3, h⟩ := Option.map_eq_some_iff.mp h
          simp only [Prod.mk.injEq] at h
          obtain ⟨rfl, rfl⟩ := h
          obtain ⟨d, rfl, hd⟩ := expect_some.mp h1
          obtain ⟨w, rfl, hw, rfl⟩ := pBracket_sound h2
          obtain ⟨w', o, he, hg, ho⟩ := ih h3
          change r2 = w' ++ r3 at he
          subst he
          exact ⟨t :: d :: (w ++ w'), o, by simp, .actions t d w w' as' o hk hd hw hg, ho⟩
        · split at h
          · next hk =>
            obtain ⟨r1, h1, h⟩ := Option.bind_eq_some_iff.mp h
            obtain ⟨⟨x, r2⟩, h2, h⟩ := Option.bind_eq_some_iff.mp h
            obtain ⟨⟨as', r3⟩, h3, h⟩ := Option.map_eq_some_iff.mp h
            simp only [Prod.mk.injEq] at h
            obtain ⟨rfl, rfl⟩ := h
            obtain ⟨d, rfl, hd⟩ := expect_some.mp h1
            obtain ⟨s, rfl, hs, rfl⟩ := pTok_some.mp h2
            obtain ⟨w', o, he, hg, ho⟩ := ih h3
            change r2 = w' ++ r3 at he
            subst he
            exact ⟨t :: d :: s :: w', o, by simp, .priority t d s w' as' o hk hd hs hg, ho⟩
          · split at h
            · next hk =>
              obtain ⟨r1, h1, h⟩ := Option.bind_eq_some_iff.mp h
              obtain ⟨⟨x, r2⟩, h2, h⟩ := Option.bind_eq_some_iff.mp h
              obtain ⟨⟨as', r3⟩, h3, h⟩ := Option.map_eq_some_iff.mp h
              simp only [Prod.mk.injEq] at h
              obtain ⟨rfl, rfl⟩ := h
              obtain ⟨d, rfl, hd⟩ := expect_some.mp h1
              obtain ⟨w, rfl, hw, rfl⟩ := pBracket_sound h2
              obtain ⟨w', o, he, hg, ho⟩ := ih h3
              change r2 = w' ++ r3 at he
              subst he
              exact ⟨t :: d :: (w ++ w'), o, by simp, .tags t d w w' as' o hk hd hw hg, ho⟩
            · split at h
              · next hk =>
                obtain ⟨r1, h1, h⟩ := Option.bind_eq_some_iff.mp h
                obtain ⟨⟨x, r2⟩, h2, h⟩ := Option.bind_eq_some_iff.mp h
                obtain ⟨⟨as', r3⟩, h3, h⟩ := Option.map_eq_some_iff.mp h
                simp only [Prod.mk.injEq] at h
                obtain ⟨rfl, rfl⟩ := h
                obtain ⟨d, rfl, hd⟩ := expect_some.mp h1
                obtain ⟨w, rfl, hw, rfl⟩ := pBracket_sound h2
                obtain ⟨w', o, he, hg, ho⟩ := ih h3
                change r2 = w' ++ r3 at he
                subst he
                exact ⟨t :: d :: (w ++ w'), o, by simp, .prefilter t d w w' as' o hk hd hw hg, ho⟩
              · split at h
                · next hk =>
                  obtain ⟨r1, h1, h⟩ := Option.bind_eq_some_iff.mp h
                  obtain ⟨⟨x, r2⟩, h2, h⟩ := Option.bind_eq_some_iff.mp h
                  obtain ⟨⟨as', r3⟩, h3, h⟩ := Option.map_eq_some_iff.mp h
                  simp only [Prod.mk.injEq] at h
                  obtain ⟨rfl, rfl⟩ := h
                  obtain ⟨d, rfl, hd⟩ := expect_some.mp h1
                  obtain ⟨s, rfl, hs, rfl⟩ := pAtomL_some.mp h2
                  obtain ⟨w', o, he, hg, ho⟩ := ih h3
                  change r2 = w' ++ r3 at he
                  subst he
                  exact ⟨t :: d :: s :: w', o, by simp, .enabled t d s w' as' o hk hd hs hg, ho⟩
                · split at h
                  · next hk =>
                    obtain ⟨r1, h1, h⟩ := Option.bind_eq_some_iff.mp h
                    obtain ⟨⟨x, r2⟩, h2, h⟩ := Option.bind_eq_some_iff.mp h
                    obtain ⟨⟨as', r3⟩, h3, h⟩ := Option.map_eq_some_iff.mp h
                    simp only [Prod.mk.injEq] at h
                    obtain ⟨rfl, rfl⟩ := h
                    obtain ⟨d, rfl, hd⟩ := expect_some.mp h1
                    obtain ⟨s, rfl, hs, rfl⟩ := pAtomL_some.mp h2
                    obtain ⟨w', o, he, hg, ho⟩ := ih h3
                    change r2 = w' ++ r3 at he
                    subst he
                    exact ⟨t :: d :: s :: w', o, by simp, .other t d s w' as' o hk hd hs hg, ho⟩
                  · simp only [Option.some.injEq, Prod.mk.injEq] at h
                    obtain ⟨rfl, rfl⟩ := h
                    exact ⟨[], false, rfl, .nil, fun h => by cases h⟩

/-! ### Declarations -/

theorem follow_end {rest : List LTok} (h : AtEnd rest) : Follow stopExpr (toks rest) := by
  intro t r e
  cases rest with
  | nil => cases e
  | cons x xs =>
    simp only [toks, List.map_cons, List.cons.injEq] at e
    rw [← e.1, h x xs rfl]
    rfl

theorem follow_attr {w rest : List LTok} {as : List Attr} {o : Bool} (h : GAttrs w as o) (hr : AtEnd rest) : Follow stopExpr (toks (w ++ rest)) := by
  cases w with
  | nil => exact follow_end hr
  | cons x xs =>
    have hk := gAttrs_head h rfl
    intro t r e
    rw [List.cons_append] at e
    simp only [toks, List.map_cons, List.cons.injEq] at e
    rw [← e.1]
    have hall : ∀ k ∈ attrKinds, stopExpr k = false := by decide
    exact hall _ hk

theorem pOptAtom_complete {kw : Tok} (hkw : kw ≠ .DECL) {w : List LTok} {x : Option Str} (h : GOpt kw w x) {rest : List LTok} (hr : AtEnd rest) :
    pOptAtom kw (w ++ rest) = some (x, rest) := by
  cases h with
  | none =>
    cases rest with
    | nil => rfl
    | cons t r =>
      rw [List.nil_append, pOptAtom, if_neg (by rw [hr t r rfl]; exact fun h => hkw h.symm)]
  | some k d a hk hd ha =>
    rw [List.cons_append, List.cons_append, List.cons_append, List.nil_append, pOptAtom, if_pos hk, expect_ok hd, Option.bind_some,
      pAtomL_some.mpr ⟨a, rfl, ha, rfl⟩]
    rfl

theorem pOptAtom_sound {kw : Tok} {ts rest : List LTok} {x : Option Str} (h : pOptAtom kw ts = some (x, rest)) : ∃ w, ts = w ++ rest ∧ GOpt kw w x := by
  cases ts with
  | nil =>
    rw [pOptAtom] at h
    simp only [Option.some.injEq, Prod.mk.injEq] at h
    obtain ⟨rfl, rfl⟩ := h
    exact ⟨[], rfl, .none⟩
  | cons t r =>
    rw [pOptAtom] at h
    split at h
    · next hk =>
      obtain ⟨r1, h1, h⟩ := Option.bind_eq_some_iff.mp h
      obtain ⟨⟨y, r2⟩, h2, h⟩ := Option.map_eq_some_iff.mp h
      simp only [Prod.mk.injEq] at h
      obtain ⟨rfl, rfl⟩ := h
      obtain ⟨d, rfl, hd⟩ := expect_some.mp h1
      obtain ⟨a, rfl, ha, rfl⟩ := pAtomL_some.mp h2
      exact ⟨[t, d, a], rfl, .some t d a hk hd ha⟩
    · simp only [Option.some.injEq, Prod.mk.injEq] at h
      obtain ⟨rfl, rfl⟩ := h
      exact ⟨[], rfl, .none⟩

theorem follow_opt {kw : Tok} (hkw : stopExpr kw = false) {w : List LTok} {x : Option Str} (h : GOpt kw w x) {rest : List LTok} (hr : AtEnd rest) :
    Follow stopExpr (toks (w ++ rest)) := by
  cases h with
  | none => exact follow_end hr
  | some k d a hk hd ha =>
    intro t r e
    simp only [toks, List.cons_append, List.map_cons, List.cons.injEq] at e
    rw [← e.1, hk]
    exact hkw

theorem pDecl_complete {w : List LTok} {d : Decl} {o : Bool} (h : GDecl w d o) {rest : List LTok} (hc : Coh w) (hr : AtEnd rest) (ho : o = true → rest = []) :
    pDecl (w ++ rest) = some (d, rest) := by
  cases h with
  | rule m k d1 ds d2 cn d3 name desc cond attrs e as o hm hk h1 hn hn' hds h2 hd hd' hcn h3 he ha =>
    have hc1 := hc.tail.tail.tail
    have hcds := hc1.right
    have hcdesc := hcds.tail.tail
    have hcn' := hcdesc.right
    have st1 : Stopped (ds :: d2 :: (desc ++ cn :: d3 :: (cond ++ attrs)) ++ rest) := by
      intro t r h; rw [List.cons_append] at h; cases h
      exact stop_kind hcds.head (by rw [hds]; decide)
    have st2 : Stopped (cn :: d3 :: (cond ++ attrs) ++ rest) := by
      intro t r h; rw [List.cons_append] at h; cases h
      exact stop_kind hcn'.head (by rw [hcn]; decide)
    have e1 : m :: k :: d1 :: (name ++ ds :: d2 :: (desc ++ cn :: d3 :: (cond ++ attrs))) ++ rest =
        m :: k :: d1 :: (name ++ (ds :: d2 :: (desc ++ cn :: d3 :: (cond ++ attrs)) ++ rest)) := by simp
    have e2 : ds :: d2 :: (desc ++ cn :: d3 :: (cond ++ attrs)) ++ rest = ds :: d2 :: (desc ++ (cn :: d3 :: (cond ++ attrs) ++ rest)) := by simp
    have e3 : cn :: d3 :: (cond ++ attrs) ++ rest = cn :: d3 :: (cond ++ (attrs ++ rest)) := by simp
    rw [e1, pDecl, if_pos hm, if_pos hk, pRule, expect_ok h1, Option.bind_some, pText_some.mpr ⟨rfl, hn, hn', st1⟩, Option.bind_some]
    dsimp only
    rw [e2, expect_ok hds, Option.bind_some, expect_ok h2, Option.bind_some, pText_some.mpr ⟨rfl, hd, hd', st2⟩, Option.bind_some]
    dsimp only
    rw [e3, expect_ok hcn, Option.bind_some, expect_ok h3, Option.bind_some, pCond_complete he (follow_attr ha hr), Option.bind_some]
    dsimp only
    rw [pAttrs_complete ha _ rest (by rw [List.length_append]; omega) hcn'.tail.tail.right hr ho]
    rfl
  | filter m k d1 id cn d2 cond opt e en hm hk h1 hid hcn h2 he hopt =>
    have hneg : ¬ k.tok.kind = .RULE := by rcases hk with hk | hk <;> rw [hk] <;> decide
    have e1 : m :: k :: d1 :: id :: cn :: d2 :: (cond ++ opt) ++ rest = m :: k :: d1 :: id :: cn :: d2 :: (cond ++ (opt ++ rest)) := by simp
    rw [e1, pDecl, if_pos hm, if_neg hneg, if_pos hk, pFilter, expect_ok h1, Option.bind_some, pTok_some.mpr ⟨id, rfl, hid, rfl⟩, Option.bind_some]
    dsimp only
    rw [expect_ok hcn, Option.bind_some, expect_ok h2, Option.bind_some, pCond_complete he (follow_opt rfl hopt hr), Option.bind_some]
    dsimp only
    rw [pOptAtom_complete (by decide) hopt hr]
    rfl
  | mac m k d1 id cn d2 cond opt e ap hm hk h1 hid hcn h2 he hopt =>
    have e1 : m :: k :: d1 :: id :: cn :: d2 :: (cond ++ opt) ++ rest = m :: k :: d1 :: id :: cn :: d2 :: (cond ++ (opt ++ rest)) := by simp
    rw [e1, pDecl, if_pos hm, if_neg (by rw [hk]; decide), if_neg (by rw [hk]; decide), if_pos hk, pMacro, expect_ok h1, Option.bind_some,
      pTok_some.mpr ⟨id, rfl, hid, rfl⟩, Option.bind_some]
    dsimp only
    rw [expect_ok hcn, Option.bind_some, expect_ok h2, Option.bind_some, pCond_complete he (follow_opt rfl hopt hr), Option.bind_some]
    dsimp only
    rw [pOptAtom_complete (by decide) hopt hr]
    rfl
  | list m k d1 id it d2 items hm hk h1 hid hit h2 hitems =>
    rw [List.cons_append, List.cons_append, List.cons_append, List.cons_append, List.cons_append, List.cons_append, pDecl, if_pos hm,
      if_neg (by rw [hk]; decide), if_neg (by rw [hk]; decide), if_neg (by rw [hk]; decide), if_pos hk, pListDecl, expect_ok h1, Option.bind_some,
      pTok_some.mpr ⟨id, rfl, hid, rfl⟩, Option.bind_some]
    dsimp only
    rw [expect_ok hit, Option.bind_some, expect_ok h2, Option.bind_some, pBracket_complete hitems]
    rfl
  | req m k d1 a hm hk h1 ha =>
    rw [List.cons_append, List.cons_append, List.cons_append, List.cons_append, List.nil_append, pDecl, if_pos hm,
      if_neg (by rw [hk]; decide), if_neg (by rw [hk]; decide), if_neg (by rw [hk]; decide), if_neg (by rw [hk]; decide), if_pos hk, pReq, expect_ok h1,
      Option.bind_some, pAtomL_some.mpr ⟨a, rfl, ha, rfl⟩]
    rfl

theorem pDecl_sound {ts rest : List LTok} {d : Decl} (h : pDecl ts = some (d, rest)) : ∃ w o, ts = w ++ rest ∧ GDecl w d o ∧ (o = true → Stopped rest) := by
  unfold pDecl at h
  split at h
  · next m k r =>
    split at h
    · next hm =>
      split at h
      · next hk =>
        unfold pRule at h
        obtain ⟨r1, h1, h⟩ := Option.bind_eq_some_iff.mp h
        obtain ⟨⟨name, r2⟩, h2, h⟩ := Option.bind_eq_some_iff.mp h
        obtain ⟨r3, h3, h⟩ := Option.bind_eq_some_iff.mp h
        obtain ⟨r4, h4, h⟩ := Option.bind_eq_some_iff.mp h
        obtain ⟨⟨desc, r5⟩, h5, h⟩ := Option.bind_eq_some_iff.mp h
        obtain ⟨r6, h6, h⟩ := Option.bind_eq_some_iff.mp h
        obtain ⟨r7, h7, h⟩ := Option.bind_eq_some_iff.mp h
        obtain ⟨⟨e, r8⟩, h8, h⟩ := Option.bind_eq_some_iff.mp h
        obtain ⟨⟨as, r9⟩, h9, h⟩ := Option.map_eq_some_iff.mp h
        simp only [Prod.mk.injEq] at h
        obtain ⟨rfl, rfl⟩ := h
        obtain ⟨d1, rfl, hd1⟩ := expect_some.mp h1
        obtain ⟨rfl, hn, hn', _⟩ := pText_some.mp h2
        obtain ⟨ds, he3, hds⟩ := expect_some.mp h3
        change r2 = ds :: r3 at he3
        subst he3
        obtain ⟨d2, rfl, hd2⟩ := expect_some.mp h4
        obtain ⟨rfl, hd, hd', _⟩ := pText_some.mp h5
        obtain ⟨cn, he6, hcn⟩ := expect_some.mp h6
        change r5 = cn :: r6 at he6
        subst he6
        obtain ⟨d3, rfl, hd3⟩ := expect_some.mp h7
        obtain ⟨cond, rfl, hcond⟩ := pCond_sound h8
        obtain ⟨w, o, he9, hg, ho⟩ := pAttrs_sound _ h9
        change r8 = w ++ r9 at he9
        subst he9
        exact ⟨_, o, by simp, .rule m k d1 ds d2 cn d3 name desc cond w e as o hm hk hd1 hn hn' hds hd2 hd hd' hcn hd3 hcond hg, ho⟩
      · split at h
        · next hk =>
          unfold pFilter at h
          obtain ⟨r1, h1, h⟩ := Option.bind_eq_some_iff.mp h
          obtain ⟨⟨x, r2⟩, h2, h⟩ := Option.bind_eq_some_iff.mp h
          obtain ⟨r3, h3, h⟩ := Option.bind_eq_some_iff.mp h
          obtain ⟨r4, h4, h⟩ := Option.bind_eq_some_iff.mp h
          obtain ⟨⟨e, r5⟩, h5, h⟩ := Option.bind_eq_some_iff.mp h
          obtain ⟨⟨en, r6⟩, h6, h⟩ := Option.map_eq_some_iff.mp h
          simp only [Prod.mk.injEq] at h
          obtain ⟨rfl, rfl⟩ := h
          obtain ⟨d1, rfl, hd1⟩ := expect_some.mp h1
          obtain ⟨id, rfl, hid, rfl⟩ := pTok_some.mp h2
          obtain ⟨cn, he3, hcn⟩ := expect_some.mp h3
          change r2 = cn :: r3 at he3
          subst he3
          obtain ⟨d2, rfl, hd2⟩ := expect_some.mp h4
          obtain ⟨cond, rfl, hcond⟩ := pCond_sound h5
          obtain ⟨w, he6, hg⟩ := pOptAtom_sound h6
          change r5 = w ++ r6 at he6
          subst he6
          exact ⟨_, false, by simp, .filter m k d1 id cn d2 cond w e en hm hk hd1 hid hcn hd2 hcond hg, fun h => by cases h⟩
        · split at h
          · next hk =>
            unfold pMacro at h
            obtain ⟨r1, h1, h⟩ := Option.bind_eq_some_iff.mp h
            obtain ⟨⟨x, r2⟩, h2, h⟩ := Option.bind_eq_some_iff.mp h
            obtain ⟨r3, h3, h⟩ := Option.bind_eq_some_iff.mp h
            obtain ⟨r4, h4, h⟩ := Option.bind_eq_some_iff.mp h
            obtain ⟨⟨e, r5⟩, h5, h⟩ := Option.bind_eq_some_iff.mp h
            obtain ⟨⟨ap, r6⟩, h6, h⟩ := Option.map_eq_some_iff.mp h
            simp only [Prod.mk.injEq] at h
            obtain ⟨rfl, rfl⟩ := h
            obtain ⟨d1, rfl, hd1⟩ := expect_some.mp h1
            obtain ⟨id, rfl, hid, rfl⟩ := pTok_some.mp h2
            obtain ⟨cn, he3, hcn⟩ := expect_some.mp h3
            change r2 = cn :: r3 at he3
            subst he3
            obtain ⟨d2, rfl, hd2⟩ := expect_some.mp h4
            obtain ⟨cond, rfl, hcond⟩ := pCond_sound h5
            obtain ⟨w, he6, hg⟩ := pOptAtom_sound h6
            change r5 = w ++ r6 at he6
            subst he6
            exact ⟨_, false, by simp, .mac m k d1 id cn d2 cond w e ap hm hk hd1 hid hcn hd2 hcond hg, fun h => by cases h⟩
          · split at h
            · next hk =>
              unfold pListDecl at h
              obtain ⟨r1, h1, h⟩ := Option.bind_eq_some_iff.mp h
              obtain ⟨⟨x, r2⟩, h2, h⟩ := Option.bind_eq_some_iff.mp h
              obtain ⟨r3, h3, h⟩ := Option.bind_eq_some_iff.mp h
              obtain ⟨r4, h4, h⟩ := Option.bind_eq_some_iff.mp h
              obtain ⟨⟨it, r5⟩, h5, h⟩ := Option.map_eq_some_iff.mp h
              simp only [Prod.mk.injEq] at h
              obtain ⟨rfl, rfl⟩ := h
              obtain ⟨d1, rfl, hd1⟩ := expect_some.mp h1
              obtain ⟨id, rfl, hid, rfl⟩ := pTok_some.mp h2
              obtain ⟨cn, he3, hcn⟩ := expect_some.mp h3
              change r2 = cn :: r3 at he3
              subst he3
              obtain ⟨d2, rfl, hd2⟩ := expect_some.mp h4
              obtain ⟨w, rfl, hw, rfl⟩ := pBracket_sound h5
              exact ⟨_, false, by simp, .list m k d1 id cn d2 w hm hk hd1 hid hcn hd2 hw, fun h => by cases h⟩
            · split at h
              · next hk =>
                unfold pReq at h
                obtain ⟨r1, h1, h⟩ := Option.bind_eq_some_iff.mp h
                obtain ⟨⟨x, r2⟩, h2, h⟩ := Option.map_eq_some_iff.mp h
                simp only [Prod.mk.injEq] at h
                obtain ⟨rfl, rfl⟩ := h
                obtain ⟨d1, rfl, hd1⟩ := expect_some.mp h1
                obtain ⟨a, rfl, ha, rfl⟩ := pAtomL_some.mp h2
                exact ⟨[m, k, d1, a], false, rfl, .req m k d1 a hm hk hd1 ha, fun h => by cases h⟩
              · cases h
    · cases h
  · cases h

theorem gDecl_head {w : List LTok} {d : Decl} {o : Bool} (h : GDecl w d o) : ∃ t r, w = t :: r ∧ t.tok.kind = .DECL := by
  cases h with
  | rule m _ _ _ _ _ _ _ _ _ _ _ _ _ hm => exact ⟨m, _, rfl, hm⟩
  | filter m _ _ _ _ _ _ _ _ _ hm => exact ⟨m, _, rfl, hm⟩
  | mac m _ _ _ _ _ _ _ _ _ hm => exact ⟨m, _, rfl, hm⟩
  | list m _ _ _ _ _ _ hm => exact ⟨m, _, rfl, hm⟩
  | req m _ _ _ hm => exact ⟨m, _, rfl, hm⟩

theorem gPolicy_head {w : List LTok} {ds : List Decl} (h : GPolicy w ds) : ∃ t r, w = t :: r ∧ t.tok.kind = .DECL := by
  cases h with
  | last _ d o h => exact gDecl_head h
  | cons w w' d ds h _ =>
    obtain ⟨t, r, rfl, hk⟩ := gDecl_head h
    exact ⟨t, _, rfl, hk⟩

theorem pDecls_complete {w : List LTok} {ds : List Decl} (h : GPolicy w ds) : ∀ n, w.length ≤ n → Coh w → pDecls n w = some ds := by
  induction h with
  | last w d o h =>
    intro n hn hc
    obtain ⟨t, r, rfl, _⟩ := gDecl_head h
    obtain ⟨n, rfl⟩ : ∃ m, n = m + 1 := ⟨n - 1, by simp only [List.length_cons] at hn; omega⟩
    have := pDecl_complete h (rest := []) hc (fun t r h => by cases h) (fun _ => rfl)
    rw [List.append_nil] at this
    rw [pDecls, this, Option.bind_some]
    cases n <;> rfl
  | cons w w' d ds h hp ih =>
    intro n hn hc
    obtain ⟨t, r, hw, _⟩ := gDecl_head h
    have hend : AtEnd w' := by
      intro t' r' e
      obtain ⟨t2, r2, h2, hk⟩ := gPolicy_head hp
      rw [h2] at e
      cases e
      exact hk
    have hd := pDecl_complete h (rest := w') hc.left hend (fun h => by cases h)
    rw [List.length_append] at hn
    subst hw
    obtain ⟨n, rfl⟩ : ∃ m, n = m + 1 := ⟨n - 1, by simp only [List.length_cons] at hn; omega⟩
    rw [List.cons_append] at hd ⊢
    rw [pDecls, hd, Option.bind_some]
    dsimp only
    rw [ih n (by simp only [List.length_cons] at hn; omega) hc.right]
    rfl

theorem pDecls_sound : ∀ (n : Nat) {ts : List LTok} {ds : List Decl}, ts ≠ [] → Coh ts → pDecls n ts = some ds → GPolicy ts ds := by
  intro n
  induction n with
  | zero =>
    intro ts ds hne _ h
    cases ts with
    | nil => exact absurd rfl hne
    | cons t r => cases h
  | succ n ih =>
    intro ts ds hne hc h
    cases ts with
    | nil => exact absurd rfl hne
    | cons t r =>
      rw [pDecls] at h
      obtain ⟨⟨d, rest⟩, h1, h⟩ := Option.bind_eq_some_iff.mp h
      obtain ⟨ds', h2, rfl⟩ := Option.map_eq_some_iff.mp h
      obtain ⟨w, o, he, hg, ho⟩ := pDecl_sound h1
      rw [he] at hc ⊢
      cases rest with
      | nil =>
        have h2' : pDecls n [] = some ds' := h2
        have : ds' = [] := by cases n <;> (rw [pDecls] at h2'; cases h2'; rfl)
        subst this
        rw [List.append_nil]
        exact .last w d o hg
      | cons t' r' =>
        have hp := ih (by simp) hc.right h2
        obtain ⟨t2, r2, e2, hk⟩ := gPolicy_head hp
        cases e2
        have ho' : o = false := by
          cases o with
          | false => rfl
          | true =>
            have := ho rfl t' r' rfl
            rw [decl_text hc.right.head hk] at this
            cases this
        subst ho'
        exact .cons w _ d ds' hg hp

/-! ### Results -/

/-- **C69** A policy file is accepted exactly if its tokens form declarations of the grammar in which only the last rule ends
with its output text, and then those declarations are what the compiler sees, in order. -/
theorem policy_accepted_iff {str : Str → Option Nat} (hs : StrRule str) (s : Str) (ds : List Decl) :
    fileOf str s = .ok ds ↔ GPolicy (ltokens str s) ds := by
  have hc := ltokens_coherent hs s
  have key : parsePolicy (ltokens str s) = some ds ↔ GPolicy (ltokens str s) ds := by
    unfold parsePolicy
    constructor
    · intro h
      split at h
      · cases h
      · next hne => exact pDecls_sound _ hne hc h
    · intro h
      obtain ⟨t, r, he, _⟩ := gPolicy_head h
      rw [if_neg (by rw [he]; simp)]
      exact pDecls_complete h _ (Nat.le_refl _) hc
  rw [← key]
  unfold fileOf
  constructor
  · intro h
    split at h
    · next ds' hp => rw [hp]; cases h; rfl
    · cases h
  · intro h
    rw [h]

/-- **C69** Every other contents are an error: a policy file is accepted or malformed, never partly used. -/
theorem policy_rejected {str : Str → Option Nat} (hs : StrRule str) (s : Str) (h : ∀ ds, ¬ GPolicy (ltokens str s) ds) : fileOf str s = .malformed := by
  cases hf : fileOf str s with
  | ok ds => exact absurd ((policy_accepted_iff hs s ds).mp hf) (h ds)
  | malformed => rfl
  | unreadable =>
    unfold fileOf at hf
    split at hf <;> cases hf

/-- **C69** A policy file has one reading. -/
theorem policy_one_reading {ts : List LTok} (hc : Coh ts) {ds ds' : List Decl} (h : GPolicy ts ds) (h' : GPolicy ts ds') : ds = ds' := by
  have h1 := pDecls_complete h ts.length (Nat.le_refl _) hc
  have h2 := pDecls_complete h' ts.length (Nat.le_refl _) hc
  rw [h1] at h2
  exact Option.some.inj h2

/-- **C69** Any layout of the declarations' words is read as those declarations. -/
theorem policy_layout {str : Str → Option Nat} (hs : StrRule str) {ts : List LTok} {s : Str} (hl : Lay ts s) {ds : List Decl} (h : GPolicy ts ds) :
    fileOf str s = .ok ds := by
  rw [policy_accepted_iff hs, lay_tokens hs hl]
  exact h

/-- The tokens with the hidden texts before them spell the text, up to hidden text at the end. -/
theorem ltokens_spell {str : Str → Option Nat} (hs : StrRule str) (s : Str) :
    ∃ tail, s = (ltokens str s).flatMap (fun t => t.lead ++ t.tok.text) ++ tail := by
  have key : ∀ (ts : List Token) (g : Str), ∃ tail, g ++ ts.flatMap (·.text) = (attach g ts).flatMap (fun t => t.lead ++ t.tok.text) ++ tail := by
    intro ts
    induction ts with
    | nil => intro g; exact ⟨g, by simp [attach]⟩
    | cons t ts ih =>
      intro g
      rw [attach]
      split
      · obtain ⟨tail, h⟩ := ih (g ++ t.text)
        exact ⟨tail, by rw [← h]; simp⟩
      · obtain ⟨tail, h⟩ := ih []
        rw [List.nil_append] at h
        refine ⟨tail, ?_⟩
        simp only [List.flatMap_cons]
        rw [h]
        simp
  obtain ⟨tail, h⟩ := key (lex str s) []
  rw [List.nil_append, (tokens_spell_text hs s).1] at h
  exact ⟨tail, h⟩

/-- **C69** Names and descriptions of rules are taken from the file verbatim, with the blanks and comments inside them. -/
theorem rule_text_verbatim {str : Str → Option Nat} (hs : StrRule str) (s : Str) {u w v : List LTok} (h : ltokens str s = u ++ w ++ v) (hw : w ≠ []) :
    ∃ a b, s = a ++ rawText w ++ b := by
  obtain ⟨tail, hs'⟩ := ltokens_spell hs s
  cases w with
  | nil => exact absurd rfl hw
  | cons t w =>
    refine ⟨u.flatMap (fun t => t.lead ++ t.tok.text) ++ t.lead, v.flatMap (fun t => t.lead ++ t.tok.text) ++ tail, ?_⟩
    conv => lhs; rw [hs', h]
    simp [rawText, List.flatMap_append, List.flatMap_cons]

/-- **C69** (finding) A declaration after a rule that ends with its output text is swallowed by that text: if it contains none of
the words that end a text, as a list does not, the file is accepted without it. -/
theorem declaration_after_output_lost {w w' : List LTok} {d : Decl} (h : GDecl w d true) (h' : ∀ t ∈ w', isTextTok t = true) : GPolicy (w ++ w') [d] := by
  have attrs : ∀ {w : List LTok} {as : List Attr} {o : Bool}, GAttrs w as o → o = true → GAttrs (w ++ w') as true := by
    intro w as o hg
    induction hg with
    | nil => intro ho; cases ho
    | output k d w1 w2 as o hk hd hne hw hg ih =>
      intro ho
      by_cases he : w2 = []
      · subst he
        have e : k :: d :: (w1 ++ []) ++ w' = k :: d :: ((w1 ++ w') ++ []) := by simp
        rw [e]
        have hfalse : as = [] ∧ o = false := by
          generalize hw2 : ([] : List LTok) = w2 at hg
          cases hg with
          | nil => exact ⟨rfl, rfl⟩
          | _ => cases hw2
        have := GAttrs.output k d (w1 ++ w') [] as o hk hd (by simp [hne]) (fun t ht => by
          rcases List.mem_append.mp ht with h | h
          · exact hw t h
          · exact h' t h) hg
        rw [if_pos rfl] at this
        exact this
      · rw [if_neg he] at ho
        have e : k :: d :: (w1 ++ w2) ++ w' = k :: d :: (w1 ++ (w2 ++ w')) := by simp
        rw [e]
        have := GAttrs.output k d w1 (w2 ++ w') as true hk hd hne hw (ih ho)
        rw [if_neg (by simp [he])] at this
        exact this
    | actions k d w1 w2 as o hk hd hw _ ih =>
      intro ho
      have e : k :: d :: (w1 ++ w2) ++ w' = k :: d :: (w1 ++ (w2 ++ w')) := by simp
      rw [e]; exact .actions k d w1 _ as true hk hd hw (ih ho)
    | priority k d s w2 as o hk hd hw _ ih => intro ho; exact .priority k d s _ as true hk hd hw (ih ho)
    | tags k d w1 w2 as o hk hd hw _ ih =>
      intro ho
      have e : k :: d :: (w1 ++ w2) ++ w' = k :: d :: (w1 ++ (w2 ++ w')) := by simp
      rw [e]; exact .tags k d w1 _ as true hk hd hw (ih ho)
    | prefilter k d w1 w2 as o hk hd hw _ ih =>
      intro ho
      have e : k :: d :: (w1 ++ w2) ++ w' = k :: d :: (w1 ++ (w2 ++ w')) := by simp
      rw [e]; exact .prefilter k d w1 _ as true hk hd hw (ih ho)
    | enabled k d s w2 as o hk hd hw _ ih => intro ho; exact .enabled k d s _ as true hk hd hw (ih ho)
    | other k d s w2 as o hk hd hw _ ih => intro ho; exact .other k d s _ as true hk hd hw (ih ho)
  generalize ho : true = o at h
  cases h with
  | rule m k d1 ds d2 cn d3 name desc cond at' e as o hm hk h1 hn hn' hds h2 hd hd' hcn h3 he ha =>
    have e1 : m :: k :: d1 :: (name ++ ds :: d2 :: (desc ++ cn :: d3 :: (cond ++ at'))) ++ w' =
        m :: k :: d1 :: (name ++ ds :: d2 :: (desc ++ cn :: d3 :: (cond ++ (at' ++ w')))) := by simp
    rw [e1]
    exact .last _ _ true (.rule m k d1 ds d2 cn d3 name desc cond (at' ++ w') e as true hm hk h1 hn hn' hds h2 hd hd' hcn h3 he (attrs ha ho.symm))
  | _ => cases ho

/-! ### Examples -/

/-- A policy text with a list and a macro. -/
def demoPolicy : Str := "- list: l\n  items: [sh, ba]\n- macro: m\n  condition: a = PE\n".toList

/-- The reading of `demoPolicy`, field by field. -/
def demoRead : Option (List Decl) → Bool
  | some [.list ln li, .mac mn [[.binop .eq a b]]] =>
    ln == "l".toList && li == "[sh,ba]".toList && mn == "m".toList && a == "a".toList && b == "PE".toList
  | _ => false

example : demoRead (parsePolicy (ltokens simpleStr demoPolicy)) = true := by decide +kernel

/-- A policy text with a rule whose description spans two lines. -/
def demoPolicy2 : Str := "- rule: S, x\n  desc: a # y\n   b\n  condition: m\n  priority: High\n  tags: [m:T, d]\n".toList

/-- The reading of `demoPolicy2`, field by field. -/
def demoRead2 : Option (List Decl) → Bool
  | some [.rule d] =>
    d.name == "S, x".toList && d.desc == "a # y\n   b".toList && d.severity == some "High".toList && d.tags == some "[m:T,d]".toList
  | _ => false

example : demoRead2 (parsePolicy (ltokens simpleStr demoPolicy2)) = true := by decide +kernel

/-- The list after an output text is lost. -/
example : (parsePolicy (ltokens simpleStr "- rule: r\n  desc: d\n  condition: c\n  output: o\n- list: l\n  items: [a]\n".toList)).map List.length = some 1 := by
  decide +kernel

end Verif.Falco
