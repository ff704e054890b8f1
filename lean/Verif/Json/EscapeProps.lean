import Verif.Json.Escape
/-
Strings written by the JSON encoder read back.
-/
namespace Verif.Json

/-! ### Specification -/

/-- The code points of a byte string as Go's `range`/`[]rune` gives them: each byte that does not start a valid
encoding counts as U+FFFD. -/
def runesF : Nat → Bytes → List Nat
  | 0, _ => []
  | _ + 1, [] => []
  | f + 1, c :: r =>
    match Utf8.decodeRune (c :: r) with
    | none => 0xFFFD :: runesF f r
    | some (n, w) => n :: runesF f ((c :: r).drop w)

def runes (s : Bytes) : List Nat := runesF s.length s

/-! ### Facts about UTF-8 decoding -/

theorem decodeNat_facts (s : List Nat) (n w : Nat) (h : Utf8.decodeNat s = some (n, w)) :
    1 ≤ w ∧ w ≤ s.length ∧ (∀ t, Utf8.decodeNat (s.take w ++ t) = some (n, w)) ∧
    (s.take w).length = w ∧ (0x80 ≤ s.head?.getD 0 → ∀ b ∈ s.take w, 0x80 ≤ b) := by
  cases s with
  | nil => simp [Utf8.decodeNat] at h
  | cons b0 rest =>
    unfold Utf8.decodeNat at h
    dsimp only at h
    split at h
    · rename_i h0
      simp only [Option.some.injEq, Prod.mk.injEq] at h
      obtain ⟨rfl, rfl⟩ := h
      refine ⟨by omega, by simp, ?_, by simp, ?_⟩
      · intro t; simp [Utf8.decodeNat, h0]
      · intro hh; simp at hh; omega
    · rename_i h0
      split at h
      · rename_i h1
        split at h
        · rename_i b1 r1
          split at h
          · rename_i h2
            simp only [Option.some.injEq, Prod.mk.injEq] at h
            obtain ⟨rfl, rfl⟩ := h
            refine ⟨by omega, by simp, ?_, by simp, ?_⟩
            · intro t
              simp only [List.take_succ_cons, List.take_zero, List.cons_append, List.nil_append, Utf8.decodeNat]
              rw [if_neg h0, if_pos h1, if_pos h2]
            · intro _ b hb
              simp at hb; unfold Utf8.isCont at h2; omega
          · cases h
        · cases h
      · rename_i h1
        split at h
        · rename_i h2
          split at h
          · rename_i b1 b2 r1
            by_cases h3 : (if b0 = 0xE0 then 0xA0 else 0x80) ≤ b1 ∧ b1 ≤ (if b0 = 0xED then 0x9F else 0xBF) ∧ Utf8.isCont b2
            · rw [if_pos h3] at h
              simp only [Option.some.injEq, Prod.mk.injEq] at h
              obtain ⟨rfl, rfl⟩ := h
              refine ⟨by omega, by simp, ?_, by simp, ?_⟩
              · intro t
                simp only [List.take_succ_cons, List.take_zero, List.cons_append, List.nil_append, Utf8.decodeNat]
                rw [if_neg h0, if_neg h1, if_pos h2, if_pos h3]
              · intro _ b hb
                have h4 := h3.1
                have h5 := h3.2.2
                unfold Utf8.isCont at h5
                simp only [List.take_succ_cons, List.take_zero, List.mem_cons, List.not_mem_nil, or_false] at hb
                rcases hb with rfl | rfl | rfl
                · omega
                · split at h4 <;> omega
                · omega
            · rw [if_neg h3] at h; cases h
          · cases h
        · rename_i h2
          split at h
          · rename_i h3
            split at h
            · rename_i b1 b2 b3 r1
              by_cases h4 : (if b0 = 0xF0 then 0x90 else 0x80) ≤ b1 ∧ b1 ≤ (if b0 = 0xF4 then 0x8F else 0xBF) ∧ Utf8.isCont b2 ∧ Utf8.isCont b3
              · rw [if_pos h4] at h
                simp only [Option.some.injEq, Prod.mk.injEq] at h
                obtain ⟨rfl, rfl⟩ := h
                refine ⟨by omega, by simp, ?_, by simp, ?_⟩
                · intro t
                  simp only [List.take_succ_cons, List.take_zero, List.cons_append, List.nil_append, Utf8.decodeNat]
                  rw [if_neg h0, if_neg h1, if_neg h2, if_pos h3, if_pos h4]
                · intro _ b hb
                  have h5 := h4.1
                  have h6 := h4.2.2.1
                  have h7 := h4.2.2.2
                  unfold Utf8.isCont at h6 h7
                  simp only [List.take_succ_cons, List.take_zero, List.mem_cons, List.not_mem_nil, or_false] at hb
                  rcases hb with rfl | rfl | rfl | rfl
                  · omega
                  · split at h5 <;> omega
                  · omega
                  · omega
              · rw [if_neg h4] at h; cases h
            · cases h
          · cases h

theorem decodeRune_facts (s : Bytes) (n w : Nat) (h : Utf8.decodeRune s = some (n, w)) :
    1 ≤ w ∧ w ≤ s.length ∧ (∀ t, Utf8.decodeRune (s.take w ++ t) = some (n, w)) ∧ (s.take w).length = w ∧
    (0x80 ≤ (s.head?.getD 0).toNat → ∀ b ∈ s.take w, 0x80 ≤ b.toNat) := by
  unfold Utf8.decodeRune at *
  obtain ⟨h1, h2, h3, h4, h5⟩ := decodeNat_facts _ _ _ h
  rw [List.length_map] at h2
  refine ⟨h1, h2, ?_, by rw [List.length_take]; omega, ?_⟩
  · intro t
    rw [List.map_append, List.map_take]
    exact h3 _
  · intro hh b hb
    apply h5
    · cases s with
      | nil => simp at hh
      | cons c r => simpa using hh
    · rw [← List.map_take]
      exact List.mem_map_of_mem hb

/-! ### The loop without its pending prefix -/

theorem escLoop_pend (f : Nat) (pend s : Bytes) : escLoop f pend s = pend ++ escLoop f [] s := by
  induction f generalizing pend s with
  | zero => simp [escLoop]
  | succ f ih =>
    cases s with
    | nil => simp [escLoop]
    | cons c r =>
      simp only [escLoop]
      split
      · split
        · rw [ih (pend ++ [c]), ih ([] ++ [c])]; simp
        · simp
      · cases Utf8.decodeRune (c :: r) with
        | none => simp
        | some nw =>
          simp only
          split
          · simp
          · rw [ih (pend ++ _), ih ([] ++ _)]; simp

theorem escape_nil : escape [] = [] := rfl

/-! ### One character -/

theorem u8_lt_80 (c : UInt8) : c < 0x80 ↔ c.toNat < 0x80 := by
  rw [UInt8.lt_iff_toNat_lt]; rfl

theorem u8_lt_20 (c : UInt8) : c < 0x20 ↔ c.toNat < 0x20 := by
  rw [UInt8.lt_iff_toNat_lt]; rfl

/-- every ASCII byte is either copied and then read as itself, or escaped so that it reads as itself -/
theorem ascii_cases : ∀ i : Fin 128, (plain (UInt8.ofNat i.val) = true →
      UInt8.ofNat i.val ≠ 0x22 ∧ UInt8.ofNat i.val ≠ 0x5C ∧ ¬ UInt8.ofNat i.val < 0x20) ∧
    (plain (UInt8.ofNat i.val) = false →
      (escapeAscii (UInt8.ofNat i.val)).all (fun b => 32 ≤ b.toNat && b.toNat < 128) = true ∧
      (escapeAscii (UInt8.ofNat i.val)).head? = some 0x5C) := by
  decide +kernel

theorem ascii_ofNat (c : UInt8) (h : c < 0x80) : ∃ i : Fin 128, c = UInt8.ofNat i.val := by
  rw [u8_lt_80] at h
  exact ⟨⟨c.toNat, h⟩, by simp⟩

theorem hex_read : ∀ i : Fin 16, hexVal? (hexDigit i.val) = some i.val := by decide

theorem readChar_escapeAscii (c : UInt8) (h : c < 0x80) (hp : plain c = false) (t : Bytes) :
    readChar (escapeAscii c ++ t) = some (c.toNat, t) := by
  rw [u8_lt_80] at h
  unfold escapeAscii
  split
  · rename_i h; subst h; rfl
  split
  · rename_i h; subst h; rfl
  split
  · rename_i h; subst h; rfl
  split
  · rename_i h; subst h; rfl
  split
  · rename_i h; subst h; rfl
  · have h1 := hex_read ⟨c.toNat / 16, by omega⟩
    have h2 := hex_read ⟨c.toNat % 16, by omega⟩
    simp only at h1 h2
    have e0 : hexVal? 0x30 = some 0 := rfl
    simp only [List.cons_append, List.nil_append, readChar, if_true, unicodeEsc, hex4, h1, h2, e0]
    rw [if_neg (by omega), if_neg (by omega)]
    simp
    omega

theorem readChar_fffd (t : Bytes) : readChar ([0x5C, 0x75, 0x66, 0x66, 0x66, 0x64] ++ t) = some (0xFFFD, t) := by
  have e1 : hexVal? 0x66 = some 15 := by decide
  have e2 : hexVal? 0x64 = some 13 := by decide
  simp [readChar, unicodeEsc, hex4, e1, e2]

theorem readChar_2028 (n : Nat) (h : n = 0x2028 ∨ n = 0x2029) (t : Bytes) :
    readChar ([0x5C, 0x75, 0x32, 0x30, 0x32, hexDigit (n % 16)] ++ t) = some (n, t) := by
  have e1 : hexVal? 0x32 = some 2 := by decide
  have e2 : hexVal? 0x30 = some 0 := by decide
  have e3 : hexVal? (hexDigit 8) = some 8 := by decide
  have e4 : hexVal? (hexDigit 9) = some 9 := by decide
  rcases h with rfl | rfl <;> simp [readChar, unicodeEsc, hex4, e1, e2, e3, e4]

theorem decodeRune_ascii (c : UInt8) (h : c < 0x80) (t : Bytes) : Utf8.decodeRune (c :: t) = some (c.toNat, 1) := by
  rw [u8_lt_80] at h
  simp [Utf8.decodeRune, Utf8.decodeNat, h]

theorem readChar_plain (c : UInt8) (h : c < 0x80) (hp : plain c = true) (t : Bytes) :
    readChar (c :: t) = some (c.toNat, t) := by
  obtain ⟨i, rfl⟩ := ascii_ofNat c h
  obtain ⟨-, h2, h3⟩ := (ascii_cases i).1 hp
  simp only [readChar]
  rw [if_neg h2, if_neg h3, decodeRune_ascii _ h]
  simp

/-! ### The whole string -/

/-- What the loop writes for the first character, and the rest of the input. -/
theorem readBody_escLoop (f : Nat) (s : Bytes) (g : Nat) (rest : Bytes) (hf : s.length ≤ f)
    (hg : (escLoop f [] s).length < g) :
    readBody g (escLoop f [] s ++ 0x22 :: rest) = some (runesF f s, rest) := by
  induction f generalizing s g with
  | zero =>
    cases s with
    | nil =>
      cases g with
      | zero => omega
      | succ g => simp [escLoop, runesF, readBody]
    | cons c r => simp at hf
  | succ f ih =>
    cases s with
    | nil =>
      cases g with
      | zero => omega
      | succ g => simp [escLoop, runesF, readBody]
    | cons c r =>
      simp only [List.length_cons] at hf
      -- one step of the reader
      have step : ∀ (pre : Bytes) (ch : Nat) (r' : Bytes), pre ≠ [] → pre.head? ≠ some 0x22 →
          (∀ t, readChar (pre ++ t) = some (ch, t)) → r'.length ≤ f → (pre ++ escLoop f [] r').length < g →
          readBody g (pre ++ escLoop f [] r' ++ 0x22 :: rest) = some (ch :: runesF f r', rest) := by
        intro pre ch r' h0 h1 h2 h3 h4
        cases g with
        | zero => omega
        | succ g =>
          cases pre with
          | nil => exact absurd rfl h0
          | cons p ps =>
            have h2' := h2 (escLoop f [] r' ++ 0x22 :: rest)
            simp only [List.cons_append, List.append_assoc] at h2' ⊢
            simp only [readBody]
            rw [if_neg (by intro h; exact h1 (by rw [h]; rfl)), h2']
            simp only
            rw [ih r' g h3 (by simp only [List.cons_append, List.length_cons, List.length_append] at h4; omega)]
      simp only [escLoop] at hg ⊢
      by_cases hc : c < 0x80
      · rw [if_pos hc] at hg ⊢
        have hr : runesF (f + 1) (c :: r) = c.toNat :: runesF f r := by
          simp only [runesF, decodeRune_ascii c hc]; simp
        rw [hr]
        cases hp : plain c with
        | true =>
          rw [hp, if_pos rfl, escLoop_pend, List.nil_append] at hg
          rw [if_pos rfl, escLoop_pend, List.nil_append]
          obtain ⟨i, rfl⟩ := ascii_ofNat c hc
          have hne := ((ascii_cases i).1 hp).1
          exact step [UInt8.ofNat i.val] _ r (by simp) (by simpa using hne) (fun t => readChar_plain _ hc hp t) (by omega) hg
        | false =>
          rw [hp, if_neg (by simp), List.nil_append] at hg
          rw [if_neg (by simp), List.nil_append]
          have hh : (escapeAscii c).head? = some 0x5C := by
            obtain ⟨i, rfl⟩ := ascii_ofNat c hc
            exact ((ascii_cases i).2 hp).2
          exact step (escapeAscii c) _ r (by intro h; rw [h] at hh; cases hh) (by rw [hh]; decide)
            (fun t => readChar_escapeAscii c hc hp t) (by omega) hg
      · rw [if_neg hc] at hg ⊢
        cases hd : Utf8.decodeRune (c :: r) with
        | none =>
          simp only [hd, List.nil_append] at hg
          simp only [runesF, hd, List.nil_append]
          exact step _ _ r (by simp) (by decide) readChar_fffd (by omega) hg
        | some nw =>
          obtain ⟨n, w⟩ := nw
          obtain ⟨w1, w2, w3, w4, w5⟩ := decodeRune_facts _ _ _ hd
          simp only [List.length_cons] at w2
          have hl : ((c :: r).drop w).length ≤ f := by
            rw [List.length_drop, List.length_cons]; omega
          simp only [hd] at hg
          simp only [runesF, hd]
          by_cases hn : n = 0x2028 ∨ n = 0x2029
          · rw [if_pos hn, List.nil_append] at hg ⊢
            exact step _ _ _ (by simp) (by simp) (readChar_2028 n hn) hl hg
          · rw [if_neg hn, escLoop_pend, List.nil_append] at hg ⊢
            have hge : 0x80 ≤ c.toNat := by rw [u8_lt_80] at hc; omega
            refine step ((c :: r).take w) n _ ?_ ?_ ?_ hl hg
            · intro h; rw [h] at w4; simp at w4; omega
            · cases w with
              | zero => omega
              | succ w =>
                simp only [List.take_succ_cons, List.head?_cons, ne_eq, Option.some.injEq]
                intro h; subst h; exact absurd hge (by decide)
            · intro t
              have h3 := w3 t
              cases w with
              | zero => omega
              | succ w =>
                simp only [List.take_succ_cons, List.cons_append] at h3 ⊢
                simp only [readChar]
                rw [if_neg (by intro h; subst h; exact absurd hge (by decide)),
                  if_neg (by rw [u8_lt_20]; omega), h3]
                simp only [List.drop_succ_cons, Option.some.injEq, Prod.mk.injEq, true_and]
                simp only [List.take_succ_cons, List.length_cons] at w4
                have e : (List.take w r).length = w := by omega
                rw [List.drop_append_of_le_length (by omega), List.drop_of_length_le (by omega), List.nil_append]

/-- **C45.** For every byte string, what the encoder writes between the quotes followed by a quote is read by a JSON
reader as the code points of the string, whatever follows; invalid bytes become U+FFFD. -/
theorem string_round_trip (s rest : Bytes) : readString (quote s ++ rest) = some (runes s, rest) := by
  simp only [quote, List.cons_append, List.append_assoc, List.nil_append, readString]
  exact readBody_escLoop s.length s _ rest (Nat.le_refl _) (by simp [escape]; omega)

theorem escLoop_bytes (f : Nat) (s : Bytes) (b : UInt8) (hb : b ∈ escLoop f [] s) : 32 ≤ b.toNat := by
  induction f generalizing s with
  | zero => simp [escLoop] at hb
  | succ f ih =>
    cases s with
    | nil => simp [escLoop] at hb
    | cons c r =>
      simp only [escLoop] at hb
      by_cases hc : c < 0x80
      · rw [if_pos hc] at hb
        cases hp : plain c with
        | true =>
          rw [hp, if_pos rfl, escLoop_pend] at hb
          rcases List.mem_append.1 hb with hb | hb
          · obtain ⟨i, rfl⟩ := ascii_ofNat c hc
            have := ((ascii_cases i).1 hp).2.2
            rw [u8_lt_20] at this
            simp only [List.nil_append, List.mem_singleton] at hb
            subst hb; omega
          · exact ih r hb
        | false =>
          rw [hp, if_neg (by simp), List.nil_append] at hb
          rcases List.mem_append.1 hb with hb | hb
          · obtain ⟨i, rfl⟩ := ascii_ofNat c hc
            have := List.all_eq_true.1 ((ascii_cases i).2 hp).1 b hb
            simp at this; exact this.1
          · exact ih r hb
      · rw [if_neg hc] at hb
        cases hd : Utf8.decodeRune (c :: r) with
        | none =>
          simp only [hd, List.nil_append] at hb
          rcases List.mem_append.1 hb with hb | hb
          · simp only [List.mem_cons, List.not_mem_nil, or_false] at hb
            rcases hb with rfl | rfl | rfl | rfl | rfl | rfl <;> decide
          · exact ih r hb
        | some nw =>
          obtain ⟨n, w⟩ := nw
          obtain ⟨w1, w2, w3, w4, w5⟩ := decodeRune_facts _ _ _ hd
          simp only [hd] at hb
          by_cases hn : n = 0x2028 ∨ n = 0x2029
          · rw [if_pos hn, List.nil_append] at hb
            rcases List.mem_append.1 hb with hb | hb
            · simp only [List.mem_cons, List.not_mem_nil, or_false] at hb
              have e : hexDigit (n % 16) = 0x38 ∨ hexDigit (n % 16) = 0x39 := by
                rcases hn with rfl | rfl
                · exact .inl rfl
                · exact .inr rfl
              rcases hb with rfl | rfl | rfl | rfl | rfl | rfl
              · decide
              · decide
              · decide
              · decide
              · decide
              · rcases e with e | e <;> rw [e] <;> decide
            · exact ih _ hb
          · rw [if_neg hn, escLoop_pend, List.nil_append] at hb
            rcases List.mem_append.1 hb with hb | hb
            · rw [u8_lt_80] at hc
              have := w5 (by simp only [List.head?_cons, Option.getD_some]; omega) b hb
              omega
            · exact ih _ hb

/-- **C45.** A written string contains no control character, in particular no newline, whatever the input. -/
theorem string_no_control (s : Bytes) : ∀ b ∈ quote s, 32 ≤ b.toNat := by
  intro b hb
  simp only [quote, List.mem_cons, List.mem_append, List.not_mem_nil, or_false] at hb
  rcases hb with rfl | hb | rfl
  · decide
  · exact escLoop_bytes _ _ b hb
  · decide

/-- The closing quote is the only unescaped quote: nothing in the string can end it early, so strings cannot inject
members into the exported object. -/
theorem string_cannot_be_closed (s rest : Bytes) :
    ∃ n, readString (quote s ++ rest) = some (n, rest) := ⟨_, string_round_trip s rest⟩

theorem runesF_bytes (s : Verif.Decimal.Str) (f : Nat) (h : (Utf8.bytes s).length ≤ f) : runesF f (Utf8.bytes s) = cps s := by
  induction s generalizing f with
  | nil => cases f <;> rfl
  | cons c s ih =>
    have hne := Utf8.encodeChar_ne_nil c
    have hd := Utf8.decodeRune_encodeChar c (Utf8.bytes s)
    have e : Utf8.bytes (c :: s) = Utf8.encodeChar c ++ Utf8.bytes s := rfl
    rw [e] at h ⊢
    cases hb : Utf8.encodeChar c with
    | nil => exact absurd hb hne
    | cons b bs =>
      rw [hb] at h hd
      cases f with
      | zero => simp at h
      | succ f =>
        simp only [List.cons_append, runesF] at hd ⊢
        rw [hd]
        simp only [cps, List.map_cons, List.cons.injEq, true_and]
        rw [show b :: (bs ++ Utf8.bytes s) = (b :: bs) ++ Utf8.bytes s from rfl,
          List.drop_append_of_le_length (by simp), List.drop_of_length_le (by simp), List.nil_append]
        exact ih f (by simp only [List.cons_append, List.length_cons, List.length_append] at h; omega)

/-- **C45.** For valid text the original text is read back. -/
theorem text_round_trip (s : Verif.Decimal.Str) (rest : Bytes) :
    readString (quote (Utf8.bytes s) ++ rest) = some (cps s, rest) := by
  rw [string_round_trip, runes, runesF_bytes _ _ (Nat.le_refl _)]

/-- Different texts are written differently. -/
theorem quote_injective (s t : Verif.Decimal.Str) (h : quote (Utf8.bytes s) = quote (Utf8.bytes t)) : s = t := by
  have h1 := text_round_trip s []
  rw [h, text_round_trip t []] at h1
  simp only [Option.some.injEq, Prod.mk.injEq, and_true] at h1
  exact (List.map_inj_right (fun a b hab => Utf8.char_toNat_inj a b hab)).1 h1.symm

/-! ### Concrete cases -/

/-- `a"b\n<é` and an invalid byte -/
example : quote [0x61, 0x22, 0x62, 0x0A, 0x3C, 0xC3, 0xA9, 0xFF] =
    Utf8.bytes "\"a\\\"b\\n\\u003cé\\ufffd\"".toList := by decide +kernel

example : runes [0x61, 0x22, 0x62, 0x0A, 0x3C, 0xC3, 0xA9, 0xFF] = [0x61, 0x22, 0x62, 10, 0x3C, 0xE9, 0xFFFD] := by decide +kernel

example : readString (quote [0xE2, 0x80, 0xA8, 0x5C, 1] ++ [0x2C]) = some ([0x2028, 0x5C, 1], [0x2C]) := by decide +kernel

end Verif.Json
