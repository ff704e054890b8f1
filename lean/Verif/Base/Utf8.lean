import Verif.Base.Decimal
/-
UTF-8 as in Go's `unicode/utf8` (standard library, trusted reading): the encoding of a character and
`DecodeRune` on arbitrary bytes.
-/
namespace Verif.Utf8
open Verif.Decimal (Str)

/-- `utf8.EncodeRune` for a valid rune, as byte values. -/
def encodeNat (n : Nat) : List Nat :=
  if n < 0x80 then [n]
  else if n < 0x800 then [0xC0 + n / 64, 0x80 + n % 64]
  else if n < 0x10000 then [0xE0 + n / 4096, 0x80 + n / 64 % 64, 0x80 + n % 64]
  else [0xF0 + n / 262144, 0x80 + n / 4096 % 64, 0x80 + n / 64 % 64, 0x80 + n % 64]

/-- The UTF-8 bytes of a character. -/
def encodeChar (c : Char) : List UInt8 := (encodeNat c.toNat).map UInt8.ofNat

/-- The UTF-8 bytes of a text: Go's `[]byte(s)`. -/
def bytes (s : Str) : List UInt8 := s.flatMap encodeChar

/-- Is the byte a continuation byte? -/
abbrev isCont (b : Nat) : Prop := 0x80 ≤ b ∧ b ≤ 0xBF

/-- `utf8.DecodeRune` on byte values: `some (rune, size)` for a valid encoding at the front, `none` for
`(RuneError, 1)` (and for the empty input). -/
def decodeNat : List Nat → Option (Nat × Nat)
  | [] => none
  | b0 :: rest =>
    if b0 < 0x80 then some (b0, 1)
    else if 0xC2 ≤ b0 ∧ b0 ≤ 0xDF then
      match rest with
      | b1 :: _ => if isCont b1 then some ((b0 - 0xC0) * 64 + (b1 - 0x80), 2) else none
      | _ => none
    else if 0xE0 ≤ b0 ∧ b0 ≤ 0xEF then
      match rest with
      | b1 :: b2 :: _ =>
        if (if b0 = 0xE0 then 0xA0 else 0x80) ≤ b1 ∧ b1 ≤ (if b0 = 0xED then 0x9F else 0xBF) ∧ isCont b2 then
          some ((b0 - 0xE0) * 4096 + (b1 - 0x80) * 64 + (b2 - 0x80), 3) else none
      | _ => none
    else if 0xF0 ≤ b0 ∧ b0 ≤ 0xF4 then
      match rest with
      | b1 :: b2 :: b3 :: _ =>
        if (if b0 = 0xF0 then 0x90 else 0x80) ≤ b1 ∧ b1 ≤ (if b0 = 0xF4 then 0x8F else 0xBF) ∧ isCont b2 ∧ isCont b3 then
          some ((b0 - 0xF0) * 262144 + (b1 - 0x80) * 4096 + (b2 - 0x80) * 64 + (b3 - 0x80), 4) else none
      | _ => none
    else none

/-- `utf8.DecodeRune`. -/
def decodeRune (bs : List UInt8) : Option (Nat × Nat) := decodeNat (bs.map UInt8.toNat)

/-- Unicode scalar values. -/
def IsScalar (n : Nat) : Prop := n < 0xD800 ∨ (0xDFFF < n ∧ n < 0x110000)

theorem char_scalar (c : Char) : IsScalar c.toNat := c.valid

theorem decodeNat_encodeNat (n : Nat) (h : IsScalar n) (rest : List Nat) :
    decodeNat (encodeNat n ++ rest) = some (n, (encodeNat n).length) := by
  have hs : n < 0xD800 ∨ (0xDFFF < n ∧ n < 0x110000) := h
  unfold encodeNat
  by_cases h1 : n < 0x80
  · simp [h1, decodeNat]
  · by_cases h2 : n < 0x800
    · rw [if_neg h1, if_pos h2]
      simp only [List.cons_append, List.nil_append, decodeNat]
      rw [if_neg (by omega), if_pos (by omega), if_pos (by unfold isCont; omega)]
      simp; omega
    · by_cases h3 : n < 0x10000
      · rw [if_neg h1, if_neg h2, if_pos h3]
        simp only [List.cons_append, List.nil_append, decodeNat]
        have e : n / 64 / 64 = n / 4096 := by rw [Nat.div_div_eq_div_mul]
        rw [if_neg (by omega), if_neg (by omega), if_pos (by omega), if_pos ⟨by split <;> omega, by split <;> omega, by unfold isCont; omega⟩]
        simp; omega
      · rw [if_neg h1, if_neg h2, if_neg h3]
        simp only [List.cons_append, List.nil_append, decodeNat]
        have e : n / 64 / 64 = n / 4096 := by rw [Nat.div_div_eq_div_mul]
        have e' : n / 4096 / 64 = n / 262144 := by rw [Nat.div_div_eq_div_mul]
        rw [if_neg (by omega), if_neg (by omega), if_neg (by omega), if_pos (by omega),
          if_pos ⟨by split <;> omega, by split <;> omega, by unfold isCont; omega, by unfold isCont; omega⟩]
        simp; omega

theorem encodeNat_lt (n : Nat) (h : IsScalar n) : ∀ b ∈ encodeNat n, b < 256 := by
  have hs : n < 0xD800 ∨ (0xDFFF < n ∧ n < 0x110000) := h
  intro b hb
  unfold encodeNat at hb
  split at hb
  · simp at hb; omega
  · split at hb
    · simp at hb; omega
    · split at hb <;> simp at hb <;> omega

theorem toNat_encodeChar (c : Char) : (encodeChar c).map UInt8.toNat = encodeNat c.toNat := by
  unfold encodeChar
  rw [List.map_map]
  conv => rhs; rw [← List.map_id (encodeNat c.toNat)]
  apply List.map_congr_left
  intro b hb
  have := encodeNat_lt _ (char_scalar c) b hb
  simp only [Function.comp, UInt8.toNat_ofNat', id]
  omega

/-- Decoding the bytes of a character gives it back, whatever follows. -/
theorem decodeRune_encodeChar (c : Char) (rest : List UInt8) :
    decodeRune (encodeChar c ++ rest) = some (c.toNat, (encodeChar c).length) := by
  unfold decodeRune
  rw [List.map_append, toNat_encodeChar, decodeNat_encodeNat _ (char_scalar c)]
  simp [encodeChar]

theorem char_toNat_inj (c d : Char) (h : c.toNat = d.toNat) : c = d := by
  apply Char.ext
  exact UInt32.toNat_inj.1 h

theorem encodeChar_ne_nil (c : Char) : encodeChar c ≠ [] := by
  unfold encodeChar encodeNat
  split
  · simp
  · split
    · simp
    · split <;> simp

/-- Different texts have different bytes. -/
theorem bytes_injective (s t : Str) (h : bytes s = bytes t) : s = t := by
  induction s generalizing t with
  | nil =>
    cases t with
    | nil => rfl
    | cons d t =>
      simp only [bytes, List.flatMap_nil, List.flatMap_cons] at h
      exact absurd (List.append_eq_nil_iff.1 h.symm).1 (encodeChar_ne_nil d)
  | cons c s ih =>
    cases t with
    | nil =>
      simp only [bytes, List.flatMap_nil, List.flatMap_cons] at h
      exact absurd (List.append_eq_nil_iff.1 h).1 (encodeChar_ne_nil c)
    | cons d t =>
      simp only [bytes, List.flatMap_cons] at h
      have h1 := decodeRune_encodeChar c (s.flatMap encodeChar)
      have h2 := decodeRune_encodeChar d (t.flatMap encodeChar)
      rw [h, h2] at h1
      simp only [Option.some.injEq, Prod.mk.injEq] at h1
      have hcd := char_toNat_inj d c h1.1
      subst hcd
      rw [ih t (List.append_cancel_left h)]

end Verif.Utf8
