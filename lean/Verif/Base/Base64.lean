import Verif.Base.Decimal
/-
Base64 (RFC 4648, standard alphabet, padded): `base64.StdEncoding` of the Go standard library, and an
independent decoder.
-/
namespace Verif.Base64
open Verif.Decimal (Str)

/-- The standard alphabet. -/
def alphabet : List Char := "ABCDEFGHIJKLMNOPQRSTUVWXYZabcdefghijklmnopqrstuvwxyz0123456789+/".toList

/-- The character of a 6-bit value. -/
def sym (n : Nat) : Char := alphabet.getD n 'A'

/-- The 6-bit value of a character. -/
def unsym (c : Char) : Option Nat := if c ∈ alphabet then some (alphabet.findIdx (· == c)) else none

/-- `StdEncoding.EncodeToString` on byte values. -/
def encode : List Nat → Str
  | [] => []
  | [a] => [sym (a / 4), sym (a % 4 * 16), '=', '=']
  | [a, b] => [sym (a / 4), sym (a % 4 * 16 + b / 16), sym (b % 16 * 4), '=']
  | a :: b :: c :: rest =>
    sym (a / 4) :: sym (a % 4 * 16 + b / 16) :: sym (b % 16 * 4 + c / 64) :: sym (c % 64) :: encode rest

/-- A decoder: groups of four symbols, the last of which may be padded. -/
def decode : Str → Option (List Nat)
  | [] => some []
  | w :: x :: y :: z :: rest =>
    if y = '=' ∧ z = '=' ∧ rest = [] then do
      let w ← unsym w; let x ← unsym x
      pure [w * 4 + x / 16]
    else if z = '=' ∧ rest = [] then do
      let w ← unsym w; let x ← unsym x; let y ← unsym y
      pure [w * 4 + x / 16, x % 16 * 16 + y / 4]
    else do
      let w ← unsym w; let x ← unsym x; let y ← unsym y; let z ← unsym z
      let r ← decode rest
      pure ((w * 4 + x / 16) :: (x % 16 * 16 + y / 4) :: (y % 4 * 64 + z) :: r)
  | _ => none

theorem unsym_sym (n : Nat) (h : n < 64) : unsym (sym n) = some n ∧ sym n ≠ '=' := by
  have : ∀ k : Fin 64, unsym (sym k) = some k.val ∧ sym k ≠ '=' := by decide +kernel
  exact this ⟨n, h⟩

theorem decode_encode (bs : List Nat) (h : ∀ b ∈ bs, b < 256) : decode (encode bs) = some bs := by
  fun_induction encode bs with
  | case1 => rfl
  | case2 a =>
    have ha := h a (by simp)
    have h1 := unsym_sym (a / 4) (by omega)
    have h2 := unsym_sym (a % 4 * 16) (by omega)
    simp [decode, h1.1, h2.1]; omega
  | case3 a b =>
    have ha := h a (by simp)
    have hb := h b (by simp)
    have h1 := unsym_sym (a / 4) (by omega)
    have h2 := unsym_sym (a % 4 * 16 + b / 16) (by omega)
    have h3 := unsym_sym (b % 16 * 4) (by omega)
    simp [decode, h1.1, h2.1, h3.1, h3.2]; omega
  | case4 a b c rest ih =>
    have ha := h a (by simp)
    have hb := h b (by simp)
    have hc := h c (by simp)
    have h1 := unsym_sym (a / 4) (by omega)
    have h2 := unsym_sym (a % 4 * 16 + b / 16) (by omega)
    have h3 := unsym_sym (b % 16 * 4 + c / 64) (by omega)
    have h4 := unsym_sym (c % 64) (by omega)
    simp [decode, h1.1, h2.1, h3.1, h3.2, h4.1, h4.2, ih (fun x hx => h x (by simp [hx]))]; omega

/-- The encoded text consists of alphabet symbols and padding, and its length is a multiple of four. -/
theorem encode_shape (bs : List Nat) : (encode bs).length = (bs.length + 2) / 3 * 4 := by
  fun_induction encode bs with
  | case1 => rfl
  | case2 a => simp
  | case3 a b => simp
  | case4 a b c rest ih => simp [ih]; omega

example : encode [77, 97, 110] = "TWFu".toList ∧ encode [77, 97] = "TWE=".toList ∧ encode [77] = "TQ==".toList := by decide +kernel

end Verif.Base64
