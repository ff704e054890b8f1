/-
Decimal integers as Go's strconv reads and writes them (Go standard library: strconv.Atoi,
strconv.ParseInt(s, 10, 64), strconv.FormatInt(v, 10)).
-/
namespace Verif.Decimal

abbrev Str := List Char

/-- Value of an ASCII digit. -/
def digit? (c : Char) : Option Nat :=
  if '0' ≤ c ∧ c ≤ '9' then some (c.toNat - 48) else none

/-- Digits to number, left to right; `none` if some character is not a digit. -/
def digitsVal : Nat → Str → Option Nat
  | acc, [] => some acc
  | acc, c :: cs =>
    match digit? c with
    | some d => digitsVal (acc * 10 + d) cs
    | none => none

/-- Unsigned part: at least one digit. -/
def parseNat (s : Str) : Option Nat := if s = [] then none else digitsVal 0 s

/-- Sign and magnitude; `none` for a syntax error. -/
def parseSigned : Str → Option Int
  | '+' :: s => (parseNat s).map Int.ofNat
  | '-' :: s => (parseNat s).map (fun n => -Int.ofNat n)
  | s => (parseNat s).map Int.ofNat

def maxInt64 : Int := 9223372036854775807
def minInt64 : Int := -9223372036854775808

/-- `strconv.ParseInt(s, 10, 64)` / `strconv.Atoi(s)` on a 64-bit platform: value and "err == nil".
A syntax error returns 0; a range error returns the nearest bound. -/
def parseInt (s : Str) : Int × Bool :=
  match parseSigned s with
  | none => (0, false)
  | some n => if n > maxInt64 then (maxInt64, false) else if n < minInt64 then (minInt64, false) else (n, true)

/-- One decimal digit. -/
def digitChar (d : Nat) : Char := Char.ofNat (48 + d)

/-- Decimal digits with a recursion bound. -/
def formatNatF : Nat → Nat → Str
  | 0, _ => []
  | f + 1, n => if n < 10 then [digitChar n] else formatNatF f (n / 10) ++ [digitChar (n % 10)]

/-- Decimal digits of a natural number, most significant first. -/
def formatNat (n : Nat) : Str := formatNatF (n + 1) n

/-- `strconv.FormatInt(v, 10)`. -/
def formatInt : Int → Str
  | .ofNat n => formatNat n
  | .negSucc n => '-' :: formatNat (n + 1)

/-! ### facts -/

theorem digit?_digitChar (d : Nat) (h : d < 10) : digit? (digitChar d) = some d := by
  have : ∀ d : Fin 10, digit? (digitChar d.val) = some d.val := by decide
  exact this ⟨d, h⟩

theorem digitsVal_append (acc : Nat) (a b : Str) :
    digitsVal acc (a ++ b) = (digitsVal acc a).bind (fun m => digitsVal m b) := by
  induction a generalizing acc with
  | nil => rfl
  | cons c cs ih =>
    simp only [List.cons_append, digitsVal]
    cases digit? c with
    | none => rfl
    | some d => exact ih _

theorem digitsVal_formatNatF (f n : Nat) (h : n < f) : digitsVal 0 (formatNatF f n) = some n := by
  induction f generalizing n with
  | zero => omega
  | succ f ih =>
    simp only [formatNatF]
    split
    · rename_i h; simp [digitsVal, digit?_digitChar n h]
    · rw [digitsVal_append, ih (n / 10) (by omega)]
      simp [digitsVal, digit?_digitChar (n % 10) (by omega)]
      omega

theorem digitsVal_formatNat (n : Nat) : digitsVal 0 (formatNat n) = some n :=
  digitsVal_formatNatF _ _ (by omega)

theorem formatNat_ne_nil (n : Nat) : formatNat n ≠ [] := by
  simp only [formatNat, formatNatF]; split <;> simp

theorem digitChar_facts (d : Nat) (h : d < 10) :
    digitChar d ≠ '-' ∧ digitChar d ≠ '+' ∧ digitChar d ≠ ',' ∧ digitChar d ≠ '"' ∧ digitChar d ≠ '\'' := by
  have : ∀ d : Fin 10, digitChar d.val ≠ '-' ∧ digitChar d.val ≠ '+' ∧ digitChar d.val ≠ ',' ∧ digitChar d.val ≠ '"' ∧
      digitChar d.val ≠ '\'' := by decide
  exact this ⟨d, h⟩

theorem mem_formatNatF (f n : Nat) (c : Char) (h : c ∈ formatNatF f n) : ∃ d, d < 10 ∧ c = digitChar d := by
  induction f generalizing n with
  | zero => simp [formatNatF] at h
  | succ f ih =>
    simp only [formatNatF] at h
    split at h
    · rename_i hn; exact ⟨n, hn, by simpa using h⟩
    · rcases List.mem_append.1 h with h | h
      · exact ih _ h
      · exact ⟨n % 10, by omega, by simpa using h⟩

theorem mem_formatNat (n : Nat) (c : Char) (h : c ∈ formatNat n) : ∃ d, d < 10 ∧ c = digitChar d :=
  mem_formatNatF _ _ c h

theorem parseSigned_of_head {s : Str} (h : ∀ c, s.head? = some c → c ≠ '-' ∧ c ≠ '+') :
    parseSigned s = (parseNat s).map Int.ofNat := by
  unfold parseSigned
  split
  · exact absurd rfl (h '+' rfl).2
  · exact absurd rfl (h '-' rfl).1
  · rfl

theorem parseSigned_formatInt (i : Int) : parseSigned (formatInt i) = some i := by
  cases i with
  | ofNat n =>
    rw [formatInt, parseSigned_of_head]
    · simp [parseNat, formatNat_ne_nil, digitsVal_formatNat]
    · intro c hc
      obtain ⟨d, hd, rfl⟩ := mem_formatNat n c (List.mem_of_head? hc)
      exact ⟨(digitChar_facts d hd).1, (digitChar_facts d hd).2.1⟩
  | negSucc n =>
    simp only [formatInt, parseSigned, parseNat, formatNat_ne_nil, if_false, digitsVal_formatNat, Option.map_some]
    rfl

/-- Reading back a written 64-bit integer gives the integer. -/
theorem parseInt_formatInt (i : Int) (h1 : minInt64 ≤ i) (h2 : i ≤ maxInt64) : parseInt (formatInt i) = (i, true) := by
  unfold parseInt
  rw [parseSigned_formatInt]
  simp only
  rw [if_neg (by omega), if_neg (by omega)]

/-- Writing is injective. -/
theorem formatInt_inj {i j : Int} (h : formatInt i = formatInt j) : i = j := by
  have := parseSigned_formatInt i
  rw [h, parseSigned_formatInt] at this
  simpa using this.symm

example : parseInt "-42".toList = (-42, true) ∧ parseInt "x".toList = (0, false) ∧ parseInt "".toList = (0, false) ∧
    parseInt "99999999999999999999".toList = (maxInt64, false) ∧ formatInt (-305) = "-305".toList := by
  decide

end Verif.Decimal
