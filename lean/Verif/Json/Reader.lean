import Verif.Base.Utf8
/-
Specification: a strict reader for JSON (RFC 8259) without white space. It is independent of the encoder: it
accepts the grammar's values, strings in valid UTF-8 without raw control characters, the escapes of section 7
(with surrogate pairs), and numbers of section 6, which are kept as their text.
-/
namespace Verif.Json

abbrev Bytes := List UInt8

/-- JSON values. Strings are sequences of code points; numbers are kept as written. -/
inductive JVal where
  | null
  | bool (b : Bool)
  | num (text : Bytes)
  | str (s : List Nat)
  | arr (l : List JVal)
  | obj (m : List (List Nat × JVal))

/-! ### Strings -/

def hexVal? (b : UInt8) : Option Nat :=
  if 48 ≤ b.toNat ∧ b.toNat ≤ 57 then some (b.toNat - 48)
  else if 97 ≤ b.toNat ∧ b.toNat ≤ 102 then some (b.toNat - 87)
  else if 65 ≤ b.toNat ∧ b.toNat ≤ 70 then some (b.toNat - 55)
  else none

/-- Four hexadecimal digits. -/
def hex4 : Bytes → Option (Nat × Bytes)
  | a :: b :: c :: d :: r =>
    match hexVal? a, hexVal? b, hexVal? c, hexVal? d with
    | some a, some b, some c, some d => some (a * 4096 + b * 256 + c * 16 + d, r)
    | _, _, _, _ => none
  | _ => none

/-- The two-character escapes. -/
def simpleEsc (b : UInt8) : Option Nat :=
  if b = 0x22 then some 0x22        -- \"
  else if b = 0x5C then some 0x5C   -- \\
  else if b = 0x2F then some 0x2F   -- \/
  else if b = 0x62 then some 8      -- \b
  else if b = 0x66 then some 12     -- \f
  else if b = 0x6E then some 10     -- \n
  else if b = 0x72 then some 13     -- \r
  else if b = 0x74 then some 9      -- \t
  else none

/-- The escape after `\u`: one code unit, or a surrogate pair. -/
def unicodeEsc (s : Bytes) : Option (Nat × Bytes) :=
  match hex4 s with
  | none => none
  | some (u, r) =>
    if 0xD800 ≤ u ∧ u ≤ 0xDBFF then
      match r with
      | 0x5C :: 0x75 :: r' =>
        match hex4 r' with
        | some (v, r'') =>
          if 0xDC00 ≤ v ∧ v ≤ 0xDFFF then some (0x10000 + (u - 0xD800) * 1024 + (v - 0xDC00), r'') else none
        | none => none
      | _ => none
    else if 0xDC00 ≤ u ∧ u ≤ 0xDFFF then none
    else some (u, r)

/-- One character of a string (not the closing quote). -/
def readChar : Bytes → Option (Nat × Bytes)
  | [] => none
  | c :: r =>
    if c = 0x5C then
      match r with
      | [] => none
      | e :: r' =>
        if e = 0x75 then unicodeEsc r'
        else match simpleEsc e with
          | some ch => some (ch, r')
          | none => none
    else if c < 0x20 then none
    else match Utf8.decodeRune (c :: r) with
      | none => none
      | some (n, w) => some (n, (c :: r).drop w)

/-- The characters of a string up to the closing quote, and what follows it. -/
def readBody : Nat → Bytes → Option (List Nat × Bytes)
  | 0, _ => none
  | _ + 1, [] => none
  | f + 1, c :: r =>
    if c = 0x22 then some ([], r)
    else match readChar (c :: r) with
      | none => none
      | some (ch, r') =>
        match readBody f r' with
        | none => none
        | some (s, r'') => some (ch :: s, r'')

/-- A string in quotes. -/
def readString : Bytes → Option (List Nat × Bytes)
  | 0x22 :: r => readBody (r.length + 1) r
  | _ => none

/-! ### Numbers -/

def isDigit (b : UInt8) : Bool := 48 ≤ b.toNat && b.toNat ≤ 57

/-- Characters that can occur in a number. -/
def isNumChar (b : UInt8) : Bool :=
  isDigit b || b == 0x2B || b == 0x2D || b == 0x2E || b == 0x45 || b == 0x65

def digits1 (s : Bytes) : Bool := !s.isEmpty && s.all isDigit

/-- `0` or digits not starting with `0`. -/
def intPart (s : Bytes) : Bool := digits1 s && (s.length == 1 || s.head? != some 0x30)

/-- exponent part after `e`/`E` -/
def expPart : Bytes → Bool
  | 0x2B :: s => digits1 s
  | 0x2D :: s => digits1 s
  | s => digits1 s

/-- Everything after the integer part: optional fraction, optional exponent. -/
def fracExp : Bytes → Bool
  | [] => true
  | 0x2E :: s =>
    let ds := s.takeWhile isDigit
    !ds.isEmpty &&
      match s.drop ds.length with
      | [] => true
      | e :: x => (e == 0x45 || e == 0x65) && expPart x
  | e :: x => (e == 0x45 || e == 0x65) && expPart x

def unsigned (s : Bytes) : Bool :=
  let ds := s.takeWhile isDigit
  intPart ds && fracExp (s.drop ds.length)

/-- The number grammar. -/
def isNumber : Bytes → Bool
  | 0x2D :: s => unsigned s
  | s => unsigned s

/-- A number: the longest run of number characters, which must follow the grammar. -/
def readNumber (s : Bytes) : Option (Bytes × Bytes) :=
  let t := s.takeWhile isNumChar
  if isNumber t then some (t, s.drop t.length) else none

/-! ### Values -/

def tTrue : Bytes := [0x74, 0x72, 0x75, 0x65]
def tFalse : Bytes := [0x66, 0x61, 0x6C, 0x73, 0x65]
def tNull : Bytes := [0x6E, 0x75, 0x6C, 0x6C]

/-- Strip a literal. -/
def lit (t : Bytes) (s : Bytes) : Option Bytes := if t.isPrefixOf s then some (s.drop t.length) else none

mutual
/-- A value and what follows it. -/
def readVal : Nat → Bytes → Option (JVal × Bytes)
  | 0, _ => none
  | _ + 1, [] => none
  | f + 1, c :: r =>
    if c = 0x22 then
      match readString (c :: r) with
      | some (s, r') => some (.str s, r')
      | none => none
    else if c = 0x5B then
      match r with
      | 0x5D :: r' => some (.arr [], r')
      | _ =>
        match readElems f r with
        | some (vs, r') => some (.arr vs, r')
        | none => none
    else if c = 0x7B then
      match r with
      | 0x7D :: r' => some (.obj [], r')
      | _ =>
        match readMembers f r with
        | some (ms, r') => some (.obj ms, r')
        | none => none
    else if c = 0x74 then (lit tTrue (c :: r)).map (fun r' => (.bool true, r'))
    else if c = 0x66 then (lit tFalse (c :: r)).map (fun r' => (.bool false, r'))
    else if c = 0x6E then (lit tNull (c :: r)).map (fun r' => (.null, r'))
    else match readNumber (c :: r) with
      | some (t, r') => some (.num t, r')
      | none => none

/-- One or more values separated by commas, then `]`. -/
def readElems : Nat → Bytes → Option (List JVal × Bytes)
  | 0, _ => none
  | f + 1, s =>
    match readVal f s with
    | none => none
    | some (v, r) =>
      match r with
      | 0x2C :: r' =>
        match readElems f r' with
        | some (vs, r'') => some (v :: vs, r'')
        | none => none
      | 0x5D :: r' => some ([v], r')
      | _ => none

/-- One or more members separated by commas, then `}`. -/
def readMembers : Nat → Bytes → Option (List (List Nat × JVal) × Bytes)
  | 0, _ => none
  | f + 1, s =>
    match readString s with
    | none => none
    | some (k, r) =>
      match r with
      | 0x3A :: r1 =>
        match readVal f r1 with
        | none => none
        | some (v, r2) =>
          match r2 with
          | 0x2C :: r' =>
            match readMembers f r' with
            | some (ms, r'') => some ((k, v) :: ms, r'')
            | none => none
          | 0x7D :: r' => some ([(k, v)], r')
          | _ => none
      | _ => none
end

/-- Read a complete JSON text. -/
def read (s : Bytes) : Option JVal :=
  match readVal (s.length + 1) s with
  | some (v, []) => some v
  | _ => none

/-- The code points of a text. -/
def cps (s : Verif.Decimal.Str) : List Nat := s.map Char.toNat

end Verif.Json
