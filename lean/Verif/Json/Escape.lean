import Verif.Json.Reader
/-
String escaping of the JSON encoder.
Source: /repo/core/exporter/encoders/json.go:669-761 (`stringNoQuotes`, copied there from
github.com/mailru/easyjson/jwriter) and the library function `Writer.String` it was copied from, which writes the
same characters between quotes (dependency; assumption stated in DESIGN.md).
-/
namespace Verif.Json

/-- `htmlEscapeTable` (json.go:683-685): may the ASCII byte be copied? -/
def plain (c : UInt8) : Bool :=
  !(c.toNat < 32 || c == 0x22 || c == 0x26 || c == 0x3C || c == 0x3E || c == 0x5C)

/-- `chars` (jsonconstants.go:52). -/
def hexDigit (n : Nat) : UInt8 := if n < 10 then UInt8.ofNat (48 + n) else UInt8.ofNat (87 + n)

/-- The `switch c` (json.go:709-724). -/
def escapeAscii (c : UInt8) : Bytes :=
  if c = 9 then [0x5C, 0x74]
  else if c = 13 then [0x5C, 0x72]
  else if c = 10 then [0x5C, 0x6E]
  else if c = 0x5C then [0x5C, 0x5C]
  else if c = 0x22 then [0x5C, 0x22]
  else [0x5C, 0x75, 0x30, 0x30, hexDigit (c.toNat / 16), hexDigit (c.toNat % 16)]

/-- The loop (json.go:698-761). `pend` is `s[p:i]`, the second list `s[i:]`; the result is what is appended to the
buffer. The recursion bound is the number of remaining bytes. -/
def escLoop : Nat → Bytes → Bytes → Bytes
  | 0, pend, _ => pend
  | _ + 1, pend, [] => pend
  | f + 1, pend, c :: r =>
    if c < 0x80 then
      if plain c then escLoop f (pend ++ [c]) r
      else pend ++ escapeAscii c ++ escLoop f [] r
    else
      match Utf8.decodeRune (c :: r) with
      | none => pend ++ [0x5C, 0x75, 0x66, 0x66, 0x66, 0x64] ++ escLoop f [] r
      | some (n, w) =>
        if n = 0x2028 ∨ n = 0x2029 then
          pend ++ [0x5C, 0x75, 0x32, 0x30, 0x32, hexDigit (n % 16)] ++ escLoop f [] ((c :: r).drop w)
        else escLoop f (pend ++ (c :: r).take w) ((c :: r).drop w)

/-- `stringNoQuotes(s, w)` (json.go:690-762) with `NoEscapeHTML` unset (json.go:53). -/
def escape (s : Bytes) : Bytes := escLoop s.length [] s

/-- `Writer.String(s)` of easyjson. -/
def quote (s : Bytes) : Bytes := 0x22 :: (escape s ++ [0x22])

end Verif.Json
