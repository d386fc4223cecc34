import Verif.Model.Parser
import Verif.Model.Types
import Verif.Model.UnTypes
import Verif.Model.Utf8

/-!
# Model of `error.go`: the texts of errors

The verbs of package fmt that are used, and `strconv.Quote` (strconv/quote.go of Go 1.13), are modelled after their source. Which characters
above U+00FF are printable is a parameter (`hi`).
-/

namespace Verif.ErrText
open Verif Verif.Njson

/-- `lowerhex[n]` -/
def lowerHex (n : Nat) : UInt8 := if n < 10 then UInt8.ofNat (48 + n) else UInt8.ofNat (87 + n)

/-- `k` hexadecimal digits -/
def hexFixed : Nat → Nat → Bytes
  | 0, _ => []
  | k + 1, n => hexFixed k (n / 16) ++ [lowerHex (n % 16)]

/-- strconv `IsPrint` -/
def isPrint (hi : Nat → Bool) (r : Nat) : Bool :=
  if r ≤ 0xFF then (0x20 ≤ r && r < 0x7F) || (0xA1 ≤ r && r ≠ 0xAD) else hi r

/-- strconv `appendEscapedRune` -/
def escapedRune (hi : Nat → Bool) (quote r : Nat) : Bytes :=
  if r = quote ∨ r = 92 then [92, UInt8.ofNat r]
  else if isPrint hi r then encodeRune r
  else if r = 7 then b!"\\a"
  else if r = 8 then b!"\\b"
  else if r = 12 then b!"\\f"
  else if r = 10 then b!"\\n"
  else if r = 13 then b!"\\r"
  else if r = 9 then b!"\\t"
  else if r = 11 then b!"\\v"
  else if r < 32 then 92 :: 120 :: hexFixed 2 r
  else if r < 0x10000 then 92 :: 117 :: hexFixed 4 r
  else 92 :: 85 :: hexFixed 8 r

/-- strconv `appendQuotedWith`: the loop; the first argument bounds the number of rounds. -/
def quotedLoop (hi : Nat → Bool) : Nat → Bytes → Bytes
  | _, [] => []
  | 0, _ :: _ => []
  | fuel + 1, c :: s =>
    let r := if c < 0x80 then (c.toNat, 1) else decodeRune (c :: s)
    (if r.2 = 1 ∧ r.1 = runeError then 92 :: 120 :: hexFixed 2 c.toNat else escapedRune hi 34 r.1) ++ quotedLoop hi fuel ((c :: s).drop r.2)

/-- `%q` of a string -/
def quoteStr (hi : Nat → Bool) (s : Bytes) : Bytes := [34] ++ quotedLoop hi s.length s ++ [34]

/-- `%q` of a byte or a rune below 256: a character literal of the code point -/
def quoteByte (c : UInt8) : Bytes := [39] ++ escapedRune (fun _ => false) 39 c.toNat ++ [39]

/-- `%q` of `got`: a byte or a string -/
def gotText (hi : Nat → Bool) : Got → Bytes
  | .byte c => quoteByte c
  | .str s => quoteStr hi s

/-- `%q` of `want`: a string, a rune (parser.go:339, :370) or a slice of runes -/
def wantText (hi : Nat → Bool) : Want → Bytes
  | .str s => quoteStr hi s
  | .oneOf [c] => quoteByte c
  | .oneOf cs => sprint (cs.map quoteByte)

/-- error.go:40-45, :50-52 `ParseError.Error` and `UnexpectedEOF.Error` -/
def perrText (hi : Nat → Bool) : PErr → Bytes
  | .abort pos typ got want =>
    b!"Invalid token " ++ gotText hi got ++ b!" != " ++ wantText hi want ++ b!" at position " ++ Unjson.formatUint pos ++ b!" while scanning " ++ typString typ
  | .eof typ => b!"Unexpected end of input while scanning " ++ typString typ

/-- error.go:15-20 `typeError.Error` -/
def typeErrorText (t want : Typ) : Bytes :=
  if want &&& t ≠ 0 then b!"Invalid value for type " ++ typString t
  else b!"Invalid type " ++ typString t ++ b!" not in " ++ sprint ((typTypes want).map typString)

end Verif.ErrText
