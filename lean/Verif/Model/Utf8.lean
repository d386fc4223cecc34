import Verif.Bytes

/-!
# Model of the parts of Go's `unicode/utf8` and `unicode/utf16` used by `strjson`

These are standard-library functions (not in the repository); they are modelled from the Go documentation
and source so that the `strjson` model is closed. Runes are natural numbers (never negative here).
-/

namespace Verif

/-- `utf8.RuneSelf` -/
def runeSelf : Nat := 0x80
/-- `utf8.RuneError` -/
def runeError : Nat := 0xFFFD

/-- continuation byte within an accept range `[lo, hi]` -/
def inRange (lo hi : Nat) (b : UInt8) : Bool := decide (lo ≤ b.toNat ∧ b.toNat ≤ hi)

/-- Lower bound of the accept range for the second byte, given the first (Go's `acceptRanges`). -/
def acceptLo (n : Nat) : Nat := if n = 0xE0 then 0xA0 else if n = 0xF0 then 0x90 else 0x80
/-- Upper bound of the accept range for the second byte, given the first (Go's `acceptRanges`). -/
def acceptHi (n : Nat) : Nat := if n = 0xED then 0x9F else if n = 0xF4 then 0x8F else 0xBF

/-- `utf8.DecodeRuneInString`: the first rune of `s` and its width. `(RuneError, 0)` for the empty string,
`(RuneError, 1)` when the bytes at the front are not a well-formed encoding. -/
def decodeRune : Bytes → Nat × Nat
  | [] => (runeError, 0)
  | b0 :: rest =>
    let n := b0.toNat
    if n < 0x80 then (n, 1)
    else if n < 0xC2 then (runeError, 1)
    else if n < 0xE0 then
      match rest with
      | b1 :: _ =>
        if inRange 0x80 0xBF b1 then (n % 32 * 64 + b1.toNat % 64, 2) else (runeError, 1)
      | _ => (runeError, 1)
    else if n < 0xF0 then
      match rest with
      | b1 :: b2 :: _ =>
        if inRange (acceptLo n) (acceptHi n) b1 && inRange 0x80 0xBF b2 then
          (n % 16 * 4096 + b1.toNat % 64 * 64 + b2.toNat % 64, 3)
        else (runeError, 1)
      | _ => (runeError, 1)
    else if n < 0xF5 then
      match rest with
      | b1 :: b2 :: b3 :: _ =>
        if inRange (acceptLo n) (acceptHi n) b1 && inRange 0x80 0xBF b2 && inRange 0x80 0xBF b3 then
          (n % 8 * 262144 + b1.toNat % 64 * 4096 + b2.toNat % 64 * 64 + b3.toNat % 64, 4)
        else (runeError, 1)
      | _ => (runeError, 1)
    else (runeError, 1)

/-- `utf16.IsSurrogate` -/
def isSurrogate (r : Nat) : Bool := decide (0xD800 ≤ r ∧ r < 0xE000)

/-- `utf16.DecodeRune`: the rune of a surrogate pair, or U+FFFD if it is not one. -/
def utf16DecodeRune (r1 r2 : Nat) : Nat :=
  if 0xD800 ≤ r1 ∧ r1 < 0xDC00 ∧ 0xDC00 ≤ r2 ∧ r2 < 0xE000 then
    (r1 - 0xD800) * 1024 + (r2 - 0xDC00) + 0x10000
  else runeError

/-- `utf8.EncodeRune` / `strings.Builder.WriteRune`: the bytes written for a rune; surrogates and values
above U+10FFFF are written as U+FFFD. -/
def encodeRune (r : Nat) : Bytes :=
  if r ≤ 0x7F then [UInt8.ofNat r]
  else if r ≤ 0x7FF then [UInt8.ofNat (0xC0 + r / 64), UInt8.ofNat (0x80 + r % 64)]
  else if 0x10FFFF < r ∨ isSurrogate r then [0xEF, 0xBF, 0xBD]
  else if r ≤ 0xFFFF then
    [UInt8.ofNat (0xE0 + r / 4096), UInt8.ofNat (0x80 + r / 64 % 64), UInt8.ofNat (0x80 + r % 64)]
  else
    [UInt8.ofNat (0xF0 + r / 262144), UInt8.ofNat (0x80 + r / 4096 % 64),
     UInt8.ofNat (0x80 + r / 64 % 64), UInt8.ofNat (0x80 + r % 64)]

end Verif
