import Verif.Spec.JsonString

/-!
# Specification: what escaping and unescaping give, for every byte string

`Escapes` and `Unescapes` relate every byte string to one result. Independent of the model.
-/

namespace Verif.Spec
open Verif

/-- A lower case hexadecimal digit. -/
def hexDigit (n : Nat) : UInt8 := if n < 10 then UInt8.ofNat (48 + n) else UInt8.ofNat (87 + n)

/-- The escape `\uXXXX` of a code unit, in lower case. -/
def uEscape (n : Nat) : Bytes :=
  [92, 117, hexDigit (n / 4096 % 16), hexDigit (n / 256 % 16), hexDigit (n / 16 % 16), hexDigit (n % 16)]

/-- Characters that `Escaped` writes as they are: no control characters, no DEL, no quote, backslash or slash, no
U+2028, U+2029 or U+FFFD, and with the HTML flag no `<`, `>` or `&`. -/
def Kept (html : Bool) (c : Char) : Prop :=
  0x20 ≤ c.toNat ∧ c ≠ '"' ∧ c ≠ '\\' ∧ c ≠ '/' ∧ c.toNat ≠ 0x7F ∧ c.toNat ≠ 0x2028 ∧ c.toNat ≠ 0x2029 ∧
  c.toNat ≠ 0xFFFD ∧ (html = true → c ≠ '<' ∧ c ≠ '>' ∧ c ≠ '&')

/-- `Escapes html s t`: `t` is the escaped form of `s`. Characters with a two-character escape get that one, other
characters that are not kept get `\uXXXX`, and so does each byte that starts no character (as U+FFFD). -/
inductive Escapes (html : Bool) : Bytes → Bytes → Prop
  | nil : Escapes html [] []
  | kept (c : Char) {s t : Bytes} : Kept html c → Escapes html s t → Escapes html (enc c ++ s) (enc c ++ t)
  | short {e v : UInt8} {s t : Bytes} : (e, v) ∈ shortEscapes → Escapes html s t → Escapes html (v :: s) (92 :: e :: t)
  | hex (c : Char) {s t : Bytes} : ¬ Kept html c → (∀ p ∈ shortEscapes, c.toNat ≠ p.2.toNat) → Escapes html s t →
      Escapes html (enc c ++ s) (uEscape c.toNat ++ t)
  | bad (b : UInt8) {s t : Bytes} : (∀ c : Char, ¬ enc c <+: b :: s) → Escapes html s t →
      Escapes html (b :: s) (uEscape 0xFFFD ++ t)

/-- The value the code takes a byte after `\u` for: letters up to `z` count as digits, anything else as 255. -/
def looseDigit (b : UInt8) : Nat :=
  let n := b.toNat
  if 48 ≤ n ∧ n ≤ 57 then n - 48          -- '0'..'9'
  else if 65 ≤ n ∧ n ≤ 90 then n - 55     -- 'A'..'Z'
  else if 97 ≤ n ∧ n ≤ 122 then n - 87    -- 'a'..'z'
  else 255

/-- The value of the four bytes after `\u`. For hexadecimal digits this is their number; digits of 16 and more
overlap with the ones before. -/
def looseCode (a b c d : UInt8) : Nat :=
  looseDigit a * 4096 ||| looseDigit b * 256 ||| looseDigit c * 16 ||| looseDigit d

/-- `s` is `\u` and at least four more bytes. -/
def StartsU (s : Bytes) : Prop := [92, 117] <+: s ∧ 6 ≤ s.length

/-- `Unescapes s t`: `t` is what `Unescaped` makes of `s`, also where `s` has malformed escapes. -/
inductive Unescapes : Bytes → Bytes → Prop
  | nil : Unescapes [] []
  | plain (b : UInt8) {s t : Bytes} : b ≠ 92 → Unescapes s t → Unescapes (b :: s) (b :: t)
  | short {e v : UInt8} {s t : Bytes} : (e, v) ∈ shortEscapes → Unescapes s t → Unescapes (92 :: e :: s) (v :: t)
  -- malformed: a backslash at the end, an unknown letter, fewer than four bytes after \u: kept as they are
  | last : Unescapes [92] [92]
  | unknown (e : UInt8) {s t : Bytes} : e ≠ 117 → (∀ p ∈ shortEscapes, e ≠ p.1) → Unescapes s t →
      Unescapes (92 :: e :: s) (92 :: e :: t)
  | few {s t : Bytes} : s.length < 4 → Unescapes s t → Unescapes (92 :: 117 :: s) (92 :: 117 :: t)
  -- \u and four bytes, whatever they are
  | code {a b c d : UInt8} (x : Char) {s t : Bytes} : looseCode a b c d = x.toNat → Unescapes s t →
      Unescapes (92 :: 117 :: a :: b :: c :: d :: s) (enc x ++ t)
  | pair {a b c d a' b' c' d' : UInt8} (x : Char) {s t : Bytes} : HighSurr (looseCode a b c d) →
      LowSurr (looseCode a' b' c' d') →
      x.toNat = 0x10000 + (looseCode a b c d - 0xD800) * 0x400 + (looseCode a' b' c' d' - 0xDC00) → Unescapes s t →
      Unescapes (92 :: 117 :: a :: b :: c :: d :: 92 :: 117 :: a' :: b' :: c' :: d' :: s) (enc x ++ t)
  -- a surrogate takes the next \u escape with it even if they are not a pair
  | swallow {a b c d a' b' c' d' : UInt8} {s t : Bytes} :
      HighSurr (looseCode a b c d) ∨ LowSurr (looseCode a b c d) →
      ¬ (HighSurr (looseCode a b c d) ∧ LowSurr (looseCode a' b' c' d')) → Unescapes s t →
      Unescapes (92 :: 117 :: a :: b :: c :: d :: 92 :: 117 :: a' :: b' :: c' :: d' :: s) (replacement ++ t)
  | lone {a b c d : UInt8} {s t : Bytes} : HighSurr (looseCode a b c d) ∨ LowSurr (looseCode a b c d) →
      ¬ StartsU s → Unescapes s t → Unescapes (92 :: 117 :: a :: b :: c :: d :: s) (replacement ++ t)

end Verif.Spec
