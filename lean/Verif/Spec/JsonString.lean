import Verif.Spec.Utf8

/-!
# Specification: JSON string bodies (RFC 8259 §7)

What may stand between the quotes, and the text it denotes. Independent of the model.
-/

namespace Verif.Spec
open Verif

/-- Value of a hexadecimal digit. -/
def hexVal (b : UInt8) : Option Nat :=
  let n := b.toNat
  if 48 ≤ n ∧ n ≤ 57 then some (n - 48)          -- '0'..'9'
  else if 65 ≤ n ∧ n ≤ 70 then some (n - 55)     -- 'A'..'F'
  else if 97 ≤ n ∧ n ≤ 102 then some (n - 87)    -- 'a'..'f'
  else none

/-- `h` is four hexadecimal digits with value `n`. -/
inductive IsHex4 : Bytes → Nat → Prop
  | mk {a b c d : UInt8} {va vb vc vd : Nat} : hexVal a = some va → hexVal b = some vb → hexVal c = some vc →
      hexVal d = some vd → IsHex4 [a, b, c, d] (va * 4096 + vb * 256 + vc * 16 + vd)

/-- A character that may appear unescaped: %x20-21 / %x23-5B / %x5D-10FFFF. -/
def Unescapable (c : Char) : Prop := 0x20 ≤ c.toNat ∧ c.toNat ≠ 0x22 ∧ c.toNat ≠ 0x5C

/-- The two-character escapes of RFC 8259 §7: letter after the backslash, and the character denoted. -/
def shortEscapes : List (UInt8 × UInt8) :=
  [(0x22, 0x22), (0x5C, 0x5C), (0x2F, 0x2F), (0x62, 0x08), (0x66, 0x0C), (0x6E, 0x0A), (0x72, 0x0D), (0x74, 0x09)]

/-- Legal string bodies of RFC 8259 (the grammar does not restrict which `\u` values occur). -/
inductive RfcBody : Bytes → Prop
  | nil : RfcBody []
  | char (c : Char) {s : Bytes} : Unescapable c → RfcBody s → RfcBody (enc c ++ s)
  | short {e v : UInt8} {s : Bytes} : (e, v) ∈ shortEscapes → RfcBody s → RfcBody (92 :: e :: s)
  | hex {h : Bytes} {n : Nat} {s : Bytes} : IsHex4 h n → RfcBody s → RfcBody (92 :: 117 :: (h ++ s))

/-- Surrogate code units. -/
def HighSurr (n : Nat) : Prop := 0xD800 ≤ n ∧ n < 0xDC00
def LowSurr (n : Nat) : Prop := 0xDC00 ≤ n ∧ n < 0xE000

/-- `s` starts with the escape of a low surrogate. -/
def StartsLow (s : Bytes) : Prop := ∃ h n t, s = 92 :: 117 :: (h ++ t) ∧ IsHex4 h n ∧ LowSurr n

/-- `Denotes follow s t`: the legal string body `s` denotes the UTF-8 text `t`. A surrogate escape that is
not half of a pair denotes U+FFFD; `follow n rest` restricts what may come after such an escape. -/
inductive Denotes (follow : Nat → Bytes → Prop) : Bytes → Bytes → Prop
  | nil : Denotes follow [] []
  | char (c : Char) {s t : Bytes} : Unescapable c → Denotes follow s t → Denotes follow (enc c ++ s) (enc c ++ t)
  | short {e v : UInt8} {s t : Bytes} : (e, v) ∈ shortEscapes → Denotes follow s t →
      Denotes follow (92 :: e :: s) (v :: t)
  | hex {h : Bytes} (c : Char) {s t : Bytes} : IsHex4 h c.toNat → Denotes follow s t →
      Denotes follow (92 :: 117 :: (h ++ s)) (enc c ++ t)
  | pair {h₁ h₂ : Bytes} {hi lo : Nat} (c : Char) {s t : Bytes} : IsHex4 h₁ hi → IsHex4 h₂ lo →
      HighSurr hi → LowSurr lo → c.toNat = 0x10000 + (hi - 0xD800) * 0x400 + (lo - 0xDC00) →
      Denotes follow s t → Denotes follow (92 :: 117 :: (h₁ ++ 92 :: 117 :: (h₂ ++ s))) (enc c ++ t)
  | lone {h : Bytes} {n : Nat} {s t : Bytes} : IsHex4 h n → (HighSurr n ∨ LowSurr n) → follow n s →
      Denotes follow s t → Denotes follow (92 :: 117 :: (h ++ s)) (replacement ++ t)

/-- JSON string semantics: a surrogate is lone unless it is a high one directly followed by a low one. -/
def JsonDenotes : Bytes → Bytes → Prop := Denotes (fun n s => ¬ (HighSurr n ∧ StartsLow s))
/-- Characters that may occur in escaped text (C03). -/
def EscapedChar (html : Bool) (c : Char) : Prop :=
  0x20 ≤ c.toNat ∧ c.toNat ≠ 0x7F ∧ c.toNat ≠ 0x2028 ∧ c.toNat ≠ 0x2029 ∧
  (html = true → c ≠ '<' ∧ c ≠ '>' ∧ c ≠ '&')


end Verif.Spec
