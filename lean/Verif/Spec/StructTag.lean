import Verif.Spec.JsonString

/-!
# Specification: struct tags as texts

A conventional struct tag is a list of `key:"value"` pairs, with any number of spaces before each of them and at the end; the value is
a string literal of Go (Go specification, "String literals", "Rune literals"). Independent of the model.
-/

namespace Verif.Spec
open Verif

/-- `h` is the number `n` in hexadecimal digits. -/
inductive HexNum : Bytes → Nat → Prop
  | nil : HexNum [] 0
  | snoc {h : Bytes} {n v : Nat} {d : UInt8} : HexNum h n → hexVal d = some v → HexNum (h ++ [d]) (16 * n + v)

/-- `h` is three octal digits with value `n`. -/
def Octal (h : Bytes) (n : Nat) : Prop :=
  ∃ a b c : Nat, a < 8 ∧ b < 8 ∧ c < 8 ∧ h = [UInt8.ofNat (48 + a), UInt8.ofNat (48 + b), UInt8.ofNat (48 + c)] ∧ n = 64 * a + 8 * b + c

/-- The escapes of one letter in a string literal: `\a \b \f \n \r \t \v \\ \"`. -/
def litEscapes : List (UInt8 × UInt8) :=
  [(97, 7), (98, 8), (102, 12), (110, 10), (114, 13), (116, 9), (118, 11), (92, 92), (34, 34)]

/-- `Lit q v`: what is between the quotes of a string literal, and the bytes it stands for. -/
inductive Lit : Bytes → Bytes → Prop
  | nil : Lit [] []
  | char (c : Char) {q v : Bytes} : c ≠ '"' → c ≠ '\\' → c ≠ '\n' → Lit q v → Lit (enc c ++ q) (enc c ++ v)
  | esc {e b : UInt8} {q v : Bytes} : (e, b) ∈ litEscapes → Lit q v → Lit (92 :: e :: q) (b :: v)
  | byte {h : Bytes} (b : UInt8) {q v : Bytes} : h.length = 2 → HexNum h b.toNat → Lit q v → Lit (92 :: 120 :: (h ++ q)) (b :: v)
  | octal {h : Bytes} (b : UInt8) {q v : Bytes} : Octal h b.toNat → Lit q v → Lit (92 :: (h ++ q)) (b :: v)
  | u {h : Bytes} (c : Char) {q v : Bytes} : h.length = 4 → HexNum h c.toNat → Lit q v → Lit (92 :: 117 :: (h ++ q)) (enc c ++ v)
  | U {h : Bytes} (c : Char) {q v : Bytes} : h.length = 8 → HexNum h c.toNat → Lit q v → Lit (92 :: 85 :: (h ++ q)) (enc c ++ v)

/-- `Unq q v`: what `strconv.Unquote` of Go 1.13 makes of any text `q` between double quotes. Besides string literals it accepts bytes that
are not UTF-8 and escapes of surrogates, which become U+FFFD, and `\U` escapes above 0x7FFFFFFF, which become their last byte. -/
inductive Unq : Bytes → Bytes → Prop
  | nil : Unq [] []
  | char (c : Char) {q v : Bytes} : c ≠ '"' → c ≠ '\\' → c ≠ '\n' → Unq q v → Unq (enc c ++ q) (enc c ++ v)
  | bad (b : UInt8) {q v : Bytes} : (∀ c : Char, ¬ enc c <+: b :: q) → Unq q v → Unq (b :: q) (replacement ++ v)
  | esc {e b : UInt8} {q v : Bytes} : (e, b) ∈ litEscapes → Unq q v → Unq (92 :: e :: q) (b :: v)
  | byte {h : Bytes} (b : UInt8) {q v : Bytes} : h.length = 2 → HexNum h b.toNat → Unq q v → Unq (92 :: 120 :: (h ++ q)) (b :: v)
  | octal {h : Bytes} (b : UInt8) {q v : Bytes} : Octal h b.toNat → Unq q v → Unq (92 :: (h ++ q)) (b :: v)
  | u {h : Bytes} (c : Char) {q v : Bytes} : h.length = 4 → HexNum h c.toNat → Unq q v → Unq (92 :: 117 :: (h ++ q)) (enc c ++ v)
  | U {h : Bytes} (c : Char) {q v : Bytes} : h.length = 8 → HexNum h c.toNat → Unq q v → Unq (92 :: 85 :: (h ++ q)) (enc c ++ v)
  | surr {h : Bytes} {l : UInt8} {n : Nat} {q v : Bytes} : (l = 117 ∧ h.length = 4 ∨ l = 85 ∧ h.length = 8) → HexNum h n →
      0xD800 ≤ n → n < 0xE000 → Unq q v → Unq (92 :: l :: (h ++ q)) (replacement ++ v)
  | negative {h : Bytes} {n : Nat} {q v : Bytes} : h.length = 8 → HexNum h n → 0x80000000 ≤ n → Unq q v →
      Unq (92 :: 85 :: (h ++ q)) (UInt8.ofNat (n % 256) :: v)

/-- A text without a quote, except behind a backslash, and without a backslash at the end. -/
inductive Raw : Bytes → Prop
  | nil : Raw []
  | plain {c : UInt8} {q : Bytes} : c ≠ 34 → c ≠ 92 → Raw q → Raw (c :: q)
  | esc (d : UInt8) {q : Bytes} : Raw q → Raw (92 :: d :: q)

/-- What may stand before the colon: a nonempty text without spaces, control characters, colons and quotes. -/
def TagKeyText (k : Bytes) : Prop := k ≠ [] ∧ ∀ c ∈ k, 32 < c ∧ c ≠ 34 ∧ c ≠ 58 ∧ c ≠ 127

/-- The text is a conventional struct tag with these keys and values. -/
inductive Conventional : Bytes → List (Bytes × Bytes) → Prop
  | nil (n : Nat) : Conventional (List.replicate n 32) []
  | pair (n : Nat) {k q v rest : Bytes} {ps : List (Bytes × Bytes)} : TagKeyText k → Lit q v → Conventional rest ps →
      Conventional (List.replicate n 32 ++ (k ++ 58 :: 34 :: (q ++ 34 :: rest))) ((k, v) :: ps)

/-- `s` is an entry `k:"q"` after spaces, followed by `rest`. -/
def IsEntry (s k q rest : Bytes) : Prop :=
  TagKeyText k ∧ Raw q ∧ ∃ n, s = List.replicate n 32 ++ (k ++ 58 :: 34 :: (q ++ 34 :: rest))

/-- The entries of any text, up to where it stops being a conventional tag. -/
inductive Entries : Bytes → List (Bytes × Bytes) → Prop
  | stop {s : Bytes} : (¬ ∃ k q rest, IsEntry s k q rest) → Entries s []
  | entry {s k q rest : Bytes} {es : List (Bytes × Bytes)} : IsEntry s k q rest → Entries rest es → Entries s ((k, q) :: es)

/-- The value of the first pair with the key. -/
def FirstValue (ps : List (Bytes × Bytes)) (key v : Bytes) : Prop :=
  ∃ a b, ps = a ++ (key, v) :: b ∧ ∀ p ∈ a, p.1 ≠ key

end Verif.Spec
