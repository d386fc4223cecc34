import Verif.Bytes

/-!
# Specification: UTF-8 text

The yardstick is Lean's own `Char` (a Unicode scalar value) and `String.utf8EncodeChar` (its UTF-8 encoding),
not anything in the model.
-/

namespace Verif.Spec
open Verif

/-- UTF-8 encoding of a Unicode scalar value (Lean core). -/
abbrev enc (c : Char) : Bytes := String.utf8EncodeChar c

/-- `s` is well-formed UTF-8: a concatenation of encodings of Unicode scalar values. -/
def ValidUtf8 (s : Bytes) : Prop := ∃ cs : List Char, s = cs.flatMap enc

/-- UTF-8 of U+FFFD REPLACEMENT CHARACTER. -/
def replacement : Bytes := [0xEF, 0xBF, 0xBD]

/-- `Sanitized s t`: `t` is `s` with every byte that does not start a well-formed UTF-8 sequence replaced by
U+FFFD, and nothing else changed. -/
inductive Sanitized : Bytes → Bytes → Prop
  | nil : Sanitized [] []
  | char (c : Char) {s t : Bytes} : Sanitized s t → Sanitized (enc c ++ s) (enc c ++ t)
  | bad (b : UInt8) {s t : Bytes} : (∀ c : Char, ¬ enc c <+: b :: s) → Sanitized s t →
      Sanitized (b :: s) (replacement ++ t)

end Verif.Spec
