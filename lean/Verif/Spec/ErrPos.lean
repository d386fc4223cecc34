import Verif.Spec.Json
import Verif.Model.Parser

/-!
# Specification: what a parse error says

A `ParseError` has the offset of a token, the token that was found there, and what was wanted instead.
-/

namespace Verif.Spec
open Verif Verif.Njson

/-- The bytes that were found. -/
def gotBytes : Got → Bytes
  | .byte c => [c]
  | .str s => s

/-- `y` is something that was wanted: one of the bytes, the literal, or any value. -/
def Meets : Want → Bytes → Prop
  | .oneOf cs, y => ∃ c ∈ cs, y = [c]
  | .str l, y => (l = b!"any value" ∧ ∃ t, LenientValue y t) ∨ (l ≠ b!"any value" ∧ y = l)

/-- The combinations of type, found token and wanted token that occur. -/
inductive ErrShape : Typ → Got → Want → Prop
  | value (c : UInt8) : ErrShape tAnyValue (.byte c) (.str b!"any value")
  | null {s : Bytes} : s.length = 4 → s.head? = some 110 → ErrShape tNull (.str s) (.str b!"null")
  | true {s : Bytes} : s.length = 4 → s.head? = some 116 → ErrShape tBoolean (.str s) (.str b!"true")
  | false {s : Bytes} : s.length = 5 → s.head? = some 102 → ErrShape tBoolean (.str s) (.str b!"false")
  | elems (c : UInt8) : ErrShape tArray (.byte c) (.oneOf [44, 93])
  | object (c : UInt8) : ErrShape tObject (.byte c) (.oneOf [125, 34])
  | colon (c : UInt8) : ErrShape tObject (.byte c) (.oneOf [58])
  | members (c : UInt8) : ErrShape tObject (.byte c) (.oneOf [44, 125])
  | key (c : UInt8) : ErrShape tObject (.byte c) (.oneOf [34])

end Verif.Spec
