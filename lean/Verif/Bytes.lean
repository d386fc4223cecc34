/-!
# Bytes

Go strings and byte slices are modelled as lists of `UInt8`.
-/

namespace Verif

/-- A Go string or the visible part of a `[]byte`. -/
abbrev Bytes := List UInt8

open Lean in
/-- `b!"text"` is the list of the UTF-8 bytes of a string literal, expanded when the file is elaborated. -/
scoped macro:max "b!" s:str : term => do
  let elems ← s.getString.toUTF8.toList.toArray.mapM fun b => `(($(quote b.toNat) : UInt8))
  `(([$elems,*] : List UInt8))

/-- A statement about all 256 bytes can be checked on the numbers below 256. -/
theorem forall_byte {P : UInt8 → Prop} (h : ∀ n, n < 256 → P (UInt8.ofNat n)) (c : UInt8) : P c := by
  have := h c.toNat c.toNat_lt
  simpa using this

theorem forall_byte₂ {P : UInt8 → UInt8 → Prop}
    (h : ∀ n, n < 256 → ∀ m, m < 256 → P (UInt8.ofNat n) (UInt8.ofNat m)) (c d : UInt8) : P c d := by
  have := h c.toNat c.toNat_lt d.toNat d.toNat_lt
  simpa using this

end Verif
