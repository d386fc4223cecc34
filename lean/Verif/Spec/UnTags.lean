import Verif.Bytes

/-! # Specification: struct tags -/

namespace Verif.Spec
open Verif

/-- `name` is what precedes the first comma. -/
def TagName (value name : Bytes) : Prop := 44 ∉ name ∧ (value = name ∨ ∃ rest, value = name ++ 44 :: rest)

/-- `opt` is one of the comma-separated options after the name. -/
def HasOption (value opt : Bytes) : Prop := ∃ a b, value = a ++ 44 :: (opt ++ b) ∧ (b = [] ∨ ∃ c, b = 44 :: c)

end Verif.Spec
