import Verif.Spec.GenDec
import Verif.Spec.UnMapOrder

/-! # Specification: generated UnmarshalNodeJSON applied again -/

namespace Verif.Gen
open Verif Verif.Float Verif.Spec Verif.Njson Verif.Unjson

/-- There is a slice with elements in the value: in a field, behind a pointer or in the array of a slice. -/
inductive Filled : GV → Prop
  | here {arr len} : 0 < len → Filled (.slice arr len)
  | elem {arr len x} : x ∈ arr → Filled x → Filled (.slice arr len)
  | ptr {x} : Filled x → Filled (.ptr x)
  | struct {fs x} : x ∈ fs → Filled x → Filled (.struct fs)

/-- If `UnmarshalJSON` or `UnmarshalText` is called again with the same input, for the value that it left, then it returns the same and changes nothing. -/
def UMethodsAgain (E : Env) : Prop :=
  ∀ m t v s y b, E.U.panics m (.ptr t) (.ptr v) s = false → E.U.unmarshal m (.ptr t) (.ptr v) s = (.ptr y, b) →
    E.U.panics m (.ptr t) (.ptr y) s = false ∧ E.U.unmarshal m (.ptr t) (.ptr y) s = (.ptr y, b)

/-- No field that `UnmarshalNodeJSON` knows is a part of another one. -/
def FieldsApart (E : Env) (o : GenOptions) : Prop :=
  ∀ i, ∀ p ∈ unmarshalPicks E o i, ∀ q ∈ unmarshalPicks E o i, p.name ≠ q.name → Apart p.field.path q.field.path

end Verif.Gen
