import Verif.Spec.Gen

/-! # Specification: Go values that differ only in what a generated AppendJSON does not write -/

namespace Verif.Gen
open Verif Verif.Float Verif.Spec Verif.Njson Verif.Unjson

/-- No method of the type is called: it has no marshal methods and no omit method, which would see the whole value. -/
def NoMethods (E : Env) (o : GenOptions) (t : Ty) : Prop := NoMarshal E.U t ∧ E.U.omitMethod o.omitMethod t = none

/-- Two values of type `t` that differ only in what is not written with options `o`: fields of structs that do not take part, what is behind
the length of a slice, whether an empty slice or an empty map is nil. -/
inductive SameWritten (E : Env) (o : GenOptions) : Ty → GV → GV → Prop
  | same {t v} : SameWritten E o t v v
  | ptr {t j v v'} : E.U.base t = .ptr (.struct j) → NoMethods E o t → NoMarshal E.U (.struct j) → SameWritten E o (.struct j) v v' →
      SameWritten E o t (.ptr v) (.ptr v')
  | nilSlice {t e arr} : E.U.base t = .slice e → NoMethods E o t → SameWritten E o t .nilSlice (.slice arr 0)
  | emptySlice {t e arr} : E.U.base t = .slice e → NoMethods E o t → SameWritten E o t (.slice arr 0) .nilSlice
  | slice {t e arr arr' len} : E.U.base t = .slice e → NoMethods E o t → (arr.take len).length = (arr'.take len).length →
      (∀ (i : Nat) x y, (arr.take len)[i]? = some x → (arr'.take len)[i]? = some y → SameWritten E o e x y) →
      SameWritten E o t (.slice arr len) (.slice arr' len)
  | nilMap {t k e} : E.U.base t = .map k e → NoMethods E o t → SameWritten E o t .nilMap (.map [])
  | emptyMap {t k e} : E.U.base t = .map k e → NoMethods E o t → SameWritten E o t (.map []) .nilMap
  | map {t k e es es'} : E.U.base t = .map k e → NoMethods E o t → es.map Prod.fst = es'.map Prod.fst →
      (∀ (i : Nat) p q, es[i]? = some p → es'[i]? = some q → SameWritten E o e p.2 q.2) → SameWritten E o t (.map es) (.map es')
  /-- only the fields that take part are compared -/
  | struct {j fs fs'} : NoMethods E o (.struct j) →
      (∀ p ∈ appendPicks E o j, look (.struct fs) p.field.path = none ↔ look (.struct fs') p.field.path = none) →
      (∀ p ∈ appendPicks E o j, ∀ x y, look (.struct fs) p.field.path = some x → look (.struct fs') p.field.path = some y →
        SameWritten E o p.field.typ x y) →
      SameWritten E o (.struct j) (.struct fs) (.struct fs')

end Verif.Gen
