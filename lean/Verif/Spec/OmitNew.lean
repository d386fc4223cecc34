import Verif.Model.UnOmitNew

/-! # Types whose omiter cannot be made -/

namespace Verif.Unjson
open Verif

/-- What Go guarantees of method sets, and how the methods that `UnCodec.lean` knows are found. -/
structure ByName.Ok (U : Univ) (M : ByName) : Prop where
  /-- a pointer to an interface has no methods -/
  ptrIface : ∀ t name, U.isIface t = true → M (.ptr t) name = none
  /-- `omitMethod` has the methods of the other types -/
  same : ∀ t name, U.isIface t = false → ((U.omitMethod name t).isSome ↔ M t name = some true)
  /-- and none of interface types -/
  none : ∀ t name, U.isIface t = true → U.omitMethod name t = none

/-- The type is an interface with a method of this name (of any signature), a pointer to one, or an array of such types without an omit method of its own. -/
inductive OmitBad (U : Univ) (M : ByName) (name : Bytes) : Ty → Prop
  | iface {t} : U.isIface t = true → M t name ≠ none → OmitBad U M name t
  | ptr {t e} : U.base t = .ptr e → M t name ≠ some true → U.isIface e = true → M e name ≠ none → OmitBad U M name t
  | array {t n e} : U.base t = .array n e → M t name ≠ some true → M (.ptr t) name ≠ some true → OmitBad U M name e → OmitBad U M name t

end Verif.Unjson
