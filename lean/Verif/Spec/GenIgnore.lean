import Verif.Spec.GenDec

/-! # Specification: JSON trees that differ only in what generated code does not read -/

namespace Verif.Gen
open Verif Verif.Float Verif.Spec Verif.Njson Verif.Unjson

mutual
/-- Two trees that differ only in what has no place in a variable of type `t`: members of objects whose name belongs to no field of
the struct. Times, durations and types with unmarshal methods see the whole tree. -/
inductive GSameRead (E : Env) (o : GenOptions) : Ty → JVal → JVal → Prop
  | same {t j} : GSameRead E o t j j
  | ptr {t e j j'} : ¬ Unmarshals E t → E.U.base t = .ptr e → GSameRead E o e j j' → GSameRead E o t j j'
  | slice {t e xs ys} : ¬ Unmarshals E t → E.U.base t = .slice e → GSameElems E o e xs ys → GSameRead E o t (.arr xs) (.arr ys)
  | map {t k e ms ns} : ¬ Unmarshals E t → E.U.base t = .map k e → GSameEntries E o e ms ns → GSameRead E o t (.obj ms) (.obj ns)
  | struct {j ms ns} : ¬ Unmarshals E (.struct j) → GSameMembers E o j ms ns → GSameRead E o (.struct j) (.obj ms) (.obj ns)
inductive GSameElems (E : Env) (o : GenOptions) : Ty → List JVal → List JVal → Prop
  | nil {t} : GSameElems E o t [] []
  | cons {t x y xs ys} : GSameRead E o t x y → GSameElems E o t xs ys → GSameElems E o t (x :: xs) (y :: ys)
inductive GSameEntries (E : Env) (o : GenOptions) : Ty → List (Bytes × JVal) → List (Bytes × JVal) → Prop
  | nil {t} : GSameEntries E o t [] []
  | cons {t k x y ms ns} : GSameRead E o t x y → GSameEntries E o t ms ns → GSameEntries E o t ((k, x) :: ms) ((k, y) :: ns)
/-- Members for the fields of struct type `i`: those that belong to no field are left out on either side. -/
inductive GSameMembers (E : Env) (o : GenOptions) : Nat → List (Bytes × JVal) → List (Bytes × JVal) → Prop
  | nil {i} : GSameMembers E o i [] []
  | left {i k x ms ns} : (∀ p ∈ unmarshalPicks E o i, p.name ≠ k) → GSameMembers E o i ms ns → GSameMembers E o i ((k, x) :: ms) ns
  | right {i k y ms ns} : (∀ p ∈ unmarshalPicks E o i, p.name ≠ k) → GSameMembers E o i ms ns → GSameMembers E o i ms ((k, y) :: ns)
  | both {i k x y ms ns} : (∀ p ∈ unmarshalPicks E o i, p.name = k → GSameRead E o p.field.typ x y) → GSameMembers E o i ms ns →
      GSameMembers E o i ((k, x) :: ms) ((k, y) :: ns)
end

end Verif.Gen
